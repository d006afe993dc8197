import Verif.Bliss.Model
import Mathlib.Algebra.BigOperators.Group.List.Basic
/-! # Specification of the tasks on Bliss scans -/
namespace SC.Bliss
open SC.Py

/-- The sum of finite values. -/
def total (l : List Val) : Val := if l.all Option.isSome then some ((l.filterMap id).sum) else none

/-- The counter of the live time of a detector. -/
def LiveCounter (d : Det) (f : List Nat → Rat) : Prop := d.live = some f ∨ d.live = none ∧ d.outputLive = some f

/-- The number of patterns that match a name. -/
def matches' (patterns : List (Name → Bool)) (n : Name) : Nat := patterns.countP fun p => p n

/-- A signal in the results of a detector. -/
def signal (f : Fitted) (k s : Name) : Option (List Val) := (f.get? k).bind fun d => d.get? s

/-- The values that the detectors add at position `j` to a signal with `n` values. -/
def contributions (fits : List Fitted) (k s : Name) (n j : Nat) : List Val :=
  fits.filterMap fun f => ((signal f k s).filter fun w => w.length = n).bind fun w => w[j]?

/-- The results of a detector are dictionaries. -/
def Fitted.OK (f : Fitted) : Prop := Dict.WF f ∧ ∀ k d, f.get? k = some d → Dict.WF d

end SC.Bliss
