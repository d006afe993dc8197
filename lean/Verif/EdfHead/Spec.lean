import Verif.EdfHead.Model
/-! # What the axes of an image should be -/
namespace SC.EdfHead
open SC.Scan (Str)
open SC.Py (Dict)

/-- The centres of `n` equal pixels between `s` and `e`. -/
def centres (s e : Rat) (n : Nat) : List Rat := (List.range n).map fun (i : Nat) => s + ((i : Rat) + 1 / 2) * ((e - s) / n)

/-- The `n + 1` points of `n` equal steps from `s` to `e`. -/
def points (s e : Rat) (n : Nat) : List Rat := (List.range (n + 1)).map fun (i : Nat) => s + (i : Rat) * ((e - s) / n)

/-- The position of a motor according to the header: zero when it is not there. -/
def position (c : Cfg) (h : Header) (v : Str) : Rat := match h v with
  | none => 0
  | some t => ((c.float t).getD 0) * c.unit (some v)

/-- The motors that compensate motor `m`. -/
def partners (c : Cfg) (m : Str) : List Str := (Dict.get? c.compensation m).getD []

/-- The sum of the positions of the motors that compensate motor `m`. -/
def offset (c : Cfg) (h : Header) (m : Str) : Rat := ((partners c m).map (position c h)).sum

/-- The name of the axis: mapped once for every compensating motor in the header. -/
def axisName (c : Cfg) (h : Header) (m : Str) : Str :=
  (fun x => (Dict.get? c.namemap x).getD x)^[((partners c m).filter fun v => (h v).isSome).length] m

/-- Labels of other values are no compensating motors. -/
def Separate (c : Cfg) : Prop := ∀ k ∈ c.otherlabels, ∀ x ∈ c.compensation, k.1 ∉ x.2

/-- The header describes a direction completely. -/
structure Described (c : Cfg) (h : Header) (label : Option Str) (m : Str) (s e : Rat) (n : Int) : Prop where
  ex : ∃ l ts te tn : Str, label = some l ∧ h (l ++ ['_', 'm', 'o', 't']) = some m ∧
    h (l ++ ['_', 's', 't', 'a', 'r', 't']) = some ts ∧ c.float ts = some s ∧
    h (l ++ ['_', 'e', 'n', 'd']) = some te ∧ c.float te = some e ∧
    h (l ++ ['_', 'n', 'b', 'p']) = some tn ∧ c.int tn = some n

/-- The header does not name the motor of a direction. -/
def Undescribed (h : Header) (label : Option Str) : Prop :=
  ∀ l, label = some l → h (l ++ ['_', 'm', 'o', 't']) = none

end SC.EdfHead
