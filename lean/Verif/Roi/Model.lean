import Verif.Py.Basic
import Verif.Common.Sort
/-! # Model of `utils/roi.py` -/
namespace SC.Roi

/-- `raise ValueError("Dimensions for shape and ROI should be the same")` -/
inductive Err where
  | valueError
deriving DecidableEq, Repr

/-- Lower bound of one dimension, roi.py 20-25. -/
def clipLow (n : Nat) (a : Option Int) : Int :=
  match a with
  | none => 0
  | some a =>
    let a := if a < 0 then a + n else a
    max 0 (min a ((n : Int) - 1))

/-- Upper bound of one dimension, roi.py 27-32. -/
def clipHigh (n : Nat) (b : Option Int) : Int :=
  match b with
  | none => n
  | some b =>
    let b := if b < 0 then b + n else b
    max 0 (min b (n : Int))

/-- The loop of roi.py 19-34. -/
def clipAll : List Nat → List (Option Int × Option Int) → List (Int × Int)
  | n :: ns, (a, b) :: rs => (clipLow n a, clipHigh n b) :: clipAll ns rs
  | _, _ => []

/-- `cliproi`, roi.py 4-36. -/
def cliproi (shape : List Nat) (roi : List (Option Int × Option Int)) :
    Except Err (List (Int × Int)) :=
  if shape.length ≠ roi.length then .error .valueError else .ok (clipAll shape roi)

/-- The loop of `mergeroi1d`, roi.py 51-59, with current interval `(low, high)`. -/
def mergeLoop {κ : Type} [LinearOrder κ] (low high : κ) : List (κ × κ) → List (κ × κ)
  | [] => [(low, high)]
  | iv :: ivs =>
    if iv.1 ≤ high then mergeLoop low (max high iv.2) ivs
    else (low, high) :: mergeLoop iv.1 iv.2 ivs

/-- `mergeroi1d`, roi.py 39-59 (generator read to its end). -/
def mergeroi1d {κ : Type} [LinearOrder κ] (intervals : List (κ × κ)) : List (κ × κ) :=
  match Common.stableSort Prod.fst intervals with
  | [] => []
  | iv :: ivs => mergeLoop iv.1 iv.2 ivs

end SC.Roi
