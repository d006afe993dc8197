import Verif.Resample.Model
import Verif.Axis.LimitsProps
/-! # Specification of resampling -/
namespace SC.Resample

/-- `x` is not before `y` in the direction of a step. -/
def After (h x y : ℚ) : Prop := 0 ≤ (x - y) / h

/-- The first of them all, in the direction of a step. -/
def IsFirst (h : ℚ) (l : List ℚ) (a : ℚ) : Prop := a ∈ l ∧ ∀ x ∈ l, After h x a

/-- The last of them all. -/
def IsLast (h : ℚ) (l : List ℚ) (a : ℚ) : Prop := a ∈ l ∧ ∀ x ∈ l, After h a x

/-- The limits of the measured positions: those that hold all lines, or when cropping those that are held by all. -/
def Limits (crop : Bool) (h : ℚ) (first last : List ℚ) (a b : ℚ) : Prop :=
  if crop then IsLast h first a ∧ IsFirst h last b else IsFirst h first a ∧ IsLast h last b

/-- The element of the selected part and the selection that an index of the result belongs to. -/
def selOf : List Dim → List Nat → List Sel
  | [], _ => []
  | d :: r, m => match d.enc with
    | none => .at (m.headD 0) :: selOf r m.tail
    | some _ => .all :: selOf r m.tail

/-- The indices in the dimensions with encoder. -/
def locOf : List Dim → List Nat → List Nat
  | [], _ => []
  | d :: r, m => match d.enc with
    | none => locOf r m.tail
    | some _ => m.headD 0 :: locOf r m.tail

end SC.Resample
