import Verif.Transform.Model
/-! # C14: specification -/
namespace SC.Transform
open Matrix

variable {K : Type} [Field K] [DecidableEq K]

/-- The array has the form its type prescribes. -/
def WF (a : LMap K) : Prop :=
  match a.cof with
  | .vec _ _ => a.ttype = .translation
  | .mat _ => a.ttype ≠ .translation

/-- Bottom row `(0, 0, 1)`. -/
def IsAffine (m : M3 K) : Prop := m 2 0 = 0 ∧ m 2 1 = 0 ∧ m 2 2 = 1

/-- What the type of a transformation promises about its matrix. -/
def Promises (t : TType) (m : M3 K) : Prop :=
  m.det ≠ 0 ∧
  match t with
  | .translation => ∃ x y, m = transMat x y
  | .rigid => IsAffine m ∧ m 0 0 ^ 2 + m 1 0 ^ 2 = 1 ∧ m 0 1 ^ 2 + m 1 1 ^ 2 = 1 ∧ m 0 0 * m 0 1 + m 1 0 * m 1 1 = 0
  | .similarity => IsAffine m ∧ m 0 0 ^ 2 + m 1 0 ^ 2 = m 0 1 ^ 2 + m 1 1 ^ 2 ∧ m 0 0 * m 0 1 + m 1 0 * m 1 1 = 0
  | .affine => IsAffine m
  | .projective => True

/-- A homogeneous point. -/
def point (x y : K) : Fin 3 → K := ![x, y, 1]

/-- The coordinate map of a change-of-frame matrix `m` sends `p` to the `q` with `m q = p`. -/
def MapsTo (m : M3 K) (p q : Fin 3 → K) : Prop := m.mulVec q = p

end SC.Transform
