import Mathlib.LinearAlgebra.Matrix.DotProduct
import Mathlib.Data.Matrix.Mul
import Mathlib.Data.Fin.Tuple.Basic
/-! # Model of `math/quadrics.py`

Numbers are the elements of a field; the last index is that of the homogeneous coordinate. -/
namespace SC.Quadric
open Matrix

variable {K : Type} [Field K]

/-- plane, quadrics.py:11-29: last row and column `u / 2`, corner `-x0.dot(u)`. -/
def plane {n : Nat} (x0 u : Fin n → K) : Matrix (Fin (n + 1)) (Fin (n + 1)) K :=
  let u2 := fun i => u i / 2
  Fin.snoc (α := fun _ => Fin (n + 1) → K) (fun i => Fin.snoc (α := fun _ => K) (fun _ => 0) (u2 i))
    (Fin.snoc (α := fun _ => K) u2 (-(x0 ⬝ᵥ u)))

/-- Row `k` of the matrix in _quadsum1 before the last one, quadrics.py:81-84: the entry of `k` in `ind`. -/
def entry {n m : Nat} (ind : Fin m → Fin n) (v : Fin m → K) (k : Fin n) : K := ∑ i, if ind i = k then v i else 0

/-- _quadsum1, quadrics.py:64-85: `A[-1, ind] = -p`, `A[ind, -1] = -p`, `A[ind, ind] = 1 / a2` (a diagonal),
`A[-1, -1] = p.dot(x0) - 1`; `ind` has no index twice. -/
def quadsum1 {n m : Nat} (x0 a : Fin m → K) (ind : Fin m → Fin n) : Matrix (Fin (n + 1)) (Fin (n + 1)) K :=
  let a2 := fun i => a i * a i
  let p := fun i => x0 i / a2 i
  Fin.snoc (α := fun _ => Fin (n + 1) → K)
    (fun k => Fin.snoc (α := fun _ => K) (fun l => if k = l then entry ind (fun i => 1 / a2 i) k else 0) (entry ind (fun i => -p i) k))
    (Fin.snoc (α := fun _ => K) (entry ind fun i => -p i) (p ⬝ᵥ x0 - 1))

/-- ellipsoid, quadrics.py:32-44. -/
def ellipsoid {n : Nat} (x0 a : Fin n → K) : Matrix (Fin (n + 1)) (Fin (n + 1)) K := quadsum1 x0 a id

/-- cylinder, quadrics.py:47-61: `ind` are all indices but `axis`; the point and the semi-axes do not have
the coordinate of the axis. -/
def cylinder {n : Nat} (x0 a : Fin n → K) (axis : Fin (n + 1)) : Matrix (Fin (n + 2)) (Fin (n + 2)) K :=
  quadsum1 x0 a axis.succAbove

/-- change_of_frame, quadrics.py:88-99. -/
def changeOfFrame {n : Nat} (A C : Matrix (Fin n) (Fin n) K) : Matrix (Fin n) (Fin n) K := Cᵀ * (A * C)

end SC.Quadric
