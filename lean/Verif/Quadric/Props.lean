import Verif.Quadric.Model
import Mathlib.Algebra.BigOperators.Fin
import Mathlib.Tactic.Ring
import Mathlib.Tactic.FieldSimp
import Mathlib.Tactic.FinCases
import Mathlib.Tactic.NormNum
import Mathlib.Algebra.CharZero.Defs
/-! # C78: quadric surfaces -/
namespace SC.Quadric
open Matrix

variable {K : Type} [Field K]

/-- `x^T.A.x` at a point, with homogeneous coordinate 1. -/
def value {n : Nat} (A : Matrix (Fin (n + 1)) (Fin (n + 1)) K) (x : Fin n → K) : K :=
  ∑ i, ∑ j, (Fin.snoc (α := fun _ => K) x 1 : Fin (n + 1) → K) i * A i j * (Fin.snoc (α := fun _ => K) x 1 : Fin (n + 1) → K) j

/-- The value of a matrix given by blocks. -/
theorem value_blocks {n : Nat} (B : Fin n → Fin n → K) (c r : Fin n → K) (d : K) (x : Fin n → K) :
    value (Fin.snoc (α := fun _ => Fin (n + 1) → K) (fun k => Fin.snoc (α := fun _ => K) (B k) (c k)) (Fin.snoc (α := fun _ => K) r d)) x =
      (∑ i, ∑ j, x i * B i j * x j) + (∑ i, x i * c i) + (∑ j, r j * x j) + d := by
  unfold value
  rw [Fin.sum_univ_castSucc]
  simp only [Fin.snoc_castSucc, Fin.snoc_last, Fin.sum_univ_castSucc, one_mul, mul_one, Finset.sum_add_distrib]
  ring

/-- **C78.** A point is on the plane exactly when its difference with `x0` is normal to `u`; the value is the
scalar product. -/
theorem plane_value [CharZero K] {n : Nat} (x0 u x : Fin n → K) : value (plane x0 u) x = ∑ i, u i * (x i - x0 i) := by
  unfold plane
  rw [value_blocks]
  simp only [mul_zero, zero_mul, Finset.sum_const_zero, zero_add, dotProduct]
  rw [← Finset.sum_add_distrib]
  rw [← sub_eq_add_neg, ← Finset.sum_sub_distrib]
  apply Finset.sum_congr rfl
  intro i _
  have h2 : (2 : K) ≠ 0 := two_ne_zero
  field_simp
  ring

theorem entry_of_ne {n m : Nat} (ind : Fin m → Fin n) (v : Fin m → K) (x : Fin n → K) (f : Fin n → K) :
    ∑ k, f k * entry ind v k = ∑ i, f (ind i) * v i := by
  unfold entry
  simp only [Finset.mul_sum]
  rw [Finset.sum_comm]
  apply Finset.sum_congr rfl
  intro i _
  rw [Finset.sum_eq_single (ind i)]
  · simp
  · intro b _ hb
    rw [if_neg (fun h => hb h.symm), mul_zero]
  · intro h; exact absurd (Finset.mem_univ _) h

theorem quadsum1_value {n m : Nat} (x0 a : Fin m → K) (ind : Fin m → Fin n) (ha : ∀ i, a i ≠ 0) (x : Fin n → K) :
    value (quadsum1 x0 a ind) x = (∑ i, ((x (ind i) - x0 i) / a i) ^ 2) - 1 := by
  unfold quadsum1
  rw [value_blocks]
  have h1 : ∀ i : Fin n, ∑ j, x i * (if i = j then entry ind (fun i => 1 / (a i * a i)) i else 0) * x j =
      (x i * x i) * entry ind (fun i => 1 / (a i * a i)) i := by
    intro i
    rw [Finset.sum_eq_single i]
    · simp; ring
    · intro b _ hb
      rw [if_neg (fun h => hb h.symm)]; ring
    · intro h; exact absurd (Finset.mem_univ _) h
  simp only [h1]
  rw [entry_of_ne ind _ x (fun k => x k * x k), entry_of_ne ind _ x x]
  have h2 : ∑ j, entry ind (fun i => -(x0 i / (a i * a i))) j * x j = ∑ i, x (ind i) * -(x0 i / (a i * a i)) := by
    rw [← entry_of_ne ind _ x x]
    apply Finset.sum_congr rfl
    intro i _; ring
  rw [h2]
  simp only [dotProduct]
  rw [← add_sub_assoc, ← Finset.sum_add_distrib, ← Finset.sum_add_distrib, ← Finset.sum_add_distrib]
  congr 1
  apply Finset.sum_congr rfl
  intro i _
  have := ha i
  field_simp
  ring

/-- **C78.** The ellipsoid with centre `x0` and semi-axes `a`. -/
theorem ellipsoid_value {n : Nat} (x0 a : Fin n → K) (ha : ∀ i, a i ≠ 0) (x : Fin n → K) :
    value (ellipsoid x0 a) x = (∑ i, ((x i - x0 i) / a i) ^ 2) - 1 := quadsum1_value x0 a id ha x

/-- **C78.** The cylinder: the coordinate of its axis does not matter. -/
theorem cylinder_value {n : Nat} (x0 a : Fin n → K) (axis : Fin (n + 1)) (ha : ∀ i, a i ≠ 0) (x : Fin (n + 1) → K) :
    value (cylinder x0 a axis) x = (∑ i, ((x (axis.succAbove i) - x0 i) / a i) ^ 2) - 1 :=
  quadsum1_value x0 a axis.succAbove ha x

/-- **C78.** All points on a parallel to the axis are on the cylinder or none is. -/
theorem cylinder_axis {n : Nat} (x0 a : Fin n → K) (axis : Fin (n + 1)) (ha : ∀ i, a i ≠ 0) (x y : Fin (n + 1) → K)
    (h : ∀ i, i ≠ axis → x i = y i) : value (cylinder x0 a axis) x = value (cylinder x0 a axis) y := by
  rw [cylinder_value _ _ _ ha, cylinder_value _ _ _ ha]
  congr 1
  apply Finset.sum_congr rfl
  intro i _
  rw [h _ (Fin.succAbove_ne axis i)]

theorem snoc_symm {n : Nat} (B : Fin n → Fin n → K) (c : Fin n → K) (d : K) (hB : ∀ i j, B i j = B j i) (i j : Fin (n + 1)) :
    (Fin.snoc (α := fun _ => Fin (n + 1) → K) (fun k => Fin.snoc (α := fun _ => K) (B k) (c k)) (Fin.snoc (α := fun _ => K) c d) :
      Fin (n + 1) → Fin (n + 1) → K) j i =
      (Fin.snoc (α := fun _ => Fin (n + 1) → K) (fun k => Fin.snoc (α := fun _ => K) (B k) (c k)) (Fin.snoc (α := fun _ => K) c d) :
      Fin (n + 1) → Fin (n + 1) → K) i j := by
  refine Fin.lastCases ?_ (fun i => ?_) i <;> refine Fin.lastCases ?_ (fun j => ?_) j
  · rfl
  · simp
  · simp
  · simp [hB]

/-- **C78.** The matrices are symmetric, as quadrics are. -/
theorem plane_symm {n : Nat} (x0 u : Fin n → K) (i j : Fin (n + 1)) : plane x0 u j i = plane x0 u i j :=
  snoc_symm (fun _ _ => 0) (fun i => u i / 2) (-(x0 ⬝ᵥ u)) (fun _ _ => rfl) i j

/-- **C78.** The matrices are symmetric, as quadrics are. -/
theorem quadsum1_symm {n m : Nat} (x0 a : Fin m → K) (ind : Fin m → Fin n) (i j : Fin (n + 1)) :
    quadsum1 x0 a ind j i = quadsum1 x0 a ind i j := by
  refine snoc_symm (fun k l => if k = l then entry ind (fun i => 1 / (a i * a i)) k else 0) _ _ ?_ i j
  intro i j
  by_cases h : i = j
  · subst h; rfl
  · rw [if_neg h, if_neg (fun e => h e.symm)]

/-- **C78.** Under a change of frame the quadratic form at `x'` is the old one at `C.x'`. -/
theorem changeOfFrame_value {n : Nat} (A C : Matrix (Fin n) (Fin n) K) (x : Fin n → K) :
    x ⬝ᵥ (changeOfFrame A C *ᵥ x) = (C *ᵥ x) ⬝ᵥ (A *ᵥ (C *ᵥ x)) := by
  unfold changeOfFrame
  rw [← Matrix.mulVec_mulVec, ← Matrix.mulVec_mulVec, Matrix.dotProduct_mulVec, Matrix.vecMul_transpose]

/-- **C78.** Changes of frame compose. -/
theorem changeOfFrame_comp {n : Nat} (A C D : Matrix (Fin n) (Fin n) K) :
    changeOfFrame (changeOfFrame A C) D = changeOfFrame A (C * D) := by
  unfold changeOfFrame
  simp only [Matrix.transpose_mul, Matrix.mul_assoc]

/-- **C78.** Translating an ellipsoid by a change of frame gives the ellipsoid with the shifted centre: the
points on it are those shifted back. -/
theorem ellipsoid_shift {n : Nat} (x0 t a : Fin n → K) (ha : ∀ i, a i ≠ 0) (x : Fin n → K) :
    value (ellipsoid (fun i => x0 i + t i) a) x = value (ellipsoid x0 a) (fun i => x i - t i) := by
  rw [ellipsoid_value _ _ ha, ellipsoid_value _ _ ha]
  congr 1
  apply Finset.sum_congr rfl
  intro i _
  congr 2
  ring

/-- A circle around (1, 2) with radius 3 has (4, 2) on it and (1, 2) inside. -/
example : value (ellipsoid ![(1 : ℚ), 2] ![3, 3]) ![4, 2] = 0 ∧ value (ellipsoid ![(1 : ℚ), 2] ![3, 3]) ![1, 2] = -1 := by
  rw [ellipsoid_value _ _ (by intro i; fin_cases i <;> simp), ellipsoid_value _ _ (by intro i; fin_cases i <;> simp)]
  constructor <;> simp [Fin.sum_univ_two] <;> norm_num

end SC.Quadric
