import Verif.Fit.Model
import Mathlib.LinearAlgebra.Matrix.ToLinearEquiv
import Mathlib.LinearAlgebra.Matrix.Notation
import Mathlib.Tactic.NormNum
import Mathlib.Tactic.FieldSimp
import Mathlib.Data.Rat.Floor
/-! # C44: Cramer's rule -/
namespace SC.Fit
open Matrix
variable {K : Type} [Field K] [DecidableEq K]

theorem setColumn_eq {n : Nat} (A : Matrix (Fin n) (Fin n) K) (i : Fin n) (b : Fin n → K) :
    setColumn id A i b = A.updateCol i b := by
  ext r c
  simp [setColumn, updateCol_apply]

theorem cramer_square {n : Nat} (cast : K → K) (A : Matrix (Fin n) (Fin n) K) (b : Fin n → K) :
    cramer cast A b = if A.det = 0 then .runtimeError
      else .ok fun i => (setColumn cast A i b).det / A.det := by
  simp [cramer]

theorem cramer_solves {n : Nat} (A : Matrix (Fin n) (Fin n) K) (b z : Fin n → K) (h : A.det ≠ 0) :
    A *ᵥ z = b ↔ z = fun i => (setColumn id A i b).det / A.det := by
  have hsol : A *ᵥ (fun i => (setColumn id A i b).det / A.det) = b := by
    have e : (fun i => (setColumn id A i b).det / A.det) = A.det⁻¹ • A.cramer b := by
      funext i
      rw [setColumn_eq, Pi.smul_apply, cramer_apply, smul_eq_mul, div_eq_mul_inv, mul_comm]
    rw [e, mulVec_smul, mulVec_cramer, smul_smul, inv_mul_cancel₀ h, one_smul]
  constructor
  · intro hz
    by_contra hne
    apply h
    refine exists_mulVec_eq_zero_iff.mp ⟨z - _, sub_ne_zero.mpr hne, ?_⟩
    rw [mulVec_sub, hz, hsol, sub_self]
  · rintro rfl
    exact hsol

/-- cramer of floating-point arrays returns `x` exactly when the system is square and `x` is its one
solution. -/
theorem cramer_spec {m n : Nat} (A : Matrix (Fin m) (Fin n) K) (b : Fin m → K) (x : Fin n → K) :
    cramer id A b = .ok x ↔ m = n ∧ ∀ z : Fin n → K, (∀ i, ∑ j, A i j * z j = b i) ↔ z = x := by
  have hmv : ∀ z : Fin n → K, (∀ i, ∑ j, A i j * z j = b i) ↔ A *ᵥ z = b := by
    intro z
    constructor
    · intro h
      funext i
      exact h i
    · intro h i
      exact congrFun h i
  simp only [hmv]
  by_cases hmn : m = n
  · subst hmn
    rw [cramer_square]
    by_cases h0 : A.det = 0
    · simp only [h0, if_true, true_and]
      constructor
      · intro h
        cases h
      · intro h
        obtain ⟨v, hv, he⟩ := exists_mulVec_eq_zero_iff.mpr h0
        have hx : A *ᵥ x = b := (h x).mpr rfl
        have h2 := (h (x + v)).mp (by rw [mulVec_add, hx, he, add_zero])
        exact absurd (by simpa using h2) hv
    · simp only [h0, if_false, Res.ok.injEq, true_and]
      constructor
      · rintro rfl z
        exact cramer_solves A b z h0
      · intro h
        exact (h _).mp ((cramer_solves A b _ h0).mpr rfl)
  · constructor
    · intro h
      simp [cramer, hmn] at h
    · rintro ⟨h, -⟩
      exact absurd h hmn

/-- Otherwise it raises: RuntimeError for a square system, LinAlgError for any other. -/
theorem cramer_fails {m n : Nat} (A : Matrix (Fin m) (Fin n) K) (b : Fin m → K) :
    (m ≠ n → cramer id A b = .linAlgError) ∧
    (m = n → (¬ ∃ x : Fin n → K, ∀ z : Fin n → K, (∀ i, ∑ j, A i j * z j = b i) ↔ z = x) →
      cramer id A b = .runtimeError) := by
  constructor
  · intro h
    simp [cramer, h]
  · intro h hx
    have hn : ∀ x, cramer id A b ≠ .ok x := by
      intro x hc
      exact hx ⟨x, ((cramer_spec A b x).mp hc).2⟩
    subst h
    rw [cramer_square] at hn ⊢
    by_cases h0 : A.det = 0
    · simp [h0]
    · simp only [h0, if_false] at hn
      exact absurd rfl (hn _)

example : cramer id (!![2, 1; 1, 3] : Matrix (Fin 2) (Fin 2) ℚ) ![1, 2] = .ok ![1 / 5, 3 / 5] := by
  rw [cramer_square]
  simp only [det_fin_two_of]
  norm_num
  funext i
  fin_cases i <;> norm_num [setColumn, det_fin_two]
example : cramer id (!![1, 2; 2, 4] : Matrix (Fin 2) (Fin 2) ℚ) ![1, 2] = .runtimeError := by
  rw [cramer_square]
  norm_num [det_fin_two_of]

/-- An integer matrix truncates the right-hand side: the same answer when it consists of integers. -/
theorem cramer_integers {m n : Nat} (cast : K → K) (A : Matrix (Fin m) (Fin n) K) (b : Fin m → K)
    (hb : ∀ i, cast (b i) = b i) : cramer cast A b = cramer id A b := by
  by_cases hmn : m = n
  · subst hmn
    rw [cramer_square, cramer_square]
    have : ∀ i, setColumn cast A i b = setColumn id A i b := by
      intro i
      ext r c
      simp [setColumn, hb]
    simp only [this]
  · simp [cramer, hmn]

/-- Truncation toward zero. -/
def truncate (q : ℚ) : ℚ := if 0 ≤ q then ⌊q⌋ else ⌈q⌉

example : cramer truncate (!![2, 1; 1, 3] : Matrix (Fin 2) (Fin 2) ℚ) ![1, 2] = .ok ![1 / 5, 3 / 5] := by
  rw [cramer_integers]
  · rw [cramer_square]
    simp only [det_fin_two_of]
    norm_num
    funext i
    fin_cases i <;> norm_num [setColumn, det_fin_two]
  · intro i
    fin_cases i <;> norm_num [truncate]

/-- … and a wrong answer when not: `2 x = 1/2` gives 0 instead of `1/4`. -/
theorem cramer_integers_wrong :
    cramer truncate (!![2] : Matrix (Fin 1) (Fin 1) ℚ) ![1 / 2] = .ok ![0] ∧
    cramer id (!![2] : Matrix (Fin 1) (Fin 1) ℚ) ![1 / 2] = .ok ![1 / 4] := by
  constructor
  · rw [cramer_square]
    norm_num [setColumn, truncate]
    funext i
    fin_cases i
    norm_num
  · rw [cramer_square]
    norm_num [setColumn]
    funext i
    fin_cases i
    norm_num

end SC.Fit
