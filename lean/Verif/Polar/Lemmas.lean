import Verif.Polar.Model
import Mathlib.Tactic.FinCases
import Mathlib.Tactic.LinearCombination
import Mathlib.Tactic.FieldSimp
namespace SC.Polar
open Matrix Complex

theorem stokes_eta (S : Stokes) : S = ![S 0, S 1, S 2, S 3] := by
  ext i; fin_cases i <;> rfl

theorem jones_eta (J : Jones) : J = ![J 0, J 1] := by
  ext i; fin_cases i <;> rfl

theorem mat_eta (C : Matrix (Fin 2) (Fin 2) ℂ) : C = !![C 0 0, C 0 1; C 1 0, C 1 1] := by
  ext i j; fin_cases i <;> fin_cases j <;> rfl

theorem stokes_ext {S T : Stokes} (h0 : S 0 = T 0) (h1 : S 1 = T 1) (h2 : S 2 = T 2) (h3 : S 3 = T 3) : S = T := by
  ext i; fin_cases i <;> assumption

theorem mat_ext {C D : Matrix (Fin 2) (Fin 2) ℂ} (h0 : C 0 0 = D 0 0) (h1 : C 0 1 = D 0 1) (h2 : C 1 0 = D 1 0)
    (h3 : C 1 1 = D 1 1) : C = D := by
  ext i j; fin_cases i <;> fin_cases j <;> assumption

/-- The coherency matrix of a Stokes vector, entry by entry. -/
theorem coherencyS_eq (S : Stokes) : Stokes.coherency S =
    !![((S 0 : ℂ) + S 1) / 2, ((S 2 : ℂ) - I * S 3) / 2; ((S 2 : ℂ) + I * S 3) / 2, ((S 0 : ℂ) - S 1) / 2] := by
  apply mat_ext <;>
    simp [Stokes.coherency, pauli44, mulVec, dotProduct, Fin.sum_univ_succ, conjTranspose_apply] <;> ring

theorem ofC0 (C : Matrix (Fin 2) (Fin 2) ℂ) : Stokes.ofCoherency! C 0 = (C 0 0 + C 1 1).re := by
  simp [Stokes.ofCoherency!, pauli44, flatten, mulVec, dotProduct, Fin.sum_univ_succ]
theorem ofC1 (C : Matrix (Fin 2) (Fin 2) ℂ) : Stokes.ofCoherency! C 1 = (C 0 0 - C 1 1).re := by
  simp [Stokes.ofCoherency!, pauli44, flatten, mulVec, dotProduct, Fin.sum_univ_succ]; ring
theorem ofC2 (C : Matrix (Fin 2) (Fin 2) ℂ) : Stokes.ofCoherency! C 2 = (C 0 1 + C 1 0).re := by
  simp [Stokes.ofCoherency!, pauli44, flatten, mulVec, dotProduct, Fin.sum_univ_succ]
theorem ofC3 (C : Matrix (Fin 2) (Fin 2) ℂ) : Stokes.ofCoherency! C 3 = (C 1 0 - C 0 1).im := by
  simp [Stokes.ofCoherency!, pauli44, flatten, mulVec, dotProduct, Fin.sum_univ_succ]; ring

theorem coherencyJ_eq (J : Jones) : Jones.coherency J =
    !![J 0 * (starRingEnd ℂ) (J 0), J 0 * (starRingEnd ℂ) (J 1); J 1 * (starRingEnd ℂ) (J 0), J 1 * (starRingEnd ℂ) (J 1)] := by
  apply mat_ext <;> rfl

theorem hermitianJ (J : Jones) : (Jones.coherency J)ᴴ = Jones.coherency J := by
  rw [coherencyJ_eq]
  apply mat_ext <;> simp [conjTranspose_apply, mul_comm]

theorem hermitianS (S : Stokes) : (Stokes.coherency S)ᴴ = Stokes.coherency S := by
  rw [coherencyS_eq]
  apply mat_ext <;> simp [conjTranspose_apply] <;> ring

theorem allClose_self (C : Matrix (Fin 2) (Fin 2) ℂ) : AllClose C C := by
  intro i j
  rw [sub_self, norm_zero]
  positivity

theorem ofCoherencyS_of_hermitian {C : Matrix (Fin 2) (Fin 2) ℂ} (h : Cᴴ = C) :
    Stokes.ofCoherency C = some (Stokes.ofCoherency! C) := by
  unfold Stokes.ofCoherency
  rw [h, if_pos (allClose_self C)]

theorem ofCoherencyJ_of_hermitian {C : Matrix (Fin 2) (Fin 2) ℂ} (h : Cᴴ = C) (p : ℝ) :
    Jones.ofCoherency C p = some (Jones.ofCoherency! C p) := by
  unfold Jones.ofCoherency
  rw [h, if_pos (allClose_self C)]

/-- Principal root of a real number that is not negative. -/
theorem csqrt_ofReal {x : ℝ} (hx : 0 ≤ x) : csqrt (x : ℂ) = (Real.sqrt x : ℂ) := by
  unfold csqrt
  rw [Real.sqrt_eq_rpow, Complex.ofReal_cpow hx]
  norm_num

theorem csqrt_normSq (z : ℂ) : csqrt (z * (starRingEnd ℂ) z) = (‖z‖ : ℂ) := by
  rw [Complex.mul_conj, csqrt_ofReal (normSq_nonneg z), ← Complex.norm_def]

theorem radians_degrees (x : ℝ) : radians (degrees x) = x := by
  unfold radians degrees
  have := Real.pi_ne_zero
  field_simp

theorem degrees_radians (x : ℝ) : degrees (radians x) = x := by
  unfold radians degrees
  have := Real.pi_ne_zero
  field_simp

theorem radians_neg (x : ℝ) : radians (-x) = -radians x := by unfold radians; ring
theorem radians_two (x : ℝ) : radians (2 * x) = 2 * radians x := by unfold radians; ring
theorem radians_add (x y : ℝ) : radians (x + y) = radians x + radians y := by unfold radians; ring
theorem radians_sub (x y : ℝ) : radians (x - y) = radians x - radians y := by unfold radians; ring
theorem radians_90 : radians 90 = Real.pi / 2 := by unfold radians; ring

/-- The Hermitian matrices of Stokes vectors. -/
theorem of_coherency_hermitian {C : Matrix (Fin 2) (Fin 2) ℂ} (h : Cᴴ = C) : Stokes.coherency (Stokes.ofCoherency! C) = C := by
  have e : ∀ i j, (starRingEnd ℂ) (C j i) = C i j := fun i j => by
    conv_rhs => rw [← h]
    rfl
  have r0 : (C 0 0).im = 0 := by have := congrArg Complex.im (e 0 0); simp at this; linarith
  have r1 : (C 1 1).im = 0 := by have := congrArg Complex.im (e 1 1); simp at this; linarith
  have r2 : (C 0 1).re = (C 1 0).re := by have := congrArg Complex.re (e 0 1); simp at this; linarith
  have r3 : (C 0 1).im = -(C 1 0).im := by have := congrArg Complex.im (e 0 1); simp at this; linarith
  rw [coherencyS_eq, ofC0, ofC1, ofC2, ofC3]
  apply mat_ext <;> apply Complex.ext <;> simp [r0, r1, r2, r3]

end SC.Polar
