import Verif.Fit.Lemmas
import Mathlib.LinearAlgebra.Matrix.ToLinearEquiv
import Mathlib.LinearAlgebra.Matrix.DotProduct
/-! # Lemmas about least squares with matrices -/
namespace SC.Fit
open Matrix

section basic
variable {K : Type} [Field K] [LinearOrder K] [IsStrictOrderedRing K]
variable {m n : Nat}

theorem residual_eq (A : Matrix (Fin m) (Fin n) K) (b : Fin m → K) (x : Fin n → K) :
    residual A b x = (A *ᵥ x - b) ⬝ᵥ (A *ᵥ x - b) := by
  simp only [residual, dotProduct, Pi.sub_apply, mulVec, pow_two]

/-- The pseudo-inverse. -/
noncomputable def pseudo (A : Matrix (Fin m) (Fin n) K) : Matrix (Fin n) (Fin m) K := (Aᵀ * A)⁻¹ * Aᵀ

theorem normal_eq (A : Matrix (Fin m) (Fin n) K) (b : Fin m → K) (h : (Aᵀ * A).det ≠ 0) :
    Aᵀ *ᵥ (A *ᵥ (pseudo A *ᵥ b) - b) = 0 := by
  have hu : IsUnit (Aᵀ * A).det := isUnit_iff_ne_zero.mpr h
  rw [mulVec_sub, mulVec_mulVec, mulVec_mulVec, pseudo, ← Matrix.mul_assoc, mul_nonsing_inv _ hu,
    Matrix.one_mul, sub_self]

theorem residual_split (A : Matrix (Fin m) (Fin n) K) (b : Fin m → K) (x z : Fin n → K)
    (h : Aᵀ *ᵥ (A *ᵥ x - b) = 0) :
    residual A b z = residual A b x + (A *ᵥ (z - x)) ⬝ᵥ (A *ᵥ (z - x)) := by
  have e : A *ᵥ z - b = (A *ᵥ x - b) + A *ᵥ (z - x) := by
    rw [mulVec_sub]
    abel
  have h0 : (A *ᵥ x - b) ⬝ᵥ (A *ᵥ (z - x)) = 0 := by
    rw [dotProduct_mulVec, ← mulVec_transpose, h, zero_dotProduct]
  rw [residual_eq, residual_eq, e, add_dotProduct, dotProduct_add, dotProduct_add, h0,
    dotProduct_comm (A *ᵥ (z - x)) (A *ᵥ x - b), h0]
  ring

theorem dot_self_nonneg (v : Fin m → K) : 0 ≤ v ⬝ᵥ v := by
  simp only [dotProduct]
  exact Finset.sum_nonneg fun i _ => mul_self_nonneg _

theorem ls_pseudo (A : Matrix (Fin m) (Fin n) K) (b : Fin m → K) (h : (Aᵀ * A).det ≠ 0) :
    LeastSquares A b (pseudo A *ᵥ b) := by
  intro z
  have e := residual_split A b (pseudo A *ᵥ b) z (normal_eq A b h)
  have hn := dot_self_nonneg (A *ᵥ (z - pseudo A *ᵥ b))
  refine ⟨by rw [e]; linarith, ?_⟩
  intro he
  have h0 : (A *ᵥ (z - pseudo A *ᵥ b)) ⬝ᵥ (A *ᵥ (z - pseudo A *ᵥ b)) = 0 := by linarith
  have h1 : A *ᵥ (z - pseudo A *ᵥ b) = 0 := dotProduct_self_eq_zero.mp h0
  have h2 : (Aᵀ * A) *ᵥ (z - pseudo A *ᵥ b) = 0 := by
    rw [← mulVec_mulVec, h1, mulVec_zero]
  by_contra hz
  apply h
  exact exists_mulVec_eq_zero_iff.mp ⟨_, sub_ne_zero.mpr hz, h2⟩

theorem ls_det (A : Matrix (Fin m) (Fin n) K) (b : Fin m → K) (x : Fin n → K) (h : LeastSquares A b x) :
    (Aᵀ * A).det ≠ 0 := by
  intro h0
  obtain ⟨v, hv, he⟩ := exists_mulVec_eq_zero_iff.mpr h0
  have h1 : (A *ᵥ v) ⬝ᵥ (A *ᵥ v) = 0 := by
    rw [dotProduct_mulVec, ← mulVec_transpose, mulVec_mulVec, he, zero_dotProduct]
  have h2 : A *ᵥ v = 0 := dotProduct_self_eq_zero.mp h1
  have h3 := (h (x + v)).2 (by rw [residual_eq, residual_eq, mulVec_add, h2, add_zero])
  apply hv
  simpa using h3

theorem ls_eq (A : Matrix (Fin m) (Fin n) K) (b : Fin m → K) (x : Fin n → K) (h : LeastSquares A b x) :
    x = pseudo A *ᵥ b := by
  have h1 := ls_pseudo A b (ls_det A b x h)
  exact (h1 x).2 (le_antisymm (h _).1 (h1 x).1)

/-- The covariance matrix of the errors. -/
def covOf : (Fin m → K) ⊕ Matrix (Fin m) (Fin m) K → Matrix (Fin m) (Fin m) K
  | .inl v => diagonal v
  | .inr c => c

omit [LinearOrder K] [IsStrictOrderedRing K] in
theorem scaled_eq (M : Matrix (Fin n) (Fin m) K) (v : Fin m → K) :
    (Matrix.of fun i j => M i j * v j) = M * diagonal v := by
  ext i j
  simp [mul_diagonal]

theorem covGeneral_ok (A : Matrix (Fin m) (Fin n) K) (e : (Fin m → K) ⊕ Matrix (Fin m) (Fin m) K)
    (h : (Aᵀ * A).det ≠ 0) : covGeneral A e = .ok (pseudo A * covOf e * (pseudo A)ᵀ) := by
  cases e with
  | inl v => simp only [covGeneral, inv, h, if_false, scaled_eq]; rfl
  | inr c => simp only [covGeneral, inv, h, if_false]; rfl

theorem covGeneral_bad (A : Matrix (Fin m) (Fin n) K) (e : (Fin m → K) ⊕ Matrix (Fin m) (Fin m) K)
    (h : (Aᵀ * A).det = 0) : covGeneral A e = .linAlgError := by
  cases e with
  | inl v => simp only [covGeneral, inv, h, if_true]
  | inr c => simp only [covGeneral, inv, h, if_true]

/-- No known value of a square system. -/
def Noisy (m n : Nat) : (Fin m → K) ⊕ Matrix (Fin m) (Fin m) K → Prop
  | .inl v => m = n → ∀ i, v i ≠ 0
  | .inr _ => True

theorem pseudo_square (A : Matrix (Fin n) (Fin n) K) (h : A.det ≠ 0) : pseudo A = A⁻¹ := by
  have hu : IsUnit A.det := isUnit_iff_ne_zero.mpr h
  have hut : IsUnit Aᵀ.det := by rwa [det_transpose]
  rw [pseudo, Matrix.mul_inv_rev, Matrix.mul_assoc, nonsing_inv_mul _ hut, Matrix.mul_one]

omit [LinearOrder K] [IsStrictOrderedRing K] in
theorem divided_eq (A : Matrix (Fin n) (Fin n) K) (v : Fin n → K) :
    (Matrix.of fun i j => A i j / v i) = diagonal (fun i => (v i)⁻¹) * A := by
  ext i j
  simp only [of_apply, diagonal_mul]
  rw [div_eq_mul_inv, mul_comm]

theorem lstsqCov_ok (A : Matrix (Fin m) (Fin n) K) (e : (Fin m → K) ⊕ Matrix (Fin m) (Fin m) K)
    (h : (Aᵀ * A).det ≠ 0) (hn : Noisy m n e) :
    lstsqCov A e = .ok (pseudo A * covOf e * (pseudo A)ᵀ) := by
  by_cases hmn : m = n
  · subst hmn
    have hA : A.det ≠ 0 := by
      intro h0
      apply h
      rw [det_mul, h0, mul_zero]
    have hu : IsUnit A.det := isUnit_iff_ne_zero.mpr hA
    have hut : IsUnit Aᵀ.det := by rwa [det_transpose]
    have hs : covSquare A e = .ok (pseudo A * covOf e * (pseudo A)ᵀ) := by
      cases e with
      | inl v =>
          have hv : ∀ i, v i ≠ 0 := hn rfl
          have hne : ¬ ∃ i, v i = 0 := by
            rintro ⟨i, hi⟩
            exact hv i hi
          have hdet : (diagonal fun i => (v i)⁻¹).det ≠ 0 := by
            rw [det_diagonal]
            exact Finset.prod_ne_zero_iff.mpr fun i _ => inv_ne_zero (hv i)
          have hd : (Aᵀ * (diagonal (fun i => (v i)⁻¹) * A)).det ≠ 0 := by
            rw [det_mul, det_mul, det_transpose]
            exact mul_ne_zero hA (mul_ne_zero hdet hA)
          have hD : (diagonal fun i => (v i)⁻¹)⁻¹ = diagonal v := by
            apply inv_eq_right_inv
            rw [diagonal_mul_diagonal]
            have : (fun i => (v i)⁻¹ * v i) = fun _ => (1 : K) := by
              funext i
              exact inv_mul_cancel₀ (hv i)
            rw [this, diagonal_one]
          simp only [covSquare, hne, if_false, divided_eq, inv, hd, covOf]
          rw [pseudo_square A hA, Matrix.mul_inv_rev, Matrix.mul_inv_rev, hD, transpose_nonsing_inv]
      | inr c =>
          simp only [covSquare, inv, hA, if_false, covOf]
          rw [pseudo_square A hA, Matrix.mul_assoc]
    simp only [lstsqCov, dite_true, hs]
  · rw [lstsqCov, dif_neg hmn]
    exact covGeneral_ok A e h

theorem lstsqCov_bad (A : Matrix (Fin m) (Fin n) K) (e : (Fin m → K) ⊕ Matrix (Fin m) (Fin m) K)
    (h : (Aᵀ * A).det = 0) (hn : Noisy m n e) : lstsqCov A e = .linAlgError := by
  by_cases hmn : m = n
  · subst hmn
    have hA : A.det = 0 := by
      rw [det_mul, det_transpose] at h
      exact mul_self_eq_zero.mp h
    have hs : covSquare A e = .linAlgError := by
      cases e with
      | inl v =>
          have hv : ∀ i, v i ≠ 0 := hn rfl
          have hne : ¬ ∃ i, v i = 0 := by
            rintro ⟨i, hi⟩
            exact hv i hi
          have hd : (Aᵀ * (diagonal (fun i => (v i)⁻¹) * A)).det = 0 := by
            rw [det_mul, det_mul, hA, mul_zero, mul_zero]
          simp only [covSquare, hne, if_false, divided_eq, inv, hd, if_true]
      | inr c => simp only [covSquare, inv, hA, if_true]
    simp only [lstsqCov, dite_true, hs]
    exact covGeneral_bad A e h
  · rw [lstsqCov, dif_neg hmn]
    exact covGeneral_bad A e h

end basic

section moments
variable {K : Type} [Field K] [LinearOrder K] [IsStrictOrderedRing K]
variable {S : Type} [Fintype S] {m n : Nat}

omit [LinearOrder K] [IsStrictOrderedRing K] in
theorem mean_lin (p : S → K) (hp : ∑ s, p s = 1) (c : Fin m → K) (b : Fin m → K) (f : S → Fin m → K) :
    mean p (fun s => ∑ k, c k * (b k + f s k)) = ∑ k, c k * (b k + mean p fun s => f s k) := by
  simp only [mean, Finset.mul_sum]
  rw [Finset.sum_comm]
  refine Finset.sum_congr rfl fun k _ => ?_
  have : ∀ s, p s * (c k * (b k + f s k)) = c k * b k * p s + c k * (p s * f s k) := fun s => by ring
  simp only [this, Finset.sum_add_distrib, ← Finset.mul_sum, hp]
  ring

omit [LinearOrder K] [IsStrictOrderedRing K] in
theorem covar_lin (p : S → K) (hp : ∑ s, p s = 1) (c d : Fin m → K) (b : Fin m → K) (f : S → Fin m → K) :
    covar p (fun s => ∑ k, c k * (b k + f s k)) (fun s => ∑ k, d k * (b k + f s k))
      = ∑ l, (∑ k, c k * covar p (fun s => f s k) (fun s => f s l)) * d l := by
  have dev : ∀ (c : Fin m → K) (s : S), (∑ k, c k * (b k + f s k)) - mean p (fun s => ∑ k, c k * (b k + f s k))
      = ∑ k, c k * (f s k - mean p fun s => f s k) := by
    intro c s
    rw [mean_lin p hp, ← Finset.sum_sub_distrib]
    exact Finset.sum_congr rfl fun k _ => by ring
  simp only [covar, dev]
  simp only [mean, Finset.sum_mul, Finset.mul_sum]
  rw [Finset.sum_comm]
  refine Finset.sum_congr rfl fun l _ => ?_
  rw [Finset.sum_comm]
  refine Finset.sum_congr rfl fun k _ => ?_
  refine Finset.sum_congr rfl fun s _ => ?_
  ring

end moments

section lists
variable {K : Type} [Field K] [LinearOrder K] [IsStrictOrderedRing K]

omit [LinearOrder K] [IsStrictOrderedRing K] in
theorem sum_get (x : List K) (f : K → K) : ∑ i : Fin x.length, f (x.get i) = (x.map f).sum := by
  rw [← Fin.sum_univ_fun_getElem]
  rfl

omit [Field K] [LinearOrder K] [IsStrictOrderedRing K] in
theorem zip_ofFn (x : List K) (y : Fin x.length → K) :
    x.zip (List.ofFn y) = List.ofFn fun i => (x.get i, y i) := by
  apply List.ext_get
  · simp
  · intro n h1 h2
    simp

omit [LinearOrder K] [IsStrictOrderedRing K] in
theorem misfit_sum (x : List K) (y : Fin x.length → K) (m b : K) :
    misfit m b (x.zip (List.ofFn y)) = ∑ i, (y i - (m * x.get i + b)) ^ 2 := by
  rw [zip_ofFn, misfit, List.map_ofFn, List.sum_ofFn]
  rfl

end lists

end SC.Fit
