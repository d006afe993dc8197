import Verif.Fit.CovLemmas
import Verif.Fit.Props
import Mathlib.LinearAlgebra.Matrix.Notation
/-! # C44: covariance of a linear fit -/
namespace SC.Fit
open Matrix

section general
variable {K : Type} [Field K] [LinearOrder K] [IsStrictOrderedRing K]
variable {m n : Nat}

/-- A system has one least-squares solution, whatever the right-hand side, or never. -/
theorem least_squares_exists (A : Matrix (Fin m) (Fin n) K) :
    (∀ b, ∃ x, LeastSquares A b x) ∨ ∀ b x, ¬ LeastSquares A b x := by
  by_cases h : (Aᵀ * A).det = 0
  · right
    intro b x hx
    exact ls_det A b x hx h
  · left
    intro b
    exact ⟨_, ls_pseudo A b h⟩

/-- lstsq_cov with the covariances of the errors gives the covariances of the least-squares
solutions: `p` are the probabilities of the outcomes, `err` the errors and `sol` the solutions. -/
theorem lstsq_cov_spec {S : Type} [Fintype S] (p : S → K) (hp : ∑ s, p s = 1)
    (A : Matrix (Fin m) (Fin n) K) (b : Fin m → K) (err : S → Fin m → K) (sol : S → Fin n → K)
    (hsol : ∀ s, LeastSquares A (fun i => b i + err s i) (sol s)) :
    lstsqCov A (.inr (Matrix.of fun i j => covar p (fun s => err s i) fun s => err s j))
      = .ok (Matrix.of fun i j => covar p (fun s => sol s i) fun s => sol s j) := by
  have hne : Nonempty S := by
    by_contra hS
    rw [not_nonempty_iff] at hS
    rw [Finset.univ_eq_empty, Finset.sum_empty] at hp
    exact zero_ne_one hp
  obtain ⟨s0⟩ := hne
  have hdet := ls_det A _ _ (hsol s0)
  rw [lstsqCov_ok A (.inr _) hdet trivial]
  congr 1
  ext i j
  have hs : ∀ i, (fun s => sol s i) = fun s => ∑ k, pseudo A i k * (b k + err s k) := by
    intro i
    funext s
    rw [ls_eq A _ _ (hsol s)]
    rfl
  simp only [Matrix.of_apply, hs, covar_lin p hp]
  rw [Matrix.mul_apply]
  simp only [Matrix.mul_apply, transpose_apply, covOf, Matrix.of_apply]

/-- The same with the variances of uncorrelated errors.  In a square system no variance may be
zero. -/
theorem lstsq_cov_variances {S : Type} [Fintype S] (p : S → K) (hp : ∑ s, p s = 1)
    (A : Matrix (Fin m) (Fin n) K) (b : Fin m → K) (err : S → Fin m → K) (sol : S → Fin n → K)
    (hsol : ∀ s, LeastSquares A (fun i => b i + err s i) (sol s)) (vare : Fin m → K)
    (hvar : ∀ i, covar p (fun s => err s i) (fun s => err s i) = vare i)
    (hunc : ∀ i j, i ≠ j → covar p (fun s => err s i) (fun s => err s j) = 0)
    (hpos : m = n → ∀ i, vare i ≠ 0) :
    lstsqCov A (.inl vare) = .ok (Matrix.of fun i j => covar p (fun s => sol s i) fun s => sol s j) := by
  have h := lstsq_cov_spec p hp A b err sol hsol
  have hne : Nonempty S := by
    by_contra hS
    rw [not_nonempty_iff] at hS
    rw [Finset.univ_eq_empty, Finset.sum_empty] at hp
    exact zero_ne_one hp
  obtain ⟨s0⟩ := hne
  have hdet := ls_det A _ _ (hsol s0)
  rw [← h, lstsqCov_ok A (.inr _) hdet trivial, lstsqCov_ok A _ hdet (show Noisy m n (.inl vare) from hpos)]
  have hc : diagonal vare = Matrix.of fun i j => covar p (fun s => err s i) fun s => err s j := by
    ext i j
    by_cases hij : i = j
    · subst hij
      simp [hvar]
    · simp [diagonal_apply_ne _ hij, hunc i j hij]
  simp only [covOf, hc]

/-- Two outcomes: the mean of two measurements. -/
example : lstsqCov (!![1; 1] : Matrix (Fin 2) (Fin 1) ℚ)
      (.inr (Matrix.of fun i j => covar (fun _ : Fin 2 => (1 / 2 : ℚ)) (fun s => (!![1, 1; -1, -1] : Matrix (Fin 2) (Fin 2) ℚ) s i)
        fun s => (!![1, 1; -1, -1] : Matrix (Fin 2) (Fin 2) ℚ) s j))
    = .ok (Matrix.of fun i j => covar (fun _ : Fin 2 => (1 / 2 : ℚ)) (fun s => (!![1; -1] : Matrix (Fin 2) (Fin 1) ℚ) s i)
        fun s => (!![1; -1] : Matrix (Fin 2) (Fin 1) ℚ) s j) := by
  apply lstsq_cov_spec (fun _ : Fin 2 => (1 / 2 : ℚ)) (by norm_num) _ (fun _ => 0)
    (fun s i => (!![1, 1; -1, -1] : Matrix (Fin 2) (Fin 2) ℚ) s i)
    (fun s i => (!![1; -1] : Matrix (Fin 2) (Fin 1) ℚ) s i)
  intro s z
  fin_cases s <;>
  · simp only [residual, Fin.sum_univ_two, Finset.univ_unique, Finset.sum_singleton]
    norm_num [Matrix.of_apply]
    refine ⟨by positivity, fun h => ?_⟩
    funext i
    fin_cases i
    have h0 := h
    first
      | (have := sub_eq_zero.mp h0; simpa using this)
      | (have := eq_neg_of_add_eq_zero_left h0; simpa using this)

/-- Without one least-squares solution: LinAlgError. -/
theorem lstsq_cov_singular (A : Matrix (Fin m) (Fin n) K) (hA : ∀ b x, ¬ LeastSquares A b x)
    (e : (Fin m → K) ⊕ Matrix (Fin m) (Fin m) K) (he : ∀ v, e = .inl v → m = n → ∀ i, v i ≠ 0) :
    lstsqCov A e = .linAlgError := by
  have h0 : (Aᵀ * A).det = 0 := by
    by_contra h
    exact hA 0 _ (ls_pseudo A 0 h)
  apply lstsqCov_bad A e h0
  cases e with
  | inl v => exact fun hmn => he v rfl hmn
  | inr c => trivial

/-- A variance of zero in a square system: nothing finite, though the covariance exists.  For more
equations than unknowns a variance of zero is no problem. -/
theorem lstsq_cov_known (A : Matrix (Fin n) (Fin n) K) (vare : Fin n → K) (h : ∃ i, vare i = 0) :
    lstsqCov A (.inl vare) = .notfinite := by
  simp only [lstsqCov, dite_true, covSquare, h, if_true]

example : lstsqCov (1 : Matrix (Fin 1) (Fin 1) ℚ) (.inl fun _ => 0) = .notfinite ∧
    lstsqCov (!![1; 1] : Matrix (Fin 2) (Fin 1) ℚ) (.inl fun _ => 0) = .ok 0 := by
  refine ⟨lstsq_cov_known _ _ ⟨0, rfl⟩, ?_⟩
  rw [lstsqCov_ok]
  · congr 1
    ext i j
    have : diagonal (fun _ : Fin 2 => (0 : ℚ)) = 0 := by
      ext i j
      simp
    simp only [covOf, this]
    simp
  · simp [Matrix.mul_apply]
  · intro h
    simp at h

end general

section linfit
variable {K : Type} [Field K] [LinearOrder K] [IsStrictOrderedRing K]

theorem residual_linfit (x : List K) (y : Fin x.length → K) (z : Fin 2 → K) :
    residual (linfitMatrix x) y z = misfit (z 0) (z 1) (x.zip (List.ofFn y)) := by
  rw [misfit_sum, residual]
  refine Finset.sum_congr rfl fun i _ => ?_
  simp only [Fin.sum_univ_two, linfitMatrix, Matrix.of_apply]
  simp
  ring

/-- linfit (any least-squares solution of its system) and linfit2 give the same line. -/
theorem linfit_same (x : List K) (y : Fin x.length → K) (z : Fin 2 → K)
    (hz : LeastSquares (linfitMatrix x) y z) :
    linfit2 x (List.ofFn y) = .ok (z 0, z 1) := by
  have hl : x.length = (List.ofFn y).length := by simp
  have hs : Spread x := by
    by_contra hs
    have hd : ¬ den x ≠ 0 := fun hd => hs ((den_ne_zero_iff x).mp hd)
    -- all abscissae equal: another line fits equally well
    have hc : ∀ a ∈ x, ∀ b ∈ x, a = b := by
      intro a ha b hb
      by_contra hab
      exact hs ⟨a, ha, b, hb, hab⟩
    have key : ∃ c : K, ∀ a ∈ x, a = c := by
      rcases x with - | ⟨a, x⟩
      · exact ⟨0, by simp⟩
      · exact ⟨a, fun b hb => hc b hb a (by simp)⟩
    obtain ⟨c, hcc⟩ := key
    have h2 := (hz ![z 0 + 1, z 1 - c]).2 (by
      rw [residual_linfit, residual_linfit, misfit_sum, misfit_sum]
      refine Finset.sum_congr rfl fun i _ => ?_
      rw [hcc _ (List.get_mem x i)]
      simp
      ring)
    have := congrFun h2 0
    simp at this
  obtain ⟨m, b, h, hb⟩ := (linfit2_spec x _ hl).1 hs
  have h1 := hz ![m, b]
  rw [residual_linfit, residual_linfit] at h1
  obtain ⟨e1, e2⟩ := (hb (z 0) (z 1)).2 (le_antisymm (by simpa using h1.1) (hb _ _).1)
  rw [h, e1, e2]

theorem gram_linfit (x : List K) :
    (linfitMatrix x)ᵀ * linfitMatrix x = !![sq x, x.sum; x.sum, (x.length : K)] := by
  ext i j
  rw [Matrix.mul_apply]
  have h1 := sum_get x (fun a => a * a)
  have h2 := sum_get x (fun a => a)
  simp only [List.map_id'] at h2
  fin_cases i <;> fin_cases j <;> simp [linfitMatrix] <;> first | exact h1 | exact h2

/-- Two different abscissae: linfit has one solution. -/
theorem linfit_solvable (x : List K) (y : Fin x.length → K) (hs : Spread x) :
    ∃ z, LeastSquares (linfitMatrix x) y z := by
  refine ⟨_, ls_pseudo _ y ?_⟩
  rw [gram_linfit, det_fin_two_of]
  intro h0
  apply (den_ne_zero_iff x).mpr hs
  rw [den, ← h0]
  ring

example : ∃ z, LeastSquares (linfitMatrix ([0, 1, 3] : List ℚ)) (fun i => i.val) z ∧
    linfit2 ([0, 1, 3] : List ℚ) [0, 1, 1 + 1] = .ok (z 0, z 1) := by
  obtain ⟨z, hz⟩ := linfit_solvable ([0, 1, 3] : List ℚ) (fun i => i.val) ⟨0, by simp, 1, by simp, by norm_num⟩
  exact ⟨z, hz, by simpa using linfit_same _ _ z hz⟩

/-- linfit and linfit2 give the same errors, for more than two points. -/
theorem linfit_errors_same (x : List K) (y : Fin x.length → K) (z : Fin 2 → K)
    (hz : LeastSquares (linfitMatrix x) y z) (hn : 2 < x.length) :
    ∃ vm vb, lstsqVar (linfitMatrix x) y z = .ok ![vm, vb] ∧ linfit2Var x (List.ofFn y) = .ok (vm, vb) := by
  have hl : x.length = (List.ofFn y).length := by simp
  have hok := linfit_same x y z hz
  have hs : Spread x := by
    by_contra hs
    rw [(linfit2_spec x _ hl).2 hs] at hok
    cases hok
  have hd := (den_ne_zero_iff x).mpr hs
  have hv := (linfit2_errors x _ hl hs _ _ hok).1 (by omega)
  rw [linfit2_ok hl hd] at hok
  obtain ⟨hz0, hz1⟩ : slope x (List.ofFn y) = z 0 ∧ icept x (List.ofFn y) = z 1 := by simpa using hok
  have hn0 : (x.length : K) ≠ 0 := by
    have : x.length ≠ 0 := by omega
    exact_mod_cast this
  have hn2 : (x.length : K) - 2 ≠ 0 := by
    intro h0
    have h1 : (x.length : K) = 2 := sub_eq_zero.mp h0
    have : x.length = 2 := by exact_mod_cast h1
    omega
  -- the residuals
  have hr : ∀ i, ((linfitMatrix x) *ᵥ z - y) i = z 0 * x.get i + z 1 - y i := by
    intro i
    simp [linfitMatrix, mulVec, dotProduct, Fin.sum_univ_two]
    ring
  have hmean : ∑ i, ((linfitMatrix x) *ᵥ z - y) i = 0 := by
    have h2 := normal2 x (List.ofFn y) hd
    rw [hz0, hz1] at h2
    simp only [hr, Finset.sum_sub_distrib, Finset.sum_add_distrib, ← Finset.mul_sum]
    have h3 := sum_get x (fun a => a)
    simp only [List.map_id'] at h3
    rw [h3, ← List.sum_ofFn (f := y), ← h2]
    simp
  have hsum : ∑ i, ((linfitMatrix x) *ᵥ z - y) i ^ 2 = misfit (z 0) (z 1) (x.zip (List.ofFn y)) := by
    rw [misfit_sum]
    refine Finset.sum_congr rfl fun i _ => ?_
    rw [hr]
    ring
  have hvar : variance ((linfitMatrix x) *ᵥ z - y) 2
      = some (misfit (z 0) (z 1) (x.zip (List.ofFn y)) / ((x.length : K) - 2)) := by
    simp only [variance, hmean, zero_div, sub_zero, hsum]
    have : ¬ ((x.length : K) - ((2 : Nat) : K) = 0) := by exact_mod_cast hn2
    simp [hn2]
  have hdet : ((linfitMatrix x)ᵀ * linfitMatrix x).det ≠ 0 := by
    rw [gram_linfit, det_fin_two_of]
    intro h0
    apply hd
    rw [den, ← h0]
    ring
  have hu : IsUnit ((linfitMatrix x)ᵀ * linfitMatrix x).det := isUnit_iff_ne_zero.mpr hdet
  have hcov := lstsqCov_ok (linfitMatrix x)
    (.inl fun _ => misfit (z 0) (z 1) (x.zip (List.ofFn y)) / ((x.length : K) - 2)) hdet
    (show Noisy _ _ (.inl _) from fun h => absurd h (by omega))
  have hM : ∀ v : K, pseudo (linfitMatrix x) * diagonal (fun _ => v) * (pseudo (linfitMatrix x))ᵀ
      = v • !![(x.length : K) / den x, -x.sum / den x; -x.sum / den x, sq x / den x] := by
    intro v
    have hdiag : diagonal (fun _ : Fin x.length => v) = v • (1 : Matrix (Fin x.length) (Fin x.length) K) := by
      rw [smul_one_eq_diagonal]
    have ht : ((linfitMatrix x)ᵀ * linfitMatrix x)⁻¹ᵀ = ((linfitMatrix x)ᵀ * linfitMatrix x)⁻¹ := by
      rw [transpose_nonsing_inv, transpose_mul, transpose_transpose]
    rw [hdiag, Matrix.mul_smul, Matrix.mul_one, Matrix.smul_mul, pseudo, transpose_mul, transpose_transpose, ht,
      Matrix.mul_assoc, ← Matrix.mul_assoc (linfitMatrix x)ᵀ, mul_nonsing_inv _ hu, Matrix.mul_one,
      gram_linfit, Matrix.inv_def, det_fin_two_of, adjugate_fin_two_of, Ring.inverse_eq_inv']
    have e : sq x * (x.length : K) - x.sum * x.sum = den x := by rw [den]; ring
    rw [e]
    congr 1
    ext i j
    fin_cases i <;> fin_cases j <;> simp <;> ring
  refine ⟨_, _, ?_, hv⟩
  simp only [lstsqVar, hvar, hcov, covOf, hM]
  congr 1
  have hsp : (x.length : K) * (x.map fun a => (a - x.sum / (x.length : K)) ^ 2).sum = den x := by
    have e : (x.map fun a => (a - x.sum / (x.length : K)) ^ 2).sum = quad 1 (-(x.sum / (x.length : K))) x := by
      simp only [quad, one_mul, sub_eq_add_neg]
    rw [e, quad_eq, den]
    field_simp
    ring
  have hsp0 : (x.map fun a => (a - x.sum / (x.length : K)) ^ 2).sum ≠ 0 := by
    intro h0
    rw [h0, mul_zero] at hsp
    exact hd hsp.symm
  have hsq : (x.map fun a => a ^ 2).sum = sq x := by simp only [pow_two, sq]
  funext i
  rw [hsq, ← hsp]
  fin_cases i
  · simp
    field_simp
  · simp
    field_simp

example : ∃ z vm vb, lstsqVar (linfitMatrix ([0, 1, 3] : List ℚ)) (fun i => i.val) z = .ok ![vm, vb] ∧
    linfit2Var ([0, 1, 3] : List ℚ) (List.ofFn fun i : Fin 3 => (i.val : ℚ)) = .ok (vm, vb) := by
  obtain ⟨z, hz⟩ := linfit_solvable ([0, 1, 3] : List ℚ) (fun i => i.val) ⟨0, by simp, 1, by simp, by norm_num⟩
  exact ⟨z, linfit_errors_same _ _ z hz (by decide)⟩

/-- linfit_zerointercept (any least-squares solution of its system) and linfit_zerointercept2 give
the same slope. -/
theorem linfit_zero_same (x : List K) (y : Fin x.length → K) (z : Fin 1 → K)
    (hz : LeastSquares (zeroMatrix x) y z) : linfitZero2 x (List.ofFn y) = .ok (z 0) := by
  have hl : x.length = (List.ofFn y).length := by simp
  have hres : ∀ z, residual (zeroMatrix x) y z = misfit (z 0) 0 (x.zip (List.ofFn y)) := by
    intro z
    rw [misfit_sum, residual]
    refine Finset.sum_congr rfl fun i _ => ?_
    simp [zeroMatrix]
    ring
  have hs : ∃ a ∈ x, a ≠ 0 := by
    by_contra hs
    have h0 : ∀ a ∈ x, a = 0 := by
      intro a ha
      by_contra h
      exact hs ⟨a, ha, h⟩
    have h2 := (hz fun _ => z 0 + 1).2 (by
      rw [hres, hres, misfit_sum, misfit_sum]
      refine Finset.sum_congr rfl fun i _ => ?_
      rw [h0 _ (List.get_mem x i)]
      simp)
    have := congrFun h2 0
    simp at this
  obtain ⟨m, h, hb⟩ := (linfit_zero_spec x _ hl).1 hs
  have h1 := hz fun _ => m
  rw [hres, hres] at h1
  rw [h, (hb (z 0)).2 (le_antisymm h1.1 (hb _).1)]

/-- The errors of linfit_zerointercept and linfit_zerointercept2 differ: the first subtracts the
mean residual, which is not zero for a line through the origin.  The first is never larger, and
they agree exactly when the residuals add up to zero. -/
theorem linfit_zero_errors_differ (x : List K) (y : Fin x.length → K) (z : Fin 1 → K)
    (hz : LeastSquares (zeroMatrix x) y z) (hn : 1 < x.length) :
    ∃ v1 v2, lstsqVar (zeroMatrix x) y z = .ok (fun _ => v1) ∧ linfitZero2Var x (List.ofFn y) = .ok v2 ∧
      v1 ≤ v2 ∧ (v1 = v2 ↔ ∑ i, (y i - z 0 * x.get i) = 0) := by
  have hl : x.length = (List.ofFn y).length := by simp
  have hok := linfit_zero_same x y z hz
  have hv := (linfit_zero_errors x _ hl _ hok).1 (by omega)
  have hsq : (x.map fun a => a ^ 2).sum = sq x := by simp only [pow_two, sq]
  have hd : sq x ≠ 0 := by
    intro hd
    rw [(linfit_zero_spec x _ hl).2 ((sq_zero_iff x).mp hd)] at hok
    cases hok
  have hn0 : (0 : K) < (x.length : K) := by
    have : 0 < x.length := by omega
    exact_mod_cast this
  have hn1 : (0 : K) < (x.length : K) - 1 := by
    have : (1 : K) < (x.length : K) := by exact_mod_cast hn
    linarith
  have hr : ∀ i, ((zeroMatrix x) *ᵥ z - y) i = -(y i - z 0 * x.get i) := by
    intro i
    simp [zeroMatrix, mulVec, dotProduct]
    ring
  obtain ⟨R, hR⟩ : ∃ R, R = ∑ i, (y i - z 0 * x.get i) := ⟨_, rfl⟩
  have hmean : ∑ i, ((zeroMatrix x) *ᵥ z - y) i = -R := by
    simp only [hr, Finset.sum_neg_distrib, hR]
  have hsum : ∑ i, (((zeroMatrix x) *ᵥ z - y) i - -R / (x.length : K)) ^ 2
      = misfit (z 0) 0 (x.zip (List.ofFn y)) - R ^ 2 / (x.length : K) := by
    have e : ∀ i, (((zeroMatrix x) *ᵥ z - y) i - -R / (x.length : K)) ^ 2
        = (y i - (z 0 * x.get i + 0)) ^ 2 - 2 * (R / (x.length : K)) * (y i - z 0 * x.get i)
          + (R / (x.length : K)) ^ 2 := by
      intro i
      rw [hr]
      ring
    simp only [e, Finset.sum_add_distrib, Finset.sum_sub_distrib, ← Finset.mul_sum, ← misfit_sum]
    have hR2 : ∑ i, y i - ∑ i, z 0 * x.get i = R := by rw [hR, Finset.sum_sub_distrib]
    rw [← Finset.mul_sum] at hR2
    rw [hR2, Finset.sum_const, Finset.card_univ, Fintype.card_fin, nsmul_eq_mul]
    field_simp
    ring
  have hvar : variance ((zeroMatrix x) *ᵥ z - y) 1
      = some ((misfit (z 0) 0 (x.zip (List.ofFn y)) - R ^ 2 / (x.length : K)) / ((x.length : K) - 1)) := by
    simp only [variance, hmean, hsum, Nat.cast_one, ne_of_gt hn1, if_false]
  have hg : (zeroMatrix x)ᵀ * zeroMatrix x = Matrix.of fun _ _ => sq x := by
    ext i j
    rw [Matrix.mul_apply]
    have h1 := sum_get x (fun a => a * a)
    simp only [zeroMatrix, transpose_apply, Matrix.of_apply]
    exact h1
  have hdet : ((zeroMatrix x)ᵀ * zeroMatrix x).det ≠ 0 := by
    rw [hg, det_fin_one]
    exact hd
  have hu : IsUnit ((zeroMatrix x)ᵀ * zeroMatrix x).det := isUnit_iff_ne_zero.mpr hdet
  have hcov : ∀ v : K, lstsqCov (zeroMatrix x) (.inl fun _ => v) = .ok (Matrix.of fun _ _ => v / sq x) := by
    intro v
    rw [lstsqCov_ok _ _ hdet (show Noisy _ _ (.inl _) from fun h => absurd h (by omega))]
    congr 1
    have hdiag : diagonal (fun _ : Fin x.length => v) = v • (1 : Matrix (Fin x.length) (Fin x.length) K) := by
      rw [smul_one_eq_diagonal]
    have ht : ((zeroMatrix x)ᵀ * zeroMatrix x)⁻¹ᵀ = ((zeroMatrix x)ᵀ * zeroMatrix x)⁻¹ := by
      rw [transpose_nonsing_inv, transpose_mul, transpose_transpose]
    rw [covOf, hdiag, Matrix.mul_smul, Matrix.mul_one, Matrix.smul_mul, pseudo, transpose_mul, transpose_transpose, ht,
      Matrix.mul_assoc, ← Matrix.mul_assoc (zeroMatrix x)ᵀ, mul_nonsing_inv _ hu, Matrix.mul_one,
      Matrix.inv_def, Ring.inverse_eq_inv', hg, det_fin_one]
    ext i j
    have hi : i = 0 := Subsingleton.elim _ _
    have hj : j = 0 := Subsingleton.elim _ _
    subst hi hj
    simp [adjugate_fin_one, div_eq_mul_inv]
  refine ⟨(misfit (z 0) 0 (x.zip (List.ofFn y)) - R ^ 2 / (x.length : K)) / ((x.length : K) - 1) / sq x, _,
    by simp only [lstsqVar, hvar, hcov]; rfl, hv, ?_, ?_⟩
  · rw [hsq]
    have hp : 0 < sq x := lt_of_le_of_ne (sq_nonneg' x) (Ne.symm hd)
    gcongr
    have : 0 ≤ R ^ 2 / (x.length : K) := by positivity
    linarith
  · rw [hsq, ← hR]
    constructor
    · intro h
      have h1 := (div_left_inj' hd).mp h
      have h2 := (div_left_inj' (ne_of_gt hn1)).mp h1
      have h3 : R ^ 2 / (x.length : K) = 0 := by linarith
      rcases div_eq_zero_iff.mp h3 with h | h
      · exact (pow_eq_zero_iff two_ne_zero).mp h
      · exact absurd h (ne_of_gt hn0)
    · intro h
      rw [h]
      simp

end linfit

section correlation
variable {S : Type} [Fintype S] {n : Nat}

/-- cor_from_cov of the covariances of `n` quantities gives their correlations: every entry is the
covariance over the two standard deviations, one on the diagonal, between -1 and 1. -/
theorem cor_from_cov_spec (p : S → ℝ) (hp : ∀ s, 0 ≤ p s) (f : Fin n → S → ℝ)
    (hv : ∀ i, covar p (f i) (f i) ≠ 0) :
    ∀ i j, corFromCov (Matrix.of fun i j => covar p (f i) (f j)) i j
        = covar p (f i) (f j) / (Real.sqrt (covar p (f i) (f i)) * Real.sqrt (covar p (f j) (f j))) ∧
      corFromCov (Matrix.of fun i j => covar p (f i) (f j)) i i = 1 ∧
      |corFromCov (Matrix.of fun i j => covar p (f i) (f j)) i j| ≤ 1 := by
  have hnn : ∀ g : S → ℝ, 0 ≤ covar p g g := by
    intro g
    simp only [covar, mean]
    exact Finset.sum_nonneg fun s _ => mul_nonneg (hp s) (mul_self_nonneg _)
  have hpos : ∀ i, 0 < covar p (f i) (f i) := fun i => lt_of_le_of_ne (hnn _) (Ne.symm (hv i))
  have he : ∀ i j, corFromCov (Matrix.of fun i j => covar p (f i) (f j)) i j
        = covar p (f i) (f j) / (Real.sqrt (covar p (f i) (f i)) * Real.sqrt (covar p (f j) (f j))) := by
    intro i j
    simp only [corFromCov, diagonal_mul, mul_diagonal, Matrix.of_apply]
    have h1 : Real.sqrt (covar p (f i) (f i)) ≠ 0 := (Real.sqrt_pos.mpr (hpos i)).ne'
    have h2 : Real.sqrt (covar p (f j) (f j)) ≠ 0 := (Real.sqrt_pos.mpr (hpos j)).ne'
    field_simp
  intro i j
  refine ⟨he i j, ?_, ?_⟩
  · rw [he, ← Real.sqrt_mul (hnn _), Real.sqrt_mul_self (hnn _), div_self (hv i)]
  · have hcs : covar p (f i) (f j) ^ 2 ≤ covar p (f i) (f i) * covar p (f j) (f j) := by
      -- the variance of a combination is not negative
      have hexp : ∀ a b : ℝ, 0 ≤ a ^ 2 * covar p (f i) (f i) - 2 * a * b * covar p (f i) (f j)
          + b ^ 2 * covar p (f j) (f j) := by
        intro a b
        have e : a ^ 2 * covar p (f i) (f i) - 2 * a * b * covar p (f i) (f j) + b ^ 2 * covar p (f j) (f j)
            = ∑ s, p s * (a * (f i s - mean p (f i)) - b * (f j s - mean p (f j))) ^ 2 := by
          have u : ∀ g h : S → ℝ, covar p g h = ∑ s, p s * ((g s - mean p g) * (h s - mean p h)) := fun _ _ => rfl
          rw [u, u, u, Finset.mul_sum, Finset.mul_sum, Finset.mul_sum, ← Finset.sum_sub_distrib,
            ← Finset.sum_add_distrib]
          exact Finset.sum_congr rfl fun s _ => by ring
        rw [e]
        exact Finset.sum_nonneg fun s _ => mul_nonneg (hp s) (sq_nonneg _)
      have h := hexp (covar p (f j) (f j)) (covar p (f i) (f j))
      have hj := hpos j
      have h' : 0 ≤ covar p (f j) (f j) * (covar p (f i) (f i) * covar p (f j) (f j) - covar p (f i) (f j) ^ 2) := by
        nlinarith [h]
      have := nonneg_of_mul_nonneg_right h' hj
      linarith
    rw [he, ← Real.sqrt_mul (hnn _), abs_div, abs_of_nonneg (Real.sqrt_nonneg _)]
    apply div_le_one_of_le₀ _ (Real.sqrt_nonneg _)
    exact Real.abs_le_sqrt hcs

example : covar (fun _ : Fin 2 => (1 / 2 : ℝ)) ![1, 3] ![1, 3] ≠ 0 := by
  norm_num [covar, mean, Fin.sum_univ_two]

end correlation

end SC.Fit
