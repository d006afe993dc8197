import Verif.Polar.Lemmas
/-! # C31: representations of polarization agree -/
namespace SC.Polar
open Matrix Complex

/-! ## Stokes vectors, Jones vectors and coherency matrices -/

/-- C31: Stokes vector to coherency matrix and back. -/
theorem stokes_roundtrip (S : Stokes) : Stokes.ofCoherency (Stokes.coherency S) = some S := by
  rw [ofCoherencyS_of_hermitian (hermitianS S)]
  congr 1
  apply stokes_ext
  · rw [ofC0, coherencyS_eq]; simp; ring
  · rw [ofC1, coherencyS_eq]; simp; ring
  · rw [ofC2, coherencyS_eq]; simp
  · rw [ofC3, coherencyS_eq]; simp; ring

/-- C31: every Hermitian matrix is the coherency matrix of the Stokes vector made from it. -/
theorem coherency_roundtrip {C : Matrix (Fin 2) (Fin 2) ℂ} (h : Cᴴ = C) :
    ∃ S, Stokes.ofCoherency C = some S ∧ Stokes.coherency S = C :=
  ⟨_, ofCoherencyS_of_hermitian h, of_coherency_hermitian h⟩

theorem toStokes_eq (J : Jones) : Jones.toStokes J = some (Stokes.ofCoherency! (Jones.coherency J)) :=
  ofCoherencyS_of_hermitian (hermitianJ J)

/-- C31: the Stokes vector of a Jones vector exists, has the same coherency matrix and its textbook
values; `δ` is the phase of the second component with respect to the first. -/
theorem jones_to_stokes (J : Jones) : ∃ S, Jones.toStokes J = some S ∧ Stokes.coherency S = Jones.coherency J ∧
    S 0 = ‖J 0‖ ^ 2 + ‖J 1‖ ^ 2 ∧ S 1 = ‖J 0‖ ^ 2 - ‖J 1‖ ^ 2 ∧
    (∀ δ, δ = arg (J 1) - arg (J 0) →
      S 2 = 2 * ‖J 0‖ * ‖J 1‖ * Real.cos δ ∧ S 3 = 2 * ‖J 0‖ * ‖J 1‖ * Real.sin δ) := by
  refine ⟨_, toStokes_eq J, of_coherency_hermitian (hermitianJ J), ?_, ?_, ?_⟩
  · rw [ofC0, coherencyJ_eq]
    simp [← Complex.normSq_eq_norm_sq, Complex.normSq_apply]
  · rw [ofC1, coherencyJ_eq]
    simp [← Complex.normSq_eq_norm_sq, Complex.normSq_apply]
  · rintro δ rfl
    have h : ∀ z : ℂ, z.re = ‖z‖ * Real.cos (arg z) ∧ z.im = ‖z‖ * Real.sin (arg z) := fun z => by
      constructor
      · rw [Complex.norm_mul_cos_arg]
      · rw [Complex.norm_mul_sin_arg]
    obtain ⟨a1, a2⟩ := h (J 0)
    obtain ⟨b1, b2⟩ := h (J 1)
    constructor
    · rw [ofC2, coherencyJ_eq, Real.cos_sub]
      simp only [of_apply, cons_val', cons_val_zero, cons_val_one, cons_val_fin_one, add_re, mul_re, conj_re, conj_im]
      rw [a1, a2, b1, b2]
      ring
    · rw [ofC3, coherencyJ_eq, Real.sin_sub]
      simp only [of_apply, cons_val', cons_val_zero, cons_val_one, cons_val_fin_one, sub_im, mul_im, conj_re, conj_im]
      rw [a1, a2, b1, b2]
      ring

theorem ofC_J (J : Jones) : (Stokes.ofCoherency! (Jones.coherency J) 0 = normSq (J 0) + normSq (J 1)) ∧
    (Stokes.ofCoherency! (Jones.coherency J) 1 = normSq (J 0) - normSq (J 1)) ∧
    (Stokes.ofCoherency! (Jones.coherency J) 2 = 2 * ((J 0).re * (J 1).re + (J 0).im * (J 1).im)) ∧
    (Stokes.ofCoherency! (Jones.coherency J) 3 = 2 * ((J 0).re * (J 1).im - (J 0).im * (J 1).re)) := by
  refine ⟨?_, ?_, ?_, ?_⟩
  · rw [ofC0, coherencyJ_eq]; simp [Complex.normSq_apply]
  · rw [ofC1, coherencyJ_eq]; simp [Complex.normSq_apply]
  · rw [ofC2, coherencyJ_eq]; simp; ring
  · rw [ofC3, coherencyJ_eq]; simp; ring

theorem polsq_J (J : Jones) : Stokes.polsq (Stokes.ofCoherency! (Jones.coherency J)) = (normSq (J 0) + normSq (J 1)) ^ 2 := by
  obtain ⟨_, h1, h2, h3⟩ := ofC_J J
  unfold Stokes.polsq
  rw [h1, h2, h3]
  simp only [normSq_apply]
  ring

theorem sqrt_polsq_J (J : Jones) : Real.sqrt (Stokes.polsq (Stokes.ofCoherency! (Jones.coherency J))) =
    Stokes.ofCoherency! (Jones.coherency J) 0 := by
  rw [polsq_J, (ofC_J J).1, Real.sqrt_sq (add_nonneg (normSq_nonneg _) (normSq_nonneg _))]

theorem sqnorm_eq (J : Jones) : Jones.sqnorm J = normSq (J 0) + normSq (J 1) := by
  simp [Jones.sqnorm, dotProduct, normSq_apply]

theorem sqnorm_pos {J : Jones} (h : J ≠ 0) : 0 < Jones.sqnorm J := by
  rw [sqnorm_eq]
  by_cases h0 : J 0 = 0
  · have h1 : J 1 ≠ 0 := fun h1 => h (by ext i; fin_cases i <;> simpa)
    have := normSq_pos.2 h1
    have := normSq_nonneg (J 0)
    linarith
  · have := normSq_pos.2 h0
    have := normSq_nonneg (J 1)
    linarith

/-- C31: a Jones vector is fully polarized and has the intensity of its Stokes vector. -/
theorem jones_dop {J : Jones} (h : J ≠ 0) {S : Stokes} (hS : Jones.toStokes J = some S) (κ : ℝ) :
    Stokes.dop S = 1 ∧ Stokes.intensity κ S = Jones.intensity κ J := by
  rw [toStokes_eq, Option.some_inj] at hS
  subst hS
  have hp := sqnorm_pos h
  rw [sqnorm_eq] at hp
  refine ⟨?_, ?_⟩
  · unfold Stokes.dop
    rw [sqrt_polsq_J, div_self]
    rw [(ofC_J J).1]
    exact ne_of_gt hp
  · unfold Stokes.intensity Jones.intensity
    rw [(ofC_J J).1, sqnorm_eq]

/-- A Stokes vector without unpolarized part. -/
def Pure (S : Stokes) : Prop := S 0 = Real.sqrt (S 1 ^ 2 + S 2 ^ 2 + S 3 ^ 2)

theorem pure_bounds {S : Stokes} (h : Pure S) : 0 ≤ S 0 + S 1 ∧ 0 ≤ S 0 - S 1 ∧ (S 0 + S 1) * (S 0 - S 1) = S 2 ^ 2 + S 3 ^ 2 := by
  have hn : 0 ≤ S 1 ^ 2 + S 2 ^ 2 + S 3 ^ 2 := by positivity
  have hsq : S 0 ^ 2 = S 1 ^ 2 + S 2 ^ 2 + S 3 ^ 2 := by rw [h]; exact Real.sq_sqrt hn
  have h0 : 0 ≤ S 0 := by rw [h]; exact Real.sqrt_nonneg _
  have habs : |S 1| ≤ S 0 := by
    apply abs_le_of_sq_le_sq _ h0
    nlinarith [sq_nonneg (S 2), sq_nonneg (S 3)]
  have := abs_le.1 habs
  refine ⟨by linarith, by linarith, by linear_combination hsq⟩

/-- C31: the Jones vector made from the matrix of a fully polarized wave has this matrix, and the given
phase. -/
theorem ofCoherency_pure {S : Stokes} (h : Pure S) (p : ℝ) :
    Jones.coherency (Jones.ofCoherency! (Stokes.coherency S) p) = Stokes.coherency S := by
  obtain ⟨h0, h1, h2⟩ := pure_bounds h
  have e00 : (Stokes.coherency S) 0 0 = (((S 0 + S 1) / 2 : ℝ) : ℂ) := by rw [coherencyS_eq]; simp
  have e11 : (Stokes.coherency S) 1 1 = (((S 0 - S 1) / 2 : ℝ) : ℂ) := by rw [coherencyS_eq]; simp
  have e10 : (Stokes.coherency S) 1 0 = ((S 2 : ℂ) + I * S 3) / 2 := by rw [coherencyS_eq]; simp
  set z := (Stokes.coherency S) 1 0 with hz
  have a0 : 0 ≤ (S 0 + S 1) / 2 := by linarith
  have a1 : 0 ≤ (S 0 - S 1) / 2 := by linarith
  have hzn : ‖z‖ = Real.sqrt ((S 0 + S 1) / 2) * Real.sqrt ((S 0 - S 1) / 2) := by
    rw [← Real.sqrt_mul a0, Complex.norm_def]
    congr 1
    rw [e10, normSq_apply]
    simp
    linear_combination -h2 / 4
  have hexp : ∀ t : ℝ, exp (t * I) * (starRingEnd ℂ) (exp (t * I)) = 1 := by
    intro t
    rw [Complex.mul_conj, Complex.normSq_eq_norm_sq, Complex.norm_exp_ofReal_mul_I]
    simp
  have hj : Jones.ofCoherency! (Stokes.coherency S) p =
      ![(Real.sqrt ((S 0 + S 1) / 2) : ℂ) * exp ((radians p : ℂ) * I), (Real.sqrt ((S 0 - S 1) / 2) : ℂ) * (exp ((arg z : ℂ) * I) * exp ((radians p : ℂ) * I))] := by
    unfold Jones.ofCoherency!
    simp only [e00, e11, csqrt_ofReal a0, csqrt_ofReal a1, ← hz]
    congr 1
    congr 1
    rw [Complex.ofReal_add, add_mul, Complex.exp_add]
  have hC01 : (Stokes.coherency S) 0 1 = (starRingEnd ℂ) z := by
    conv_lhs => rw [← hermitianS S]
    rfl
  have key : z = (Real.sqrt ((S 0 - S 1) / 2) : ℂ) * exp ((arg z : ℂ) * I) * (Real.sqrt ((S 0 + S 1) / 2) : ℂ) := by
    conv_lhs => rw [← Complex.norm_mul_exp_arg_mul_I z, hzn]
    push_cast
    ring
  rw [coherencyJ_eq, hj]
  have h4 := hexp (arg z)
  have h3 := hexp (radians p)
  generalize exp ((arg z : ℂ) * I) = E at key h4 ⊢
  generalize exp ((radians p : ℂ) * I) = P at h3 ⊢
  apply mat_ext
  · rw [e00]
    simp only [of_apply, cons_val', cons_val_zero, cons_val_fin_one, map_mul, conj_ofReal]
    calc _ = (Real.sqrt ((S 0 + S 1) / 2) : ℂ) * (Real.sqrt ((S 0 + S 1) / 2) : ℂ) * (P * (starRingEnd ℂ) P) := by ring
      _ = _ := by rw [h3, mul_one, ← Complex.ofReal_mul, Real.mul_self_sqrt a0]
  · rw [hC01, key]
    simp only [of_apply, cons_val', cons_val_zero, cons_val_one, cons_val_fin_one, map_mul, conj_ofReal]
    linear_combination (Real.sqrt ((S 0 + S 1) / 2) : ℂ) * (Real.sqrt ((S 0 - S 1) / 2) : ℂ) * (starRingEnd ℂ) E * h3
  · rw [← hz, key]
    simp only [of_apply, cons_val', cons_val_zero, cons_val_one, cons_val_fin_one, map_mul, conj_ofReal]
    linear_combination (Real.sqrt ((S 0 + S 1) / 2) : ℂ) * (Real.sqrt ((S 0 - S 1) / 2) : ℂ) * E * h3
  · rw [e11]
    simp only [of_apply, cons_val', cons_val_one, cons_val_fin_one, map_mul, conj_ofReal]
    calc _ = (Real.sqrt ((S 0 - S 1) / 2) : ℂ) * (Real.sqrt ((S 0 - S 1) / 2) : ℂ) * (E * (starRingEnd ℂ) E) * (P * (starRingEnd ℂ) P) := by ring
      _ = _ := by rw [h3, h4, mul_one, mul_one, ← Complex.ofReal_mul, Real.mul_self_sqrt a1]

theorem decompose_pure (S : Stokes) : Pure (Stokes.decompose S).1 := by
  simp [Pure, Stokes.decompose, Stokes.polsq]

/-- C31: polarized and unpolarized part sum back: components, intensities and coherency matrices; the
polarized part is fully polarized, the unpolarized part has no preferred direction. -/
theorem decompose_spec (κ : ℝ) (S : Stokes) :
    (∀ i, (Stokes.decompose S).1 i + (Stokes.decompose S).2 i = S i) ∧
    Stokes.coherency (Stokes.decompose S).1 + Stokes.coherency (Stokes.decompose S).2 = Stokes.coherency S ∧
    Stokes.intensity κ (Stokes.decompose S).1 = Stokes.intensityPolarized κ S ∧
    Stokes.intensity κ (Stokes.decompose S).2 = Stokes.intensityUnpolarized κ S ∧
    Stokes.intensityPolarized κ S + Stokes.intensityUnpolarized κ S = Stokes.intensity κ S ∧
    Pure (Stokes.decompose S).1 ∧ (∀ i, i ≠ 0 → (Stokes.decompose S).2 i = 0) := by
  have h1 : ∀ i, (Stokes.decompose S).1 i + (Stokes.decompose S).2 i = S i := by
    intro i
    fin_cases i <;> simp [Stokes.decompose]
  refine ⟨h1, ?_, rfl, rfl, ?_, decompose_pure S, ?_⟩
  · simp only [coherencyS_eq]
    have h2 : ∀ i, (((Stokes.decompose S).1 i : ℝ) : ℂ) + ((Stokes.decompose S).2 i : ℝ) = (S i : ℝ) := by
      intro i
      rw [← Complex.ofReal_add, h1]
    apply mat_ext
    · simp; linear_combination (h2 0 + h2 1) / 2
    · simp; linear_combination (h2 2 - I * h2 3) / 2
    · simp; linear_combination (h2 2 + I * h2 3) / 2
    · simp; linear_combination (h2 0 - h2 1) / 2
  · simp only [Stokes.intensityPolarized, Stokes.intensityUnpolarized, Stokes.intensity, toIntensity]
    ring
  · intro i hi
    fin_cases i <;> simp_all [Stokes.decompose]

/-- C31: the unpolarized part has a negative intensity exactly for Stokes vectors that no wave has. -/
theorem unpolarized_nonneg_iff (S : Stokes) (h : 0 < S 0) : 0 ≤ (Stokes.decompose S).2 0 ↔ Stokes.dop S ≤ 1 := by
  simp [Stokes.decompose, Stokes.dop, div_le_one h]

/-- C31: conversion to a Jones vector keeps the polarized part, whatever phase is asked for, and does
so exactly when there is none other within the tolerance or its loss is allowed. -/
theorem toJones_spec (S : Stokes) (h0 : 0 < S 0) (p : ℝ) (allow : Bool) (atol : ℝ) (ha : 0 ≤ atol) :
    ((Stokes.toJones S p allow atol).isSome ↔ (allow = true ∨ |Stokes.dop S - 1| ≤ atol)) ∧
    ∀ J, Stokes.toJones S p allow atol = some J → Jones.toStokes J = some (Stokes.decompose S).1 := by
  have hcase : ∀ P, Stokes.polPart S allow atol = some P → P = (Stokes.decompose S).1 := by
    intro P hP
    unfold Stokes.polPart at hP
    simp only at hP
    split at hP
    · next hd =>
      obtain rfl := Option.some_inj.1 hP
      have : Real.sqrt (Stokes.polsq S) = S 0 := by
        have hd1 : Stokes.dop S = 1 := by linarith
        rw [Stokes.dop, div_eq_one_iff_eq (ne_of_gt h0)] at hd1
        exact hd1
      apply stokes_ext <;> simp [Stokes.decompose, this]
    · split at hP
      · simp at hP
      · exact (Option.some_inj.1 hP).symm
  have hiff : (Stokes.polPart S allow atol).isSome ↔ (allow = true ∨ |Stokes.dop S - 1| ≤ atol) := by
    unfold Stokes.polPart
    simp only
    split
    · next hd => simp [hd, ha]
    · split
      · next hd => simp [hd.1, hd.2]
      · next hd =>
        simp only [Option.isSome_some, true_iff]
        by_cases hal : allow = true
        · exact Or.inl hal
        · right
          simp only [not_and, Bool.not_eq_false] at hd
          by_contra hc
          exact hal (hd (not_le.1 hc))
  constructor
  · rw [← hiff]
    unfold Stokes.toJones
    cases hP : Stokes.polPart S allow atol with
    | none => simp
    | some P => simp [ofCoherencyJ_of_hermitian (hermitianS P)]
  · intro J hJ
    unfold Stokes.toJones at hJ
    cases hP : Stokes.polPart S allow atol with
    | none => rw [hP] at hJ; simp at hJ
    | some P =>
      rw [hP] at hJ
      simp only [Option.bind_some, ofCoherencyJ_of_hermitian (hermitianS P), Option.some_inj] at hJ
      subst hJ
      obtain rfl := hcase P hP
      rw [Jones.toStokes, ofCoherency_pure (decompose_pure S), stokes_roundtrip]

theorem ofCoherency_coherency (J : Jones) : Jones.ofCoherency! (Jones.coherency J) (Jones.phase0 J) = J ↔
    (J 0 ≠ 0 ∨ arg (J 1) = 0) := by
  have hJ : Jones.ofCoherency! (Jones.coherency J) (Jones.phase0 J) =
      ![(‖J 0‖ : ℂ) * exp ((arg (J 0) : ℂ) * I), (‖J 1‖ : ℂ) * exp (((arg (J 1 * (starRingEnd ℂ) (J 0)) + arg (J 0) : ℝ) : ℂ) * I)] := by
    unfold Jones.ofCoherency! Jones.phase0
    rw [coherencyJ_eq]
    simp [csqrt_normSq, radians_degrees]
  rw [hJ]
  have hpol := Complex.norm_mul_exp_arg_mul_I
  by_cases h0 : J 0 = 0
  · simp only [h0, map_zero, mul_zero, arg_zero, ne_eq, not_true_eq_false, false_or, add_zero, norm_zero]
    constructor
    · intro h
      have := congrFun h 1
      simp only [cons_val_one, cons_val_fin_one, ofReal_zero, zero_mul, Complex.exp_zero, mul_one] at this
      rw [← this]
      exact Complex.arg_ofReal_of_nonneg (norm_nonneg _)
    · intro h
      ext i
      fin_cases i
      · simp [h0]
      · have := hpol (J 1)
        rw [h] at this
        simpa using this
  · simp only [ne_eq, h0, not_false_eq_true, true_or, iff_true]
    ext i
    fin_cases i
    · exact hpol (J 0)
    · simp only [Fin.mk_one, cons_val_one, cons_val_fin_one]
      by_cases h1 : J 1 = 0
      · simp [h1]
      · have hc : (starRingEnd ℂ) (J 0) ≠ 0 := by simpa using h0
        have e1 := hpol (J 1 * (starRingEnd ℂ) (J 0))
        have e0 := hpol (J 0)
        rw [Complex.ofReal_add, add_mul, Complex.exp_add]
        have hn0 : (‖J 0‖ : ℂ) ≠ 0 := by simpa using h0
        have hcc : (starRingEnd ℂ) (J 0) * J 0 = (‖J 0‖ : ℂ) * ‖J 0‖ := by
          rw [mul_comm, Complex.mul_conj, normSq_eq_norm_sq]; push_cast; ring
        rw [norm_mul, RCLike.norm_conj] at e1
        push_cast at e1
        apply mul_left_cancel₀ (mul_ne_zero hn0 hn0)
        calc (‖J 0‖ : ℂ) * ‖J 0‖ * (‖J 1‖ * (exp (arg (J 1 * (starRingEnd ℂ) (J 0)) * I) * exp (arg (J 0) * I)))
            = ((‖J 1‖ : ℂ) * ‖J 0‖ * exp (arg (J 1 * (starRingEnd ℂ) (J 0)) * I)) * (‖J 0‖ * exp (arg (J 0) * I)) := by ring
          _ = J 1 * (starRingEnd ℂ) (J 0) * J 0 := by rw [e1, e0]
          _ = J 1 * ((starRingEnd ℂ) (J 0) * J 0) := by ring
          _ = _ := by rw [hcc]; ring

/-- C31: a Jones vector comes back from its Stokes vector and the phase of its first component, except
when the first component is zero and the second has a phase. -/
theorem jones_roundtrip (J : Jones) (h : J ≠ 0) :
    (Jones.toStokes J).bind (fun S => Stokes.toJones S (Jones.phase0 J)) = some J ↔ (J 0 ≠ 0 ∨ arg (J 1) = 0) := by
  rw [toStokes_eq, Option.bind_some]
  have hd := (jones_dop h (toStokes_eq J) 1).1
  have hp : Stokes.polPart (Stokes.ofCoherency! (Jones.coherency J)) false (1 / 10 ^ 7) = some (Stokes.ofCoherency! (Jones.coherency J)) := by
    unfold Stokes.polPart
    simp [hd]
  rw [Stokes.toJones, hp, Option.bind_some, of_coherency_hermitian (hermitianJ J), ofCoherencyJ_of_hermitian (hermitianJ J),
    Option.some_inj, ofCoherency_coherency]

end SC.Polar
