import Verif.Polar.PropsMueller
/-! # C31: Stokes and Jones vectors and their parameters -/
namespace SC.Polar
open Matrix Complex

theorem intensity_inv (κ x : ℝ) (h : κ ≠ 0) : fromIntensity κ (toIntensity κ x) = x := by
  unfold fromIntensity toIntensity
  field_simp

/-- C31: setting the intensity gives this intensity and changes neither direction nor degrees of
polarization. -/
theorem setIntensity_spec (κ : ℝ) (hκ : 0 < κ) (S : Stokes) (h0 : 0 < S 0) (value : ℝ) (hv : 0 < value) :
    Stokes.intensity κ (Stokes.setIntensity κ S value) = value ∧
    Stokes.dop (Stokes.setIntensity κ S value) = Stokes.dop S ∧
    Stokes.dolp (Stokes.setIntensity κ S value) = Stokes.dolp S ∧
    Stokes.polangle (Stokes.setIntensity κ S value) = Stokes.polangle S ∧
    Stokes.handedness (Stokes.setIntensity κ S value) = Stokes.handedness S := by
  have hI : 0 < Stokes.intensity κ S := by unfold Stokes.intensity toIntensity; positivity
  have hr : 0 < value / Stokes.intensity κ S := div_pos hv hI
  set r := value / Stokes.intensity κ S with hrdef
  have hS : ∀ i, Stokes.setIntensity κ S value i = S i * r := fun i => rfl
  have hsq : ∀ x : ℝ, Real.sqrt (x * r ^ 2) = Real.sqrt x * r := by
    intro x
    rw [Real.sqrt_mul' _ (sq_nonneg r), Real.sqrt_sq hr.le]
  refine ⟨?_, ?_, ?_, ?_, ?_⟩
  · unfold Stokes.intensity toIntensity
    rw [hS, hrdef]
    unfold Stokes.intensity toIntensity
    field_simp
  · unfold Stokes.dop
    have : Stokes.polsq (Stokes.setIntensity κ S value) = Stokes.polsq S * r ^ 2 := by
      unfold Stokes.polsq
      rw [hS, hS, hS]
      ring
    rw [this, hsq, hS]
    field_simp
  · unfold Stokes.dolp
    have : Stokes.linsq (Stokes.setIntensity κ S value) = Stokes.linsq S * r ^ 2 := by
      unfold Stokes.linsq
      rw [hS, hS]
      ring
    rw [this, hsq, hS]
    field_simp
  · unfold Stokes.polangle arctan2
    have : (⟨Stokes.setIntensity κ S value 1, Stokes.setIntensity κ S value 2⟩ : ℂ) = (r : ℂ) * ⟨S 1, S 2⟩ := by
      apply Complex.ext <;> simp [hS, mul_comm]
    rw [this, Complex.arg_real_mul _ hr]
  · unfold Stokes.handedness
    rw [hS]
    have h1 : (0 < S 3 * r) ↔ 0 < S 3 := by constructor <;> intro h <;> nlinarith
    have h2 : (S 3 * r < 0) ↔ S 3 < 0 := by constructor <;> intro h <;> nlinarith
    simp only [h1, h2]

/-- C31: the same for Jones vectors; the phase is kept as well. -/
theorem jones_setIntensity_spec (κ : ℝ) (hκ : 0 < κ) (J : Jones) (hJ : J ≠ 0) (value : ℝ) (hv : 0 < value) :
    Jones.intensity κ (Jones.setIntensity κ J value) = value ∧ Jones.phase0 (Jones.setIntensity κ J value) = Jones.phase0 J ∧
    Jones.phaseDifference (Jones.setIntensity κ J value) = Jones.phaseDifference J := by
  have hI : 0 < Jones.intensity κ J := by
    unfold Jones.intensity toIntensity
    have := sqnorm_pos hJ
    positivity
  have hr : 0 < value / Jones.intensity κ J := div_pos hv hI
  have hs : 0 < Real.sqrt (value / Jones.intensity κ J) := Real.sqrt_pos.2 hr
  have hS : ∀ i, Jones.setIntensity κ J value i = (Real.sqrt (value / Jones.intensity κ J) : ℂ) * J i := fun i => mul_comm _ _
  refine ⟨?_, ?_, ?_⟩
  · unfold Jones.intensity toIntensity
    rw [sqnorm_eq, hS, hS, normSq_mul, normSq_mul, normSq_ofReal, Real.mul_self_sqrt hr.le]
    have e : Jones.intensity κ J = (normSq (J 0) + normSq (J 1)) / 2 * κ := by
      unfold Jones.intensity toIntensity
      rw [sqnorm_eq]
    have hp := sqnorm_pos hJ
    rw [sqnorm_eq] at hp
    rw [e, ← mul_add]
    field_simp
  · unfold Jones.phase0
    rw [hS, Complex.arg_real_mul _ hs]
  · unfold Jones.phaseDifference Jones.phase1 Jones.phase0
    rw [hS, hS, Complex.arg_real_mul _ hs, Complex.arg_real_mul _ hs]

/-- C31: the phase difference read from Stokes and Jones vectors agrees up to full turns. -/
theorem phaseDifference_agree (J : Jones) (h0 : J 0 ≠ 0) (h1 : J 1 ≠ 0) (S : Stokes) (hS : Jones.toStokes J = some S) :
    ∃ n : ℤ, Stokes.phaseDifference S = Jones.phaseDifference J + n * 360 := by
  rw [toStokes_eq, Option.some_inj] at hS
  subst hS
  obtain ⟨_, _, h2, h3⟩ := ofC_J J
  have hz : (⟨Stokes.ofCoherency! (Jones.coherency J) 2, Stokes.ofCoherency! (Jones.coherency J) 3⟩ : ℂ) = ((2 : ℝ) : ℂ) * (J 1 * (starRingEnd ℂ) (J 0)) := by
    rw [h2, h3]
    apply Complex.ext <;> simp <;> ring
  have hc : (starRingEnd ℂ) (J 0) ≠ 0 := by simpa using h0
  have hang : ((arg (J 1 * (starRingEnd ℂ) (J 0)) : ℝ) : Real.Angle) = ((arg (J 1) - arg (J 0) : ℝ) : Real.Angle) := by
    rw [Complex.arg_mul_coe_angle h1 hc, Complex.arg_conj_coe_angle, sub_eq_add_neg, Real.Angle.coe_add, Real.Angle.coe_neg]
  obtain ⟨n, hn⟩ := Real.Angle.angle_eq_iff_two_pi_dvd_sub.1 hang
  refine ⟨n, ?_⟩
  unfold Stokes.phaseDifference arctan2 Jones.phaseDifference Jones.phase1 Jones.phase0 degrees
  rw [hz, Complex.arg_real_mul _ (by norm_num)]
  have hpi := Real.pi_ne_zero
  have e : arg (J 1 * (starRingEnd ℂ) (J 0)) = arg (J 1) - arg (J 0) + 2 * Real.pi * n := by linarith
  rw [e]
  field_simp
  ring

theorem sqrt_mul_sign (x c : ℝ) (h : (0 < c ∧ 0 ≤ x) ∨ (c < 0 ∧ x ≤ 0) ∨ x = 0) : Real.sqrt (x ^ 2) * Stokes.sign c = x := by
  rw [Real.sqrt_sq_eq_abs]
  unfold Stokes.sign
  rcases h with ⟨h, hx⟩ | ⟨h, hx⟩ | h
  · rw [if_pos h, abs_of_nonneg hx, mul_one]
  · rw [if_neg (by linarith), if_pos h, abs_of_nonpos hx]; ring
  · simp [h]

/-- C31: a Stokes vector comes back from its parameters, unless it is polarized at 45 degrees to the
axes, where the tangent is infinite. -/
theorem params_roundtrip_partial (κ : ℝ) (hκ : κ ≠ 0) (S : Stokes) (h0 : 0 < S 0) (h : S 1 ≠ 0 ∨ S 2 = 0) :
    Stokes.fromParams κ (Stokes.toParams κ S) = some S := by
  have hle : Stokes.dolp S ≤ Stokes.dop S := by
    unfold Stokes.dolp Stokes.dop
    apply div_le_div_of_nonneg_right _ h0.le
    apply Real.sqrt_le_sqrt
    unfold Stokes.linsq Stokes.polsq
    nlinarith [sq_nonneg (S 3)]
  have hI : fromIntensity κ (Stokes.intensity κ S) = S 0 := intensity_inv κ (S 0) hκ
  have hdolp : (Stokes.dolp S * S 0) ^ 2 = S 1 ^ 2 + S 2 ^ 2 := by
    unfold Stokes.dolp
    rw [div_mul_cancel₀ _ (ne_of_gt h0), Real.sq_sqrt (by unfold Stokes.linsq; positivity)]
    rfl
  have hdop : (Stokes.dop S * S 0) ^ 2 = S 1 ^ 2 + S 2 ^ 2 + S 3 ^ 2 := by
    unfold Stokes.dop
    rw [div_mul_cancel₀ _ (ne_of_gt h0), Real.sq_sqrt (by unfold Stokes.polsq; positivity)]
    rfl
  have hang : radians (2 * Stokes.polangle S) = arg ⟨S 1, S 2⟩ := by
    rw [radians_two, Stokes.polangle, radians_degrees, arctan2]
    ring
  set z : ℂ := ⟨S 1, S 2⟩ with hz
  have hre : ‖z‖ * Real.cos (arg z) = S 1 := Complex.norm_mul_cos_arg z
  have him : ‖z‖ * Real.sin (arg z) = S 2 := Complex.norm_mul_sin_arg z
  have hcos : Real.cos (arg z) ≠ 0 := by
    intro hc
    rw [hc, mul_zero] at hre
    rcases h with h | h
    · exact h hre.symm
    · have : z = 0 := by apply Complex.ext <;> simp [hz, ← hre, h]
      rw [this] at hc
      simp at hc
  have hnz : 0 ≤ ‖z‖ := norm_nonneg z
  have hnsq : ‖z‖ ^ 2 = S 1 ^ 2 + S 2 ^ 2 := by
    rw [← normSq_eq_norm_sq, normSq_apply]
    simp [hz]
    ring
  have hS1sq : (S 1 ^ 2 + S 2 ^ 2) / (1 + Real.tan (arg z) ^ 2) = S 1 ^ 2 := by
    rw [← hnsq, Real.tan_eq_sin_div_cos]
    have := Real.sin_sq_add_cos_sq (arg z)
    have e : 1 + (Real.sin (arg z) / Real.cos (arg z)) ^ 2 = 1 / Real.cos (arg z) ^ 2 := by
      field_simp
      linarith
    rw [e, ← hre]
    field_simp
  unfold Stokes.fromParams Stokes.toParams
  simp only [hI, hdolp, hdop, hang, hS1sq]
  rw [if_neg (not_lt.2 hle)]
  congr 1
  have e3 : S 1 ^ 2 + S 2 ^ 2 + S 3 ^ 2 - (S 1 ^ 2 + S 2 ^ 2) = S 3 ^ 2 := by ring
  have e2 : S 1 ^ 2 + S 2 ^ 2 - S 1 ^ 2 = S 2 ^ 2 := by ring
  rw [e3, e2]
  apply stokes_ext
  · rfl
  · simp only [cons_val_one, cons_val_zero]
    apply sqrt_mul_sign
    rcases lt_or_gt_of_ne hcos with hc | hc
    · right; left; exact ⟨hc, by rw [← hre]; nlinarith⟩
    · left; exact ⟨hc, by rw [← hre]; nlinarith⟩
  · simp only [cons_val]
    apply sqrt_mul_sign
    rcases lt_trichotomy (Real.sin (arg z)) 0 with hc | hc | hc
    · right; left; exact ⟨hc, by rw [← him]; nlinarith⟩
    · right; right; rw [← him, hc, mul_zero]
    · left; exact ⟨hc, by rw [← him]; nlinarith⟩
  · simp only [cons_val]
    rw [Real.sqrt_sq_eq_abs]
    unfold Stokes.handedness
    rcases lt_trichotomy (S 3) 0 with hc | hc | hc
    · have h1 : ¬ 0 < S 3 := by linarith
      simp [h1, hc, abs_of_neg hc]
    · simp [hc]
    · simp [hc, abs_of_pos hc]

/-- C31: a Jones vector comes back from its parameters, except for the two cases above. -/
theorem jones_params_roundtrip_partial (κ : ℝ) (hκ : κ ≠ 0) (J : Jones) (hJ : J ≠ 0) (S : Stokes) (hS : Jones.toStokes J = some S)
    (h : S 1 ≠ 0 ∨ S 2 = 0) (h' : J 0 ≠ 0 ∨ arg (J 1) = 0) :
    (Jones.toParams κ J).bind (Jones.fromParams κ) = some J := by
  have h0 : 0 < S 0 := by
    obtain ⟨S', e1, _, e2, _⟩ := jones_to_stokes J
    rw [hS, Option.some_inj] at e1
    subst e1
    rw [e2, ← normSq_eq_norm_sq, ← normSq_eq_norm_sq, ← sqnorm_eq]
    exact sqnorm_pos hJ
  have hd := jones_dop hJ hS κ
  have hp := params_roundtrip_partial κ hκ S h0 h
  have e : (Jones.toParams κ J) = some { intensity := Jones.intensity κ J, dolp := Stokes.dolp S, polangle := Stokes.polangle S, handedness := Stokes.handedness S, phase0 := Jones.phase0 J } := by
    simp [Jones.toParams, hS]
  rw [e, Option.bind_some, Jones.fromParams]
  simp only [Stokes.toParams, hd.1, hd.2] at hp
  simp only [hp, Option.bind_some]
  have := (jones_roundtrip J hJ).2 h'
  rw [hS, Option.bind_some] at this
  exact this

/-- C31: the field a quarter period apart adds up to the squared norm: the intensity is the mean of the
squared field. -/
theorem efield_quarter (J : Jones) (phase : ℝ) :
    (Jones.efield J phase 0 ^ 2 + Jones.efield J phase 1 ^ 2) +
      (Jones.efield J (phase + 90) 0 ^ 2 + Jones.efield J (phase + 90) 1 ^ 2) = Jones.sqnorm J := by
  have e : ∀ i p, Jones.efield J p i = (J i).re * Real.cos (radians p) + (J i).im * Real.sin (radians p) := by
    intro i p
    have h : exp (-I * (radians p : ℂ)) = ⟨Real.cos (radians p), -Real.sin (radians p)⟩ := by
      have : -I * (radians p : ℂ) = ((-radians p : ℝ) : ℂ) * I := by push_cast; ring
      rw [this, Complex.exp_mul_I, ← Complex.ofReal_cos, ← Complex.ofReal_sin, Real.cos_neg, Real.sin_neg]
      generalize Real.cos (radians p) = c
      generalize Real.sin (radians p) = s
      apply Complex.ext <;> simp
    unfold Jones.efield
    rw [h, Complex.mul_re]
    ring
  have hc : Real.cos (radians (phase + 90)) = -Real.sin (radians phase) := by
    rw [radians_add, radians_90, Real.cos_add_pi_div_two]
  have hs : Real.sin (radians (phase + 90)) = Real.cos (radians phase) := by
    rw [radians_add, radians_90, Real.sin_add_pi_div_two]
  simp only [e, hc, hs, sqnorm_eq, normSq_apply]
  linear_combination ((J 0).re ^ 2 + (J 0).im ^ 2 + (J 1).re ^ 2 + (J 1).im ^ 2) * Real.sin_sq_add_cos_sq (radians phase)

end SC.Polar
