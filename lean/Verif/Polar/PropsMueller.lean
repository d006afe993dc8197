import Verif.Polar.Props
/-! # C31: rotations and scattering of Jones and Stokes vectors agree -/
namespace SC.Polar
open Matrix Complex

/-- Specification: the real matrix `M` does to Stokes vectors what the Jones matrix `A` does to
coherency matrices. -/
def Represents (A : Matrix (Fin 2) (Fin 2) ℂ) (M : Matrix (Fin 4) (Fin 4) ℝ) : Prop :=
  ∀ S : Stokes, Stokes.coherency (M *ᵥ S) = A * Stokes.coherency S * Aᴴ

theorem coherency_mulVec (A : Matrix (Fin 2) (Fin 2) ℂ) (J : Jones) :
    Jones.coherency (A *ᵥ J) = A * Jones.coherency J * Aᴴ := by
  unfold Jones.coherency
  rw [star_mulVec, mul_vecMulVec, vecMulVec_mul]

theorem hermitian_conj {A C : Matrix (Fin 2) (Fin 2) ℂ} (h : Cᴴ = C) : (A * C * Aᴴ)ᴴ = A * C * Aᴴ := by
  simp [conjTranspose_mul, h, Matrix.mul_assoc]

/-- With such a pair the Stokes vector of the transformed Jones vector is the transformed Stokes vector. -/
theorem represents_jones {A : Matrix (Fin 2) (Fin 2) ℂ} {M : Matrix (Fin 4) (Fin 4) ℝ} (h : Represents A M) (J : Jones) :
    Jones.toStokes (A *ᵥ J) = (Jones.toStokes J).map (fun S => M *ᵥ S) := by
  rw [toStokes_eq J, Option.map_some, Jones.toStokes, coherency_mulVec]
  have := h (Stokes.ofCoherency! (Jones.coherency J))
  rw [of_coherency_hermitian (hermitianJ J)] at this
  rw [← this, stokes_roundtrip]

theorem represents_mul {A B : Matrix (Fin 2) (Fin 2) ℂ} {M N : Matrix (Fin 4) (Fin 4) ℝ} (h : Represents A M) (h' : Represents B N) :
    Represents (A * B) (M * N) := by
  intro S
  rw [← mulVec_mulVec, h, h', conjTranspose_mul]
  simp only [Matrix.mul_assoc]

theorem rotate_0 (S : Stokes) (φ : ℝ) : Stokes.rotate S φ 0 = S 0 := by
  simp [Stokes.rotate, muellerRotation, mulVec, dotProduct, Fin.sum_univ_succ]
theorem rotate_1 (S : Stokes) (φ : ℝ) : Stokes.rotate S φ 1 = Real.cos (2 * radians φ) * S 1 + Real.sin (2 * radians φ) * S 2 := by
  simp [Stokes.rotate, muellerRotation, mulVec, dotProduct, Fin.sum_univ_succ, radians_neg, radians_two]
theorem rotate_2 (S : Stokes) (φ : ℝ) : Stokes.rotate S φ 2 = -Real.sin (2 * radians φ) * S 1 + Real.cos (2 * radians φ) * S 2 := by
  simp [Stokes.rotate, muellerRotation, mulVec, dotProduct, Fin.sum_univ_succ, radians_neg, radians_two]
theorem rotate_3 (S : Stokes) (φ : ℝ) : Stokes.rotate S φ 3 = S 3 := by
  simp [Stokes.rotate, muellerRotation, mulVec, dotProduct, Fin.sum_univ_succ]

/-- C31: the Mueller matrix of a rotation does what the Jones matrix does. -/
theorem rotation_represents (angle : ℝ) : Represents (jonesRotation angle) (muellerRotation angle) := by
  intro S
  have e : muellerRotation angle *ᵥ S = Stokes.rotate S (-angle) := by simp [Stokes.rotate]
  rw [e, coherencyS_eq, coherencyS_eq, rotate_0, rotate_1, rotate_2, rotate_3, radians_neg]
  have hs : Real.sin (2 * -radians angle) = -(2 * Real.sin (radians angle) * Real.cos (radians angle)) := by
    rw [mul_neg, Real.sin_neg, Real.sin_two_mul]
  have hc : Real.cos (2 * -radians angle) = Real.cos (radians angle) ^ 2 - Real.sin (radians angle) ^ 2 := by
    rw [mul_neg, Real.cos_neg, Real.cos_two_mul']
  have hone : (Real.sin (radians angle) : ℂ) ^ 2 + (Real.cos (radians angle) : ℂ) ^ 2 = 1 := by
    exact_mod_cast Real.sin_sq_add_cos_sq (radians angle)
  rw [hs, hc]
  simp only [jonesRotation]
  generalize Real.sin (radians angle) = s at *
  generalize Real.cos (radians angle) = c at *
  apply mat_ext <;>
    simp [mul_apply, Fin.sum_univ_succ, conjTranspose_apply]
  · linear_combination -(S 0 : ℂ) / 2 * hone
  · linear_combination -(-I * (S 3 : ℂ)) / 2 * hone
  · linear_combination -(I * (S 3 : ℂ)) / 2 * hone
  · linear_combination -(S 0 : ℂ) / 2 * hone

/-- C31: rotating a Jones vector and rotating its Stokes vector agree. -/
theorem rotate_agree (J : Jones) (angle : ℝ) :
    Jones.toStokes (Jones.rotate J angle) = (Jones.toStokes J).map (fun S => Stokes.rotate S angle) :=
  represents_jones (rotation_represents (-angle)) J

/-- C31: a rotation keeps intensity, circular part, and the degrees of polarization. -/
theorem rotate_invariants (κ : ℝ) (S : Stokes) (angle : ℝ) :
    Stokes.intensity κ (Stokes.rotate S angle) = Stokes.intensity κ S ∧
    Stokes.dop (Stokes.rotate S angle) = Stokes.dop S ∧ Stokes.dolp (Stokes.rotate S angle) = Stokes.dolp S ∧
    Stokes.docp (Stokes.rotate S angle) = Stokes.docp S ∧ Stokes.handedness (Stokes.rotate S angle) = Stokes.handedness S ∧
    Stokes.ellipangle (Stokes.rotate S angle) = Stokes.ellipangle S := by
  have hl : Stokes.linsq (Stokes.rotate S angle) = Stokes.linsq S := by
    unfold Stokes.linsq
    rw [rotate_1, rotate_2]
    linear_combination (S 1 ^ 2 + S 2 ^ 2) * Real.sin_sq_add_cos_sq (2 * radians angle)
  have hp : Stokes.polsq (Stokes.rotate S angle) = Stokes.polsq S := by
    have e : ∀ T : Stokes, Stokes.polsq T = Stokes.linsq T + T 3 ^ 2 := fun T => rfl
    rw [e, e, hl, rotate_3]
  simp only [Stokes.intensity, Stokes.dop, Stokes.dolp, Stokes.docp, Stokes.handedness, Stokes.ellipangle, hl, hp, rotate_0, rotate_3,
    and_self]

/-- C31: a Jones vector keeps its intensity when rotated. -/
theorem rotate_intensity_jones (κ : ℝ) (J : Jones) (angle : ℝ) : Jones.intensity κ (Jones.rotate J angle) = Jones.intensity κ J := by
  obtain ⟨S, h1, _, h3, _⟩ := jones_to_stokes J
  obtain ⟨T, g1, _, g3, _⟩ := jones_to_stokes (Jones.rotate J angle)
  have := rotate_agree J angle
  rw [h1, g1, Option.map_some, Option.some_inj] at this
  unfold Jones.intensity
  rw [sqnorm_eq, sqnorm_eq, normSq_eq_norm_sq, normSq_eq_norm_sq, normSq_eq_norm_sq, normSq_eq_norm_sq, ← h3, ← g3, this, rotate_0]

/-- C31: rotations compose and can be undone. -/
theorem rotate_add (S : Stokes) (a b : ℝ) : Stokes.rotate (Stokes.rotate S a) b = Stokes.rotate S (a + b) := by
  apply stokes_ext
  · simp only [rotate_0]
  · simp only [rotate_1, rotate_2, radians_add, mul_add, Real.cos_add, Real.sin_add]; ring
  · simp only [rotate_1, rotate_2, radians_add, mul_add, Real.cos_add, Real.sin_add]; ring
  · simp only [rotate_3]

theorem rotate_zero (S : Stokes) : Stokes.rotate S 0 = S := by
  apply stokes_ext
  · rw [rotate_0]
  · rw [rotate_1]; simp [radians]
  · rw [rotate_2]; simp [radians]
  · rw [rotate_3]

/-- C31: after turning the axes by `angle` the polarization angle is smaller by `angle`, up to half turns. -/
theorem rotate_polangle (S : Stokes) (angle : ℝ) (h : S 1 ≠ 0 ∨ S 2 ≠ 0) :
    ∃ n : ℤ, Stokes.polangle (Stokes.rotate S angle) = Stokes.polangle S - angle + n * 180 := by
  set z : ℂ := ⟨S 1, S 2⟩ with hz
  have hz0 : z ≠ 0 := by
    intro h0
    have h1 := congrArg Complex.re h0
    have h2 := congrArg Complex.im h0
    simp [hz] at h1 h2
    rcases h with h | h
    · exact h h1
    · exact h h2
  have hw : (⟨Stokes.rotate S angle 1, Stokes.rotate S angle 2⟩ : ℂ) = z * exp ((-(2 * radians angle) : ℝ) * I) := by
    rw [rotate_1, rotate_2, Complex.exp_mul_I, ← Complex.ofReal_cos, ← Complex.ofReal_sin, Real.cos_neg, Real.sin_neg]
    generalize Real.cos (2 * radians angle) = c
    generalize Real.sin (2 * radians angle) = s
    apply Complex.ext
    · simp [hz]; ring
    · simp [hz]; ring
  have hang : ((arg (z * exp ((-(2 * radians angle) : ℝ) * I)) : ℝ) : Real.Angle) = ((arg z - 2 * radians angle : ℝ) : Real.Angle) := by
    have e : exp ((-(2 * radians angle) : ℝ) * I) =
        (Real.Angle.cos ((-(2 * radians angle) : ℝ) : Real.Angle) : ℂ) + (Real.Angle.sin ((-(2 * radians angle) : ℝ) : Real.Angle) : ℂ) * I := by
      rw [Complex.exp_mul_I, Real.Angle.cos_coe, Real.Angle.sin_coe, Complex.ofReal_cos, Complex.ofReal_sin]
    rw [Complex.arg_mul_coe_angle hz0 (Complex.exp_ne_zero _), e, Complex.arg_cos_add_sin_mul_I_coe_angle, sub_eq_add_neg, Real.Angle.coe_add]
  obtain ⟨n, hn⟩ := Real.Angle.angle_eq_iff_two_pi_dvd_sub.1 hang
  refine ⟨n, ?_⟩
  unfold Stokes.polangle arctan2 degrees
  rw [hw, ← hz]
  have hpi := Real.pi_ne_zero
  have e : arg (z * exp ((-(2 * radians angle) : ℝ) * I)) = arg z - 2 * radians angle + 2 * Real.pi * n := by linarith
  rw [e]
  unfold radians
  field_simp

/-! ## Thomson scattering -/

/-- C31: the Mueller matrix of Thomson scattering does what turning the axes and the Jones matrix of
Thomson scattering do. -/
theorem thomson_represents (azimuth polar : ℝ) :
    Represents (jonesThomson polar * jonesRotation (-thomsonRotationAngle azimuth)) (muellerThomson azimuth polar) := by
  intro S
  have hR := rotation_represents (-thomsonRotationAngle azimuth) S
  rw [conjTranspose_mul]
  have e : jonesThomson polar * jonesRotation (-thomsonRotationAngle azimuth) * Stokes.coherency S *
      ((jonesRotation (-thomsonRotationAngle azimuth))ᴴ * (jonesThomson polar)ᴴ) =
      jonesThomson polar * (jonesRotation (-thomsonRotationAngle azimuth) * Stokes.coherency S * (jonesRotation (-thomsonRotationAngle azimuth))ᴴ) *
        (jonesThomson polar)ᴴ := by simp only [Matrix.mul_assoc]
  rw [e, ← hR, coherencyS_eq, coherencyS_eq]
  have hph : radians (2 * -thomsonRotationAngle azimuth) = -radians (2 * thomsonRotationAngle azimuth) := by
    rw [mul_neg, radians_neg]
  unfold jonesThomson muellerThomson muellerRotation
  simp only [hph]
  generalize Real.sin (-radians (2 * thomsonRotationAngle azimuth)) = s
  generalize Real.cos (-radians (2 * thomsonRotationAngle azimuth)) = c
  generalize Real.cos (radians polar) = t
  apply mat_ext <;>
    simp [mul_apply, Fin.sum_univ_succ, conjTranspose_apply, mulVec, dotProduct] <;> ring

theorem jones_thomson_eq (J : Jones) (azimuth polar : ℝ) :
    Jones.thomson J azimuth polar =
      some (Jones.ofCoherency! (Jones.coherency ((jonesThomson polar * jonesRotation (-thomsonRotationAngle azimuth)) *ᵥ J))
        (Jones.phase0 ((jonesThomson polar * jonesRotation (-thomsonRotationAngle azimuth)) *ᵥ J))) := by
  unfold Jones.thomson Jones.rotate
  simp only
  rw [← coherency_mulVec, mulVec_mulVec, ofCoherencyJ_of_hermitian (hermitianJ _)]
  congr 2
  unfold Jones.phase0
  rw [← mulVec_mulVec]
  congr 2
  generalize jonesRotation (-thomsonRotationAngle azimuth) *ᵥ J = v
  simp [jonesThomson, mulVec, dotProduct, Fin.sum_univ_succ]

theorem pure_J (J : Jones) : Pure (Stokes.ofCoherency! (Jones.coherency J)) := by
  have := sqrt_polsq_J J
  exact this.symm

theorem coherency_ofCoherency (J : Jones) (p : ℝ) : Jones.coherency (Jones.ofCoherency! (Jones.coherency J) p) = Jones.coherency J := by
  have h := ofCoherency_pure (pure_J J) p
  rwa [of_coherency_hermitian (hermitianJ J)] at h

/-- C31: Thomson scattering of a Jones vector and of its Stokes vector agree. -/
theorem thomson_agree (J : Jones) (azimuth polar : ℝ) :
    ∃ J', Jones.thomson J azimuth polar = some J' ∧
      Jones.toStokes J' = (Jones.toStokes J).map (fun S => Stokes.thomson S azimuth polar) := by
  refine ⟨_, jones_thomson_eq J azimuth polar, ?_⟩
  rw [Jones.toStokes, coherency_ofCoherency]
  exact represents_jones (thomson_represents azimuth polar) J

/-- C31: the scattered Jones vector is the one of the amplitudes, unless the amplitude perpendicular to
the scattering plane is zero and the other one has a phase. -/
theorem thomson_jones_iff (J : Jones) (azimuth polar : ℝ) :
    let J' := (jonesThomson polar * jonesRotation (-thomsonRotationAngle azimuth)) *ᵥ J
    Jones.thomson J azimuth polar = some J' ↔ (J' 0 ≠ 0 ∨ arg (J' 1) = 0) := by
  intro J'
  rw [jones_thomson_eq, Option.some_inj]
  exact ofCoherency_coherency J'

/-- The direction of scattering in spherical coordinates. -/
noncomputable def direction (azimuth polar : ℝ) : Fin 3 → ℝ :=
  ![Real.sin (radians polar) * Real.cos (radians azimuth), Real.sin (radians polar) * Real.sin (radians azimuth), Real.cos (radians polar)]

/-- C31, textbook: the intensity scattered by a free electron is that of the field without its
component along the direction of observation. -/
theorem thomson_textbook (J : Jones) (azimuth polar : ℝ) (S : Stokes) (hS : Jones.toStokes J = some S) :
    Stokes.thomson S azimuth polar 0 = normSq (J 0) + normSq (J 1) -
      normSq (J 0 * direction azimuth polar 0 + J 1 * direction azimuth polar 1) := by
  rw [toStokes_eq, Option.some_inj] at hS
  subst hS
  obtain ⟨h0, h1, h2, _⟩ := ofC_J J
  have e : Stokes.thomson (Stokes.ofCoherency! (Jones.coherency J)) azimuth polar 0 =
      (1 + Real.cos (radians polar) ^ 2) / 2 * (normSq (J 0) + normSq (J 1)) -
      (1 - (1 + Real.cos (radians polar) ^ 2) / 2) * ((Real.cos (radians azimuth) ^ 2 - Real.sin (radians azimuth) ^ 2) * (normSq (J 0) - normSq (J 1)) +
        2 * Real.sin (radians azimuth) * Real.cos (radians azimuth) * (2 * ((J 0).re * (J 1).re + (J 0).im * (J 1).im))) := by
    rw [← h0, ← h1, ← h2]
    have a1 : Real.cos (radians (2 * thomsonRotationAngle azimuth)) = -(Real.cos (radians azimuth) ^ 2 - Real.sin (radians azimuth) ^ 2) := by
      rw [thomsonRotationAngle, radians_two, radians_sub, radians_90, mul_sub, mul_div_cancel₀ _ (two_ne_zero), Real.cos_sub_pi, Real.cos_two_mul']
    have a2 : Real.sin (radians (2 * thomsonRotationAngle azimuth)) = -(2 * Real.sin (radians azimuth) * Real.cos (radians azimuth)) := by
      rw [thomsonRotationAngle, radians_two, radians_sub, radians_90, mul_sub, mul_div_cancel₀ _ (two_ne_zero), Real.sin_sub_pi, Real.sin_two_mul]
    simp only [Stokes.thomson, muellerThomson, Real.cos_neg, Real.sin_neg, a1, a2]
    simp [mulVec, dotProduct, Fin.sum_univ_succ]
    ring
  rw [e]
  have hp := Real.sin_sq_add_cos_sq (radians polar)
  have ha := Real.sin_sq_add_cos_sq (radians azimuth)
  have d0 : direction azimuth polar 0 = Real.sin (radians polar) * Real.cos (radians azimuth) := rfl
  have d1 : direction azimuth polar 1 = Real.sin (radians polar) * Real.sin (radians azimuth) := rfl
  rw [d0, d1]
  simp only [normSq_apply, add_re, add_im, mul_re, mul_im, ofReal_re, ofReal_im]
  generalize Real.sin (radians polar) = sp at *
  generalize Real.cos (radians polar) = cp at *
  generalize Real.sin (radians azimuth) = sa at *
  generalize Real.cos (radians azimuth) = ca at *
  generalize (J 0).re = a
  generalize (J 0).im = b
  generalize (J 1).re = c
  generalize (J 1).im = d
  have hcp : cp ^ 2 = 1 - sp ^ 2 := by linarith
  have hca : ca ^ 2 = 1 - sa ^ 2 := by linarith
  have : (1 + cp ^ 2) / 2 * (a * a + b * b + (c * c + d * d)) -
        (1 - (1 + cp ^ 2) / 2) * ((ca ^ 2 - sa ^ 2) * (a * a + b * b - (c * c + d * d)) + 2 * sa * ca * (2 * (a * c + b * d))) =
      a * a + b * b + (c * c + d * d) - sp ^ 2 * (ca ^ 2 * (a * a + b * b) + sa ^ 2 * (c * c + d * d) + 2 * sa * ca * (a * c + b * d)) := by
    rw [hcp, hca]; ring
  linear_combination this

theorem thomson_0 (S : Stokes) (azimuth polar : ℝ) : Stokes.thomson S azimuth polar 0 =
    (1 + Real.cos (radians polar) ^ 2) / 2 * S 0 - (1 - (1 + Real.cos (radians polar) ^ 2) / 2) *
      (S 1 * Real.cos (2 * radians azimuth) + S 2 * Real.sin (2 * radians azimuth)) := by
  have a1 : Real.cos (radians (2 * thomsonRotationAngle azimuth)) = -Real.cos (2 * radians azimuth) := by
    rw [thomsonRotationAngle, radians_two, radians_sub, radians_90, mul_sub, mul_div_cancel₀ _ (two_ne_zero), Real.cos_sub_pi]
  have a2 : Real.sin (radians (2 * thomsonRotationAngle azimuth)) = -Real.sin (2 * radians azimuth) := by
    rw [thomsonRotationAngle, radians_two, radians_sub, radians_90, mul_sub, mul_div_cancel₀ _ (two_ne_zero), Real.sin_sub_pi]
  simp only [Stokes.thomson, muellerThomson, Real.cos_neg, Real.sin_neg, a1, a2]
  simp [mulVec, dotProduct, Fin.sum_univ_succ]
  ring

/-- C31: `thomson_intensity` is the intensity of the scattered Stokes vector. -/
theorem thomson_intensity (κ : ℝ) (S : Stokes) (azimuth polar : ℝ) (h : S 0 ≠ 0 ∨ (S 1 = 0 ∧ S 2 = 0)) :
    Stokes.thomsonIntensity κ S azimuth polar = Stokes.intensity κ (Stokes.thomson S azimuth polar) := by
  unfold Stokes.thomsonIntensity Stokes.intensity toIntensity
  rw [thomson_0]
  unfold Stokes.thomsonK
  split
  · next hc => rw [hc.1, hc.2]; ring
  · next hc =>
    have h0 : S 0 ≠ 0 := h.resolve_right hc
    simp only
    field_simp

/-- C31: the polarization deficit shrinks by the squared cosine: what is fully polarized stays so, and
Stokes vectors of waves become Stokes vectors of waves. -/
theorem thomson_deficit (S : Stokes) (azimuth polar : ℝ) :
    Stokes.thomson S azimuth polar 0 ^ 2 - Stokes.polsq (Stokes.thomson S azimuth polar) =
      Real.cos (radians polar) ^ 2 * (S 0 ^ 2 - Stokes.polsq S) := by
  have hs := Real.sin_sq_add_cos_sq (-radians (2 * thomsonRotationAngle azimuth))
  simp only [Stokes.thomson, muellerThomson, Stokes.polsq]
  generalize Real.sin (-radians (2 * thomsonRotationAngle azimuth)) = s at *
  generalize Real.cos (-radians (2 * thomsonRotationAngle azimuth)) = c at *
  generalize Real.cos (radians polar) = t
  simp [mulVec, dotProduct, Fin.sum_univ_succ]
  linear_combination (-(t ^ 2) * (S 1 ^ 2 + S 2 ^ 2)) * hs

/-- Stokes vectors of waves. -/
def Physical (S : Stokes) : Prop := 0 ≤ S 0 ∧ Stokes.polsq S ≤ S 0 ^ 2

theorem physical_dop (S : Stokes) (h : 0 < S 0) : Physical S ↔ Stokes.dop S ≤ 1 := by
  unfold Physical Stokes.dop
  rw [div_le_one h, Real.sqrt_le_left (le_of_lt h)]
  simp [le_of_lt h]

theorem linear_le {S : Stokes} (h : Physical S) (c s : ℝ) (hcs : s ^ 2 + c ^ 2 = 1) : |S 1 * c + S 2 * s| ≤ S 0 := by
  apply abs_le_of_sq_le_sq _ h.1
  have h2 := h.2
  unfold Stokes.polsq at h2
  have : (S 1 * c + S 2 * s) ^ 2 + (S 1 * s - S 2 * c) ^ 2 = S 1 ^ 2 + S 2 ^ 2 := by
    linear_combination (S 1 ^ 2 + S 2 ^ 2) * hcs
  nlinarith [sq_nonneg (S 1 * s - S 2 * c), sq_nonneg (S 3)]

/-- C31: scattering gives Stokes vectors of waves, not brighter than the incident one. -/
theorem thomson_physical {S : Stokes} (h : Physical S) (azimuth polar : ℝ) :
    Physical (Stokes.thomson S azimuth polar) ∧ Stokes.thomson S azimuth polar 0 ≤ S 0 := by
  have hl := abs_le.1 (linear_le h _ _ (Real.sin_sq_add_cos_sq (2 * radians azimuth)))
  have ht : Real.cos (radians polar) ^ 2 ≤ 1 := by nlinarith [Real.sin_sq_add_cos_sq (radians polar), sq_nonneg (Real.sin (radians polar))]
  have ht0 : 0 ≤ Real.cos (radians polar) ^ 2 := sq_nonneg _
  have hd := thomson_deficit S azimuth polar
  have h0 := thomson_0 S azimuth polar
  refine ⟨⟨?_, ?_⟩, ?_⟩
  · rw [h0]; nlinarith [h.1]
  · have := h.2
    nlinarith
  · rw [h0]; nlinarith [h.1]

/-! ## Compton scattering -/

/-- C31: `compton_intensity` is the intensity of the scattered Stokes vector. -/
theorem compton_intensity (κ mc2 : ℝ) (S : Stokes) (azimuth polar energy : ℝ) (h : S 0 ≠ 0 ∨ (S 1 = 0 ∧ S 2 = 0)) :
    Stokes.comptonIntensity κ mc2 S azimuth polar energy = Stokes.intensity κ (Stokes.compton mc2 S azimuth polar energy) := by
  have a1 : Real.cos (radians (2 * comptonRotationAngle azimuth)) = -Real.cos (2 * radians azimuth) := by
    rw [comptonRotationAngle, radians_two, radians_sub, radians_90, mul_sub, mul_div_cancel₀ _ (two_ne_zero), Real.cos_sub_pi]
  have a2 : Real.sin (radians (2 * comptonRotationAngle azimuth)) = -Real.sin (2 * radians azimuth) := by
    rw [comptonRotationAngle, radians_two, radians_sub, radians_90, mul_sub, mul_div_cancel₀ _ (two_ne_zero), Real.sin_sub_pi]
  simp only [Stokes.comptonIntensity, Stokes.intensity, toIntensity, Stokes.compton, muellerCompton, Real.cos_neg, Real.sin_neg, a1, a2,
    Stokes.comptonK]
  generalize kevToMc2 mc2 energy / (1 + kevToMc2 mc2 energy * (1 - Real.cos (radians polar))) = ksc
  generalize kevToMc2 mc2 energy = k
  generalize hq : ksc ^ 2 / k ^ 2 = q
  rw [smul_mulVec]
  simp only [Pi.smul_apply, smul_eq_mul]
  split
  · next hc => simp [mulVec, dotProduct, Fin.sum_univ_succ, hc.1, hc.2]; ring
  · next hc =>
    have h0 : S 0 ≠ 0 := h.resolve_right hc
    simp [mulVec, dotProduct, Fin.sum_univ_succ]
    field_simp
    ring

/-- Ratio of the scattered to the incident photon energy (textbook). -/
noncomputable def comptonRatio (mc2 polar energy : ℝ) : ℝ := 1 / (1 + energy / mc2 * (1 - Real.cos (radians polar)))

/-- C31, textbook: for unpolarized waves the scattered intensity follows Klein and Nishina. -/
theorem klein_nishina (mc2 energy : ℝ) (hm : 0 < mc2) (he : 0 < energy) (I0 azimuth polar : ℝ) :
    let P := comptonRatio mc2 polar energy
    Stokes.compton mc2 ![I0, 0, 0, 0] azimuth polar energy 0 =
      I0 * (P ^ 2 * (P + 1 / P - Real.sin (radians polar) ^ 2) / 2) := by
  intro P
  have hk : 0 < energy / mc2 := div_pos he hm
  have hc : Real.cos (radians polar) ≤ 1 := Real.cos_le_one _
  have hD : 0 < 1 + energy / mc2 * (1 - Real.cos (radians polar)) := by
    have : 0 ≤ energy / mc2 * (1 - Real.cos (radians polar)) := mul_nonneg hk.le (by linarith)
    linarith
  have hs : Real.sin (radians polar) ^ 2 = 1 - Real.cos (radians polar) ^ 2 := by
    linarith [Real.sin_sq_add_cos_sq (radians polar)]
  simp only [Stokes.compton, muellerCompton, kevToMc2, P, comptonRatio]
  rw [hs]
  generalize Real.cos (radians polar) = c at *
  generalize energy / mc2 = k at *
  rw [smul_mulVec]
  simp [mulVec, dotProduct, Fin.sum_univ_succ]
  field_simp
  ring

/-- C31: forward Compton scattering is forward Thomson scattering. -/
theorem compton_forward (mc2 energy : ℝ) (hm : mc2 ≠ 0) (he : energy ≠ 0) (S : Stokes) (azimuth : ℝ) :
    Stokes.compton mc2 S azimuth 0 energy = Stokes.thomson S azimuth 0 := by
  have hk : energy / mc2 ≠ 0 := div_ne_zero he hm
  have hr : radians 0 = 0 := by simp [radians]
  simp only [Stokes.compton, Stokes.thomson, muellerCompton, muellerThomson, kevToMc2, hr, Real.cos_zero, comptonRotationAngle, thomsonRotationAngle]
  simp [hk]

/-! ## Jones matrices to Mueller matrices -/

theorem pauli_inv : pauli44ᴴ * pauli44 = (2 : ℂ) • (1 : Matrix (Fin 4) (Fin 4) ℂ) := by
  ext i j
  fin_cases i <;> fin_cases j <;> simp [pauli44, mul_apply, Fin.sum_univ_succ, conjTranspose_apply] <;> norm_num

theorem flatten_conj (A C : Matrix (Fin 2) (Fin 2) ℂ) : flatten (A * C * Aᴴ) = kron A (A.map (starRingEnd ℂ)) *ᵥ flatten C := by
  ext i
  fin_cases i <;> simp [flatten, kron, mul_apply, Fin.sum_univ_succ, mulVec, dotProduct, conjTranspose_apply] <;> ring

theorem flatten_coherency (S : Stokes) : flatten (Stokes.coherency S) = (1 / 2 : ℂ) • (pauli44ᴴ *ᵥ fun i => (S i : ℂ)) := by
  ext i
  fin_cases i <;> rfl

/-- What the Jones matrix does to Stokes vectors, before taking the real part. -/
theorem action_eq (A : Matrix (Fin 2) (Fin 2) ℂ) (S : Stokes) :
    pauli44 *ᵥ flatten (A * Stokes.coherency S * Aᴴ) =
      ((1 / 2 : ℂ) • (pauli44 * kron A (A.map (starRingEnd ℂ)) * pauli44ᴴ)) *ᵥ (fun i => (S i : ℂ)) := by
  rw [flatten_conj, flatten_coherency, mulVec_smul, mulVec_smul, smul_mulVec, ← mulVec_mulVec, ← mulVec_mulVec]

theorem pauli_real {C : Matrix (Fin 2) (Fin 2) ℂ} (h : Cᴴ = C) (i : Fin 4) : ((Stokes.ofCoherency! C i : ℝ) : ℂ) = (pauli44 *ᵥ flatten C) i := by
  have e : ∀ i j, (starRingEnd ℂ) (C j i) = C i j := fun i j => by
    conv_rhs => rw [← h]
    rfl
  have r0 : (C 0 0).im = 0 := by have := congrArg Complex.im (e 0 0); simp at this; linarith
  have r1 : (C 1 1).im = 0 := by have := congrArg Complex.im (e 1 1); simp at this; linarith
  have r2 : (C 0 1).re = (C 1 0).re := by have := congrArg Complex.re (e 0 1); simp at this; linarith
  have r3 : (C 0 1).im = -(C 1 0).im := by have := congrArg Complex.im (e 0 1); simp at this; linarith
  apply Complex.ext
  · rfl
  · rw [Complex.ofReal_im]
    symm
    fin_cases i <;> simp [pauli44, flatten, mulVec, dotProduct, Fin.sum_univ_succ, r0, r1, r2, r3]

theorem matrix_real_ext {M N : Matrix (Fin 4) (Fin 4) ℂ} (h : ∀ S : Stokes, M *ᵥ (fun i => (S i : ℂ)) = N *ᵥ (fun i => (S i : ℂ))) : M = N := by
  ext i j
  have := congrFun (h (Pi.single j 1)) i
  have e : (fun k => ((Pi.single j (1 : ℝ) : Stokes) k : ℂ)) = Pi.single j (1 : ℂ) := by
    ext k
    by_cases hk : k = j
    · subst hk; simp
    · simp [Pi.single_apply, hk]
  rw [e] at this
  simpa using this

/-- C31: `jones_to_mueller` gives the Mueller matrix of a Jones matrix exactly when the Jones matrix is
symmetric. -/
theorem jones_to_mueller_iff (A : Matrix (Fin 2) (Fin 2) ℂ) :
    (∀ (S : Stokes) (i : Fin 4), (Stokes.jonesToMueller A *ᵥ fun i => (S i : ℂ)) i =
      (Stokes.ofCoherency! (A * Stokes.coherency S * Aᴴ) i : ℝ)) ↔ Aᵀ = A := by
  have hiff : (∀ (S : Stokes) (i : Fin 4), (Stokes.jonesToMueller A *ᵥ fun i => (S i : ℂ)) i =
      (Stokes.ofCoherency! (A * Stokes.coherency S * Aᴴ) i : ℝ)) ↔ kron A Aᴴ = kron A (A.map (starRingEnd ℂ)) := by
    constructor
    · intro h
      have h1 : Stokes.jonesToMueller A = (1 / 2 : ℂ) • (pauli44 * kron A (A.map (starRingEnd ℂ)) * pauli44ᴴ) := by
        apply matrix_real_ext
        intro S
        ext i
        rw [← action_eq, h S i, pauli_real (hermitian_conj (hermitianS S))]
      unfold Stokes.jonesToMueller at h1
      have h2 := smul_right_injective (Matrix (Fin 4) (Fin 4) ℂ) (by norm_num : (1 / 2 : ℂ) ≠ 0) h1
      have h3 := congrArg (fun X => pauli44ᴴ * X * pauli44) h2
      have e : ∀ K : Matrix (Fin 4) (Fin 4) ℂ, pauli44ᴴ * (pauli44 * K * pauli44ᴴ) * pauli44 = (4 : ℂ) • K := by
        intro K
        have : pauli44ᴴ * (pauli44 * K * pauli44ᴴ) * pauli44 = (pauli44ᴴ * pauli44) * K * (pauli44ᴴ * pauli44) := by
          simp only [Matrix.mul_assoc]
        rw [this, pauli_inv, Matrix.smul_mul, Matrix.one_mul, Matrix.mul_smul, Matrix.mul_one, smul_smul]
        norm_num
      simp only [e] at h3
      exact smul_right_injective (Matrix (Fin 4) (Fin 4) ℂ) (by norm_num : (4 : ℂ) ≠ 0) h3
    · intro h S i
      rw [pauli_real (hermitian_conj (hermitianS S)), action_eq, Stokes.jonesToMueller, h]
  rw [hiff]
  constructor
  · intro h
    by_contra hne
    have hd : A 0 1 ≠ A 1 0 := by
      intro hd
      apply hne
      apply mat_ext <;> simp [transpose_apply, hd]
    have hz : ∀ i j, A i j = 0 := by
      intro i j
      have h01 : (starRingEnd ℂ) (A 1 0) - (starRingEnd ℂ) (A 0 1) ≠ 0 := by
        rw [← map_sub]
        simp only [ne_eq, map_eq_zero, sub_eq_zero]
        exact fun hh => hd hh.symm
      have k1 := congrFun (congrFun h 0) 1
      have k2 := congrFun (congrFun h 0) 3
      have k3 := congrFun (congrFun h 2) 1
      have k4 := congrFun (congrFun h 2) 3
      simp only [kron, of_apply, cons_val', cons_val_zero, cons_val_one, cons_val_fin_one, cons_val, conjTranspose_apply, map_apply,
        RCLike.star_def] at k1 k2 k3 k4
      fin_cases i <;> fin_cases j
      · exact (mul_eq_zero.1 (by linear_combination k1 : A 0 0 * ((starRingEnd ℂ) (A 1 0) - (starRingEnd ℂ) (A 0 1)) = 0)).resolve_right h01
      · exact (mul_eq_zero.1 (by linear_combination k2 : A 0 1 * ((starRingEnd ℂ) (A 1 0) - (starRingEnd ℂ) (A 0 1)) = 0)).resolve_right h01
      · exact (mul_eq_zero.1 (by linear_combination k3 : A 1 0 * ((starRingEnd ℂ) (A 1 0) - (starRingEnd ℂ) (A 0 1)) = 0)).resolve_right h01
      · exact (mul_eq_zero.1 (by linear_combination k4 : A 1 1 * ((starRingEnd ℂ) (A 1 0) - (starRingEnd ℂ) (A 0 1)) = 0)).resolve_right h01
    exact hd (by rw [hz, hz])
  · intro h
    have : Aᴴ = A.map (starRingEnd ℂ) := by
      conv_lhs => rw [← h]
      ext i j
      rfl
    rw [this]

/-- C31, deviation: the matrix computed for a quarter turn is not the Mueller matrix of the rotation. -/
theorem jones_to_mueller_rotation : ¬ ∀ (S : Stokes) (i : Fin 4), (Stokes.jonesToMueller (jonesRotation 90) *ᵥ fun i => (S i : ℂ)) i =
    ((Stokes.rotate S (-90)) i : ℝ) := by
  intro h
  have h2 := (jones_to_mueller_iff (jonesRotation 90)).1 (by
    intro S i
    rw [h S i]
    have hr := rotation_represents 90 S
    have : Stokes.rotate S (-90) = muellerRotation 90 *ᵥ S := by simp [Stokes.rotate]
    rw [this, ← hr]
    have hs := stokes_roundtrip (muellerRotation 90 *ᵥ S)
    rw [ofCoherencyS_of_hermitian (hermitianS _), Option.some_inj] at hs
    rw [hs])
  have h3 := congrFun (congrFun h2 0) 1
  simp [jonesRotation, transpose_apply, radians_90] at h3
  have := congrArg Complex.re h3
  norm_num at this

end SC.Polar
