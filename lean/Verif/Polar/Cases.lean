import Verif.Polar.PropsParams
/-! # C31: concrete cases and deviations -/
namespace SC.Polar
open Matrix Complex

/-- A partially polarized wave. -/
noncomputable def someStokes : Stokes := ![3, 1, -1, 1]

example : Physical someStokes := by
  refine ⟨?_, ?_⟩ <;> simp [someStokes, Stokes.polsq] ; norm_num
example : 0 < someStokes 0 ∧ (someStokes 1 ≠ 0 ∨ someStokes 2 = 0) := by simp [someStokes]
example : Pure ![1, 0, 0, 1] := by simp [Pure]

/-- A Jones vector meeting the hypotheses of the round trips. -/
noncomputable def someJones : Jones := ![1 + I, 2]
example : someJones ≠ 0 := fun h => by have := congrFun h 1; simp [someJones] at this
example : someJones 0 ≠ 0 ∨ arg (someJones 1) = 0 := by
  right; simp [someJones]

/-- Deviation: a wave along the second axis loses its phase. -/
theorem phase_lost : let J : Jones := ![0, I]
    J ≠ 0 ∧ (Jones.toStokes J).bind (fun S => Stokes.toJones S (Jones.phase0 J)) ≠ some J := by
  intro J
  have hJ : J ≠ 0 := fun h => by have := congrFun h 1; simp [J] at this
  refine ⟨hJ, ?_⟩
  rw [Ne, jones_roundtrip J hJ]
  simp [J, Complex.arg_I, Real.pi_ne_zero]

/-- Deviation: scattering with the wave in the scattering plane loses the phase of the amplitude. -/
theorem thomson_phase_lost : let J : Jones := ![0, I]
    Jones.thomson J 90 60 ≠ some ((jonesThomson 60 * jonesRotation (-thomsonRotationAngle 90)) *ᵥ J) := by
  intro J h
  have hr : radians 60 = Real.pi / 3 := by unfold radians; ring
  have e : (jonesThomson 60 * jonesRotation (-thomsonRotationAngle 90)) *ᵥ J = ![0, ((1 / 2 : ℝ) : ℂ) * I] := by
    have h0 : radians 0 = 0 := by simp [radians]
    simp only [jonesThomson, jonesRotation, thomsonRotationAngle, sub_self, neg_zero, h0, hr, Real.cos_zero, Real.sin_zero, Real.cos_pi_div_three]
    ext i
    fin_cases i <;> simp [J, mulVec, dotProduct, Fin.sum_univ_succ, mul_apply]
  have h := (thomson_jones_iff J 90 60).1 h
  rw [e] at h
  rcases h with h | h
  · simp at h
  · simp only [cons_val_one, cons_val_fin_one] at h
    rw [Complex.arg_real_mul _ (by norm_num), Complex.arg_I] at h
    exact absurd h (by simp [Real.pi_ne_zero])

/-- Deviation: a Stokes vector of no wave passes all conversions, its unpolarized part is negative. -/
theorem unphysical_accepted : let S : Stokes := ![1, 2, 0, 0]
    Stokes.ofCoherency (Stokes.coherency S) = some S ∧ Stokes.intensityUnpolarized 2 S < 0 := by
  intro S
  refine ⟨stokes_roundtrip S, ?_⟩
  have : Real.sqrt (Stokes.polsq S) = 2 := by
    have e : Stokes.polsq S = 2 ^ 2 := by simp [S, Stokes.polsq]
    rw [e, Real.sqrt_sq (by norm_num)]
  simp only [Stokes.intensityUnpolarized, toIntensity, this]
  simp [S]

end SC.Polar
