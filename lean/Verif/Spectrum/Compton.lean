import Mathlib.Analysis.SpecialFunctions.Trigonometric.Inverse
import Mathlib.Tactic.FieldSimp
import Mathlib.Tactic.Linarith
import Mathlib.Tactic.Positivity
/-! # Property C61, part 6: the Compton line

Energies are real numbers in keV; `mc2` is the rest energy of the electron. -/
namespace SC.Spectrum
open Real

/-- ComptonLine.energy, xrayspectrum.py:629-641: no angle and the angle zero give the energy of the source. -/
noncomputable def comptonEnergy (mc2 E : ℝ) (polar : Option ℝ) : ℝ :=
  match polar with
  | none => E
  | some p => if p = 0 then E else E / (1 + E * ((1 - cos p) / mc2))

/-- np.clip(x, -1, 1) -/
noncomputable def clip1 (x : ℝ) : ℝ := min (max x (-1)) 1

/-- ComptonLine.scatteringangle, xrayspectrum.py:643-656 -/
noncomputable def comptonAngle (mc2 E e : ℝ) : ℝ := arccos (clip1 (1 - (1 / e - 1 / E) * mc2))

section
variable (mc2 E : ℝ) (hmc : 0 < mc2) (hE : 0 < E)

/-- The angle zero is not special. -/
theorem compton_formula (p : ℝ) : comptonEnergy mc2 E (some p) = E / (1 + E * ((1 - cos p) / mc2)) := by
  unfold comptonEnergy
  simp only
  split
  · next h => simp [h]
  · rfl

include hmc hE

theorem compton_den (p : ℝ) : 1 ≤ 1 + E * ((1 - cos p) / mc2) := by
  have : 0 ≤ E * ((1 - cos p) / mc2) := mul_nonneg hE.le (div_nonneg (by linarith [cos_le_one p]) hmc.le)
  linarith

/-- The inverse of the energy grows linearly with one minus the cosine. -/
theorem compton_inverse (p : ℝ) : 1 / comptonEnergy mc2 E (some p) - 1 / E = (1 - cos p) / mc2 := by
  have hd := compton_den mc2 E hmc hE p
  rw [compton_formula]
  field_simp
  ring

/-- A scattered photon keeps some of its energy and gains nothing: from the energy of the source to that of
backscattering. -/
theorem compton_range (p : ℝ) : 0 < comptonEnergy mc2 E (some p) ∧ comptonEnergy mc2 E (some p) ≤ E ∧
    E / (1 + 2 * E / mc2) ≤ comptonEnergy mc2 E (some p) := by
  have hd := compton_den mc2 E hmc hE p
  rw [compton_formula]
  refine ⟨by positivity, ?_, ?_⟩
  · exact div_le_self hE.le hd
  · apply div_le_div_of_nonneg_left hE.le (by linarith)
    have : E * ((1 - cos p) / mc2) ≤ 2 * E / mc2 := by
      rw [mul_div_assoc', mul_comm 2 E]
      gcongr
      linarith [neg_one_le_cos p]
    linarith

/-- Larger angles, less energy. -/
theorem compton_decreasing (p q : ℝ) (h0 : 0 ≤ p) (hpq : p < q) (hq : q ≤ π) :
    comptonEnergy mc2 E (some q) < comptonEnergy mc2 E (some p) := by
  have hp := compton_den mc2 E hmc hE p
  rw [compton_formula, compton_formula]
  have hc : cos q < cos p := cos_lt_cos_of_nonneg_of_le_pi h0 hq hpq
  apply div_lt_div_of_pos_left hE (by linarith)
  have : E * ((1 - cos p) / mc2) < E * ((1 - cos q) / mc2) := by gcongr
  linarith

/-- The angle is found from the energy. -/
theorem compton_angle_energy (p : ℝ) (h0 : 0 ≤ p) (hp : p ≤ π) : comptonAngle mc2 E (comptonEnergy mc2 E (some p)) = p := by
  unfold comptonAngle
  rw [compton_inverse mc2 E hmc hE]
  have : 1 - (1 - cos p) / mc2 * mc2 = cos p := by field_simp; ring
  rw [this, clip1, max_eq_left (neg_one_le_cos p), min_eq_left (cos_le_one p), arccos_cos h0 hp]

/-- And the energy from the angle, between backscattering and the energy of the source. -/
theorem compton_energy_angle (e : ℝ) (h1 : E / (1 + 2 * E / mc2) ≤ e) (h2 : e ≤ E) :
    comptonEnergy mc2 E (some (comptonAngle mc2 E e)) = e := by
  have hpos : 0 < E / (1 + 2 * E / mc2) := by positivity
  have he : 0 < e := lt_of_lt_of_le hpos h1
  have hinv : 0 ≤ 1 / e - 1 / E := by
    have := one_div_le_one_div_of_le he h2
    linarith
  have hinv2 : (1 / e - 1 / E) * mc2 ≤ 2 := by
    have h3 := one_div_le_one_div_of_le hpos h1
    have h4 : 1 / (E / (1 + 2 * E / mc2)) = 1 / E + 2 / mc2 := by field_simp
    have h5 : 1 / e - 1 / E ≤ 2 / mc2 := by linarith
    calc (1 / e - 1 / E) * mc2 ≤ 2 / mc2 * mc2 := by gcongr
      _ = 2 := by field_simp
  have hnn : 0 ≤ (1 / e - 1 / E) * mc2 := mul_nonneg hinv hmc.le
  rw [compton_formula]
  unfold comptonAngle
  rw [clip1, max_eq_left (by linarith), min_eq_left (by linarith), cos_arccos (by linarith) (by linarith)]
  have h6 : (1 - (1 - (1 / e - 1 / E) * mc2)) / mc2 = 1 / e - 1 / E := by
    rw [sub_sub_cancel, mul_div_assoc, div_self hmc.ne', mul_one]
  have h7 : 1 + E * (1 / e - 1 / E) = E / e := by
    rw [mul_sub, mul_one_div, mul_one_div, div_self hE.ne']; ring
  rw [h6, h7, div_div_cancel₀ hE.ne']

/-- Energies outside of the range are given the angle of the nearest energy of the range. -/
theorem compton_angle_clipped (e : ℝ) (he : 0 < e) :
    (E ≤ e → comptonAngle mc2 E e = 0) ∧ (e ≤ E / (1 + 2 * E / mc2) → comptonAngle mc2 E e = π) := by
  constructor
  · intro h
    have h1 := one_div_le_one_div_of_le hE h
    have : (1 / e - 1 / E) * mc2 ≤ 0 := mul_nonpos_of_nonpos_of_nonneg (by linarith) hmc.le
    unfold comptonAngle
    rw [clip1, max_eq_left (by linarith), min_eq_right (by linarith), arccos_one]
  · intro h
    have h3 := one_div_le_one_div_of_le he h
    have h4 : 1 / (E / (1 + 2 * E / mc2)) = 1 / E + 2 / mc2 := by field_simp
    have h5 : 2 ≤ (1 / e - 1 / E) * mc2 := by
      calc (2 : ℝ) = 2 / mc2 * mc2 := by field_simp
        _ ≤ (1 / e - 1 / E) * mc2 := by gcongr; linarith
    unfold comptonAngle
    rw [clip1, max_eq_right (by linarith), min_eq_left (by norm_num), arccos_neg_one]

end

example : comptonEnergy 511 511 (some (π / 2)) = 511 / 2 := by
  rw [compton_formula]; norm_num

end SC.Spectrum
