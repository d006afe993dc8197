import Verif.TruncNorm.Model
import Mathlib.Analysis.SpecialFunctions.Gaussian.GaussianIntegral
import Mathlib.Tactic.Ring
import Mathlib.Tactic.Linarith
import Mathlib.Tactic.FieldSimp
import Mathlib.Tactic.Positivity
/-! # C93: normal distributions between limits -/
namespace SC.TruncNorm
open MeasureTheory intervalIntegral

theorem pdfN_pos (x : ℝ) : 0 < pdfN x := by
  unfold pdfN
  have := Real.pi_pos
  positivity

theorem pdfN_neg (x : ℝ) : pdfN (-x) = pdfN x := by unfold pdfN; rw [neg_sq]

theorem pdfN_cont : Continuous pdfN := by unfold pdfN; fun_prop

theorem pdfN_int (a b : ℝ) : IntervalIntegrable pdfN volume a b := pdfN_cont.intervalIntegrable a b

theorem cdfN_sub (a b : ℝ) : cdfN b - cdfN a = ∫ t in a..b, pdfN t := by
  unfold cdfN
  rw [← integral_add_adjacent_intervals (pdfN_int a 0) (pdfN_int 0 b), integral_symm a 0]
  ring

theorem cdfN_neg (x : ℝ) : cdfN (-x) = 1 - cdfN x := by
  unfold cdfN
  have : ∫ t in (0 : ℝ)..(-x), pdfN t = -∫ t in (0 : ℝ)..x, pdfN t := by
    have h := integral_comp_neg (fun t => pdfN t) (a := 0) (b := x)
    simp only [pdfN_neg, neg_zero] at h
    rw [h, integral_symm]
    try ring
  rw [this]; ring

theorem cdfN_mono : StrictMono cdfN := by
  intro a b hab
  have : 0 < cdfN b - cdfN a := by
    rw [cdfN_sub]
    exact intervalIntegral_pos_of_pos (pdfN_int a b) pdfN_pos hab
  linarith

theorem cdfN_deriv (x : ℝ) : HasDerivAt cdfN (pdfN x) x := by
  have h := integral_hasDerivAt_right (pdfN_int 0 x) (pdfN_cont.stronglyMeasurableAtFilter _ _) pdfN_cont.continuousAt
  exact h.const_add _

theorem cdfN_cont : Continuous cdfN := continuous_iff_continuousAt.mpr fun x => (cdfN_deriv x).continuousAt

/-- Both branches are the probability between the limits. -/
theorem delta_eq (a b : ℝ) : delta a b = ∫ t in a..b, pdfN t := by
  unfold delta
  rw [← cdfN_sub]
  split
  · rw [cdfN_neg, cdfN_neg]; ring
  · rfl

theorem delta_pos {a b : ℝ} (h : a < b) : 0 < delta a b := by
  rw [delta_eq]
  exact intervalIntegral_pos_of_pos (pdfN_int a b) pdfN_pos h

/-- The density is positive and its integral between the limits is one. -/
theorem pdf_density {a b : ℝ} (h : a < b) : (∀ x, 0 < pdf x a b) ∧ ∫ x in a..b, pdf x a b = 1 := by
  have hd := delta_pos h
  refine ⟨fun x => div_pos (pdfN_pos x) hd, ?_⟩
  unfold pdf
  rw [intervalIntegral.integral_div, ← delta_eq, div_self hd.ne']

/-- The distribution function is the integral of the density; it increases from zero to one. -/
theorem cdf_spec {a b : ℝ} (h : a < b) : (∀ x, cdf x a b = ∫ t in a..x, pdf t a b) ∧ cdf a a b = 0 ∧ cdf b a b = 1 ∧
    (∀ x y, x < y → cdf x a b < cdf y a b) := by
  have hd := delta_pos h
  refine ⟨?_, by simp [cdf], ?_, ?_⟩
  · intro x
    unfold cdf pdf
    rw [intervalIntegral.integral_div, cdfN_sub]
  · unfold cdf
    rw [cdfN_sub, ← delta_eq, div_self hd.ne']
  · intro x y hxy
    exact div_lt_div_of_pos_right (by linarith [cdfN_mono hxy]) hd

theorem ppf_arg (ppfN : ℝ → ℝ) (hp : ∀ x, ppfN (cdfN x) = x) {q a b x : ℝ} (hx : cdfN x = q * cdfN b + cdfN a * (1 - q)) :
    ppf ppfN q a b = x := by
  unfold ppf
  split
  · rw [show q * cdfN (-b) + cdfN (-a) * (1 - q) = cdfN (-x) by rw [cdfN_neg, cdfN_neg, cdfN_neg, hx]; ring, hp, neg_neg]
  · rw [← hx, hp]

/-- The quantiles invert the distribution function. -/
theorem ppf_cdf (ppfN : ℝ → ℝ) (hp : ∀ x, ppfN (cdfN x) = x) {a b : ℝ} (h : a < b) (x : ℝ) : ppf ppfN (cdf x a b) a b = x := by
  apply ppf_arg ppfN hp
  have hd : cdfN b - cdfN a ≠ 0 := by linarith [cdfN_mono h, cdfN_mono h] |> fun (h : 0 < cdfN b - cdfN a) => h.ne'
  unfold cdf
  rw [delta_eq, ← cdfN_sub]
  field_simp
  ring

/-- Quantiles are between the limits. -/
theorem cdf_ppf (ppfN : ℝ → ℝ) (hp : ∀ x, ppfN (cdfN x) = x) {a b q : ℝ} (h : a < b) (h0 : 0 ≤ q) (h1 : q ≤ 1) :
    a ≤ ppf ppfN q a b ∧ ppf ppfN q a b ≤ b ∧ cdf (ppf ppfN q a b) a b = q := by
  have hm := cdfN_mono h
  have hmem : q * cdfN b + cdfN a * (1 - q) ∈ Set.Icc (cdfN a) (cdfN b) := by
    constructor <;> nlinarith
  obtain ⟨x, hx, e⟩ := intermediate_value_Icc h.le cdfN_cont.continuousOn hmem
  have hpx := ppf_arg ppfN hp e
  rw [hpx]
  refine ⟨hx.1, hx.2, ?_⟩
  unfold cdf
  rw [delta_eq, ← cdfN_sub, e]
  have : cdfN b - cdfN a ≠ 0 := by linarith |> fun (h : 0 < cdfN b - cdfN a) => h.ne'
  field_simp
  ring

theorem pdfN_deriv (x : ℝ) : HasDerivAt pdfN (-x * pdfN x) x := by
  have h1 : HasDerivAt (fun x : ℝ => -x ^ 2 / 2) (-x) x :=
    HasDerivAt.congr_deriv (((hasDerivAt_pow 2 x).neg).div_const 2) (by norm_num; ring)
  exact HasDerivAt.congr_deriv (h1.exp.div_const (√(2 * Real.pi))) (by unfold pdfN; ring)

/-- The mean of the density. -/
theorem mean_spec (a b : ℝ) : ∫ x in a..b, x * pdf x a b = (stats a b).1 := by
  have hi : ∫ x in a..b, x * pdfN x = pdfN a - pdfN b := by
    have hd : ∀ x ∈ Set.uIcc a b, HasDerivAt (fun x => -pdfN x) (x * pdfN x) x := by
      intro x _
      exact HasDerivAt.congr_deriv (pdfN_deriv x).neg (by ring)
    rw [integral_eq_sub_of_hasDerivAt hd ((continuous_id.mul pdfN_cont).intervalIntegrable a b)]
    ring
  unfold pdf stats
  simp only
  rw [cdfN_sub, ← delta_eq, ← hi, ← intervalIntegral.integral_div]
  congr 1
  funext x
  ring

/-- The variance of the density. -/
theorem variance_spec {a b : ℝ} (h : a < b) :
    ∫ x in a..b, (x - (stats a b).1) ^ 2 * pdf x a b = (stats a b).2 := by
  have hi : ∫ x in a..b, x ^ 2 * pdfN x = (∫ x in a..b, pdfN x) + (a * pdfN a - b * pdfN b) := by
    have hd : ∀ x ∈ Set.uIcc a b, HasDerivAt (fun x => -(x * pdfN x)) (x ^ 2 * pdfN x - pdfN x) x := by
      intro x _
      exact HasDerivAt.congr_deriv ((hasDerivAt_id x).mul (pdfN_deriv x)).neg (by simp only [id]; ring)
    have hc : Continuous fun x : ℝ => x ^ 2 * pdfN x := (continuous_pow 2).mul pdfN_cont
    have := integral_eq_sub_of_hasDerivAt hd ((hc.sub pdfN_cont).intervalIntegrable a b)
    rw [integral_sub (hc.intervalIntegrable a b) (pdfN_int a b)] at this
    linarith
  have hm := mean_spec a b
  have h1 := (pdf_density h).2
  have hd := delta_pos h
  have hs : (stats a b).2 = (∫ x in a..b, x ^ 2 * pdf x a b) - (stats a b).1 ^ 2 := by
    have : ∫ x in a..b, x ^ 2 * pdf x a b = (∫ x in a..b, x ^ 2 * pdfN x) / delta a b := by
      rw [← intervalIntegral.integral_div]
      congr 1
      funext x
      unfold pdf
      ring
    rw [this, hi, ← delta_eq]
    unfold stats
    simp only
    rw [cdfN_sub, ← delta_eq]
    have := hd.ne'
    field_simp
  have hpc : Continuous fun x => pdf x a b := by unfold pdf; exact pdfN_cont.div_const _
  rw [hs, ← hm]
  generalize (stats a b).1 = mu at *
  have e : (fun x => (x - mu) ^ 2 * pdf x a b) = fun x => x ^ 2 * pdf x a b - (2 * mu * (x * pdf x a b) - mu ^ 2 * pdf x a b) := by
    funext x; ring
  have c1 : Continuous fun x => x ^ 2 * pdf x a b := (continuous_pow 2).mul hpc
  have c2 : Continuous fun x => 2 * mu * (x * pdf x a b) := continuous_const.mul (continuous_id.mul hpc)
  have c3 : Continuous fun x => mu ^ 2 * pdf x a b := continuous_const.mul hpc
  have c4 : Continuous fun x => 2 * mu * (x * pdf x a b) - mu ^ 2 * pdf x a b := c2.sub c3
  rw [hm, e, integral_sub (c1.intervalIntegrable a b) (c4.intervalIntegrable a b),
    integral_sub (c2.intervalIntegrable a b) (c3.intervalIntegrable a b), intervalIntegral.integral_const_mul, intervalIntegral.integral_const_mul, hm, h1]
  ring

/-- Between symmetric limits the mean is zero. -/
theorem limited_mean (k : ℝ) (hk : k ≠ 0) : (stats (limits k).1 (limits k).2).1 = 0 ∧ (limits k).1 < (limits k).2 := by
  constructor
  · simp [limits, stats, pdfN_neg]
  · have := abs_pos.mpr hk
    simp only [limits]
    linarith

/-- The "flipped" distribution is not flipped: it is the highest in the middle. -/
theorem hole_not_flipped (k x : ℝ) (hx : x ≠ 0) (hk : k ≠ 0) :
    holePdf x (limits k).1 (limits k).2 < holePdf 0 (limits k).1 (limits k).2 ∧
    ∀ y, holePdf y (limits k).1 (limits k).2 = pdf y (limits k).1 (limits k).2 := by
  refine ⟨?_, fun _ => rfl⟩
  unfold holePdf
  apply div_lt_div_of_pos_right _ (delta_pos (limited_mean k hk).2)
  unfold pdfN
  have hs : 0 < √(2 * Real.pi) := by have := Real.pi_pos; positivity
  apply div_lt_div_of_pos_right _ hs
  rw [Real.exp_lt_exp]
  have : 0 < x ^ 2 := by positivity
  linarith

/-- The distribution function that starts at the median is the integral of the density up to the value. -/
theorem cdfN_eq (x : ℝ) : cdfN x = ∫ t in Set.Iic x, pdfN t := by
  have hb : ∀ t : ℝ, pdfN t = (√(2 * Real.pi))⁻¹ * Real.exp (-(1 / 2) * t ^ 2) := by
    intro t
    unfold pdfN
    rw [show -t ^ 2 / 2 = -(1 / 2) * t ^ 2 by ring]
    ring
  have hi : Integrable pdfN := by
    have := (integrable_exp_neg_mul_sq (b := 1 / 2) (by norm_num)).const_mul (√(2 * Real.pi))⁻¹
    exact this.congr (Filter.Eventually.of_forall fun t => (hb t).symm)
  have h0 : ∫ t in Set.Iic (0 : ℝ), pdfN t = 1 / 2 := by
    have e := integral_comp_neg_Iic (0 : ℝ) pdfN
    simp only [pdfN_neg, neg_zero] at e
    rw [e]
    simp only [hb]
    rw [MeasureTheory.integral_const_mul, integral_gaussian_Ioi]
    have hs : 0 < √(2 * Real.pi) := by have := Real.pi_pos; positivity
    rw [show Real.pi / (1 / 2) = 2 * Real.pi by ring]
    field_simp
  have := integral_Iic_sub_Iic (a := 0) (b := x) (f := pdfN) (μ := volume) hi.integrableOn hi.integrableOn
  unfold cdfN
  rw [← this, h0]
  ring

/-- There is such a function. -/
theorem ppfN_exists : ∃ p : ℝ → ℝ, ∀ x, p (cdfN x) = x :=
  ⟨Function.invFun cdfN, Function.leftInverse_invFun cdfN_mono.injective⟩

example : ∫ x in (1 : ℝ)..2, pdf x 1 2 = 1 := (pdf_density (by norm_num)).2
example : (stats (-3) 3).1 = 0 := by simpa [limits] using (limited_mean 3 (by norm_num)).1

end SC.TruncNorm
