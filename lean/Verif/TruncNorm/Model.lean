import Mathlib.Analysis.SpecialFunctions.ExpDeriv
import Mathlib.Analysis.SpecialFunctions.Sqrt
import Mathlib.Analysis.Real.Pi.Bounds
import Mathlib.MeasureTheory.Integral.IntervalIntegral.FundThmCalculus
/-! # Model of the distributions of `math/distributions.py` -/
namespace SC.TruncNorm

/-- `_norm_pdf` of scipy. -/
noncomputable def pdfN (x : ℝ) : ℝ := Real.exp (-x ^ 2 / 2) / √(2 * Real.pi)

/-- `_norm_cdf` of scipy. The integral starts at the median. -/
noncomputable def cdfN (x : ℝ) : ℝ := 1 / 2 + ∫ t in (0 : ℝ)..x, pdfN t

/-- `_argcheck`: the normalisation, distributions.py:79-81 and 126-128. -/
noncomputable def delta (a b : ℝ) : ℝ := if a > 0 then -(cdfN (-b) - cdfN (-a)) else cdfN b - cdfN a

/-- `truncnorm_gen._pdf`, distributions.py:85-86. -/
noncomputable def pdf (x a b : ℝ) : ℝ := pdfN x / delta a b

/-- `truncnorm_gen._cdf`, distributions.py:91-92. -/
noncomputable def cdf (x a b : ℝ) : ℝ := (cdfN x - cdfN a) / delta a b

/-- `truncnorm_gen._ppf`, distributions.py:94-99. `ppfN` is `_norm_ppf`. -/
noncomputable def ppf (ppfN : ℝ → ℝ) (q a b : ℝ) : ℝ :=
  if a > 0 then -ppfN (q * cdfN (-b) + cdfN (-a) * (1 - q)) else ppfN (q * cdfN b + cdfN a * (1 - q))

/-- `truncnorm_gen._stats`, distributions.py:101-107: mean and variance. -/
noncomputable def stats (a b : ℝ) : ℝ × ℝ :=
  let d := cdfN b - cdfN a
  let mu := (pdfN a - pdfN b) / d
  (mu, 1 + (a * pdfN a - b * pdfN b) / d - mu * mu)

/-- The limits of `limitednorm` and `holenorm`, distributions.py:110-112 and 157-159. -/
noncomputable def limits (k : ℝ) : ℝ × ℝ := (-|k|, |k|)

/-- `holenorm_gen._pdf`, distributions.py:132-133. -/
noncomputable def holePdf (x a b : ℝ) : ℝ := pdfN x / delta a b

end SC.TruncNorm
