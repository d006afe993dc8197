import Mathlib.Analysis.SpecialFunctions.Log.Basic
import Mathlib.Analysis.SpecialFunctions.Exp
import Mathlib.Analysis.SpecialFunctions.Sqrt
/-! # Model of `math/noisepropagation.py`

Simplified: scalars only (the code vectorises), real numbers instead of floats, no units.  A square
root of a negative number (nan, or a complex number) is `none`.  The class of the `uncertainties`
package is reduced to its expectation and standard deviation; a plain number has standard deviation
zero (noisepropagation.py:59-84). -/
namespace SC.Noise

/-- A random variable: expectation and standard deviation (`RandomVariable`). -/
@[ext] structure RV where
  e : ℝ
  s : ℝ

/-- VAR, noisepropagation.py:83-84. -/
def RV.var (x : RV) : ℝ := x.s ^ 2

/-- A real square root, `none` when it does not exist. -/
noncomputable def npSqrt (x : ℝ) : Option ℝ := if 0 ≤ x then some (Real.sqrt x) else none

/-- randomvariable, noisepropagation.py:52-56, with the standard deviation given by its square. -/
noncomputable def randomvariable (e var : ℝ) : Option RV := (npSqrt var).map fun s => ⟨e, s⟩

/-- bernouilli, noisepropagation.py:26-30 and 38-42. -/
noncomputable def bernouilli (p : ℝ) : Option RV := randomvariable p (p * (1 - p))
/-- poisson, noisepropagation.py:33-35 and 45-49. -/
noncomputable def poisson (g : ℝ) : Option RV := randomvariable g g

/-- SNR, noisepropagation.py:87-88. -/
noncomputable def RV.snr (x : RV) : ℝ := x.e / x.s

/-- repeat, noisepropagation.py:99-132. -/
noncomputable def repeatRV (N : ℝ) (x : RV) (forward : Bool) : Option RV :=
  (npSqrt N).map fun r =>
    if forward then ⟨x.e * N, x.s * r⟩ else ⟨x.e / N, x.s / r⟩

/-- compound, noisepropagation.py:135-186. -/
noncomputable def compound (N X : RV) (forward : Bool) : Option RV :=
  if forward then
    randomvariable (N.e * X.e) (N.var * X.e * X.e + X.var * N.e)
  else
    let ey := N.e / X.e
    randomvariable ey ((N.var - X.var * ey) / (X.e * X.e))

/-- reverse_add, noisepropagation.py:189-197. -/
noncomputable def reverseAdd (Z Y : RV) : Option RV := randomvariable (Z.e - Y.e) (Z.var - Y.var)
/-- reverse_sub, noisepropagation.py:200-208. -/
noncomputable def reverseSub (Z Y : RV) : Option RV := randomvariable (Z.e + Y.e) (Z.var - Y.var)
/-- reverse_mult, noisepropagation.py:211-221. -/
noncomputable def reverseMult (Z Y : RV) : Option RV :=
  let ex := Z.e / Y.e
  randomvariable ex ((Z.var - ex * ex * Y.var) / (Y.e * Y.e))
/-- reverse_div, noisepropagation.py:224-233. -/
noncomputable def reverseDiv (Z Y : RV) : Option RV :=
  let ex := Z.e * Y.e
  randomvariable ex (Z.var * Y.e * Y.e - ex * ex * Y.var / (Y.e * Y.e))
/-- reverse_log, noisepropagation.py:236-244. -/
noncomputable def reverseLog (Z : RV) : Option RV :=
  let ex := Real.exp Z.e
  randomvariable ex (Z.var * ex * ex)

end SC.Noise
