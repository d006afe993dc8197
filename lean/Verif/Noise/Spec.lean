import Verif.Noise.Model
/-! # C16: specification

Linear propagation as documented for the `uncertainties` package (noisepropagation.py:8-23): for
independent variables the variance of `f` is the sum of squared partial derivatives times the
variances.  Relations, so that no square root is involved. -/
namespace SC.Noise

/-- `Z` is `X + Y`. -/
def IsAdd (X Y Z : RV) : Prop := 0 ≤ Z.s ∧ Z.e = X.e + Y.e ∧ Z.s ^ 2 = X.s ^ 2 + Y.s ^ 2
/-- `Z` is `X - Y`. -/
def IsSub (X Y Z : RV) : Prop := 0 ≤ Z.s ∧ Z.e = X.e - Y.e ∧ Z.s ^ 2 = X.s ^ 2 + Y.s ^ 2
/-- `Z` is `X * Y`: partial derivatives `y` and `x`. -/
def IsMul (X Y Z : RV) : Prop := 0 ≤ Z.s ∧ Z.e = X.e * Y.e ∧ Z.s ^ 2 = (Y.e * X.s) ^ 2 + (X.e * Y.s) ^ 2
/-- `Z` is `X / Y`: partial derivatives `1 / y` and `-x / y^2`. -/
def IsDiv (X Y Z : RV) : Prop :=
  0 ≤ Z.s ∧ Y.e ≠ 0 ∧ Z.e = X.e / Y.e ∧ Z.s ^ 2 = (1 / Y.e * X.s) ^ 2 + (-X.e / Y.e ^ 2 * Y.s) ^ 2
/-- `Z` is `log X`: derivative `1 / x`. -/
def IsLog (X Z : RV) : Prop := 0 ≤ Z.s ∧ 0 < X.e ∧ Z.e = Real.log X.e ∧ Z.s ^ 2 = (1 / X.e * X.s) ^ 2

end SC.Noise
