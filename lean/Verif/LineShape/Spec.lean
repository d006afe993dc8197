import Verif.LineShape.Model
/-! # What the two descriptions of a line shape mean -/
namespace SC.LineShape
variable {K : Type} [Field K] [LinearOrder K] [IsStrictOrderedRing K]

/-- The norms at one energy are positive. -/
structure Norms.Pos (N : Norms K) (u : K) : Prop where
  sigma : 0 < N.sigma u
  gnorm : 0 < N.gnorm u
  snorm : 0 < N.snorm u
  tnorm : ∀ t, 0 < t → 0 < N.tnorm u t

/-- The areas of the two tails and of the step in the PyMca description, in which the peak has area
one: height times norm, the height of a tail being its ratio over its slope, and the height of the
step its ratio times the height of the peak. -/
def areas (N : Norms K) (u st lt : K) (r : Three K) : Three K :=
  ⟨r.s / st * N.tnorm u st, r.l / lt * N.tnorm u lt, r.p * (1 / N.gnorm u) * N.snorm u⟩

/-- `w` are the fractions of the total area that the tails and the step take. -/
def AreFractions (a w : Three K) : Prop :=
  w.s = a.s / (1 + (a.s + a.l + a.p)) ∧ w.l = a.l / (1 + (a.s + a.l + a.p)) ∧ w.p = a.p / (1 + (a.s + a.l + a.p))

/-- Not negative. -/
def Three.Nonneg (w : Three K) : Prop := 0 ≤ w.s ∧ 0 ≤ w.l ∧ 0 ≤ w.p

/-- Fractions that leave something for the peak. -/
def Proper (w : Three K) : Prop := w.Nonneg ∧ w.s + w.l + w.p < 1

/-- The derived values are those of the given values at the conversion energy: the broadening is the
slope in units of sigma, and the fractions are those of the areas. -/
def InSync (N : Norms K) (d : Shape K) : Prop :=
  ∃ u sb lb st lt w r, d.energy = some u ∧ d.sbroad = some sb ∧ d.lbroad = some lb ∧ d.sslope = some st ∧
    d.lslope = some lt ∧ d.fractions = some w ∧ d.ratios = some r ∧
    0 < st ∧ 0 < lt ∧ st = sb * N.sigma u ∧ lt = lb * N.sigma u ∧ Proper w ∧ r.Nonneg ∧
    AreFractions (areas N u st lt r) w

end SC.LineShape
