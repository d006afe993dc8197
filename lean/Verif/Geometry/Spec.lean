import Verif.Geometry.Model
import Mathlib.MeasureTheory.Integral.IntervalIntegral.Basic
/-! # What angles and solid angles are -/
namespace SC.Geometry

/-- Scalar product in the plane. -/
def dot (u v : ℝ × ℝ) : ℝ := u.1 * v.1 + u.2 * v.2

/-- The unit vector at an angle (radians) to the beam. -/
noncomputable def dir (θ : ℝ) : ℝ × ℝ := (Real.cos θ, Real.sin θ)

/-- The beam direction. -/
noncomputable def beam : ℝ × ℝ := dir 0

/-- The sample surface: a line at the angle `anglein` with the beam. -/
noncomputable def surface (f : Flat) : ℝ × ℝ := dir (radians f.anglein)

/-- The normal of this surface, pointing inwards: the surface turned by a right angle such that the beam
enters. -/
noncomputable def normal (f : Flat) : ℝ × ℝ := ((surface f).2, -(surface f).1)

/-- The direction of the detector: the surface direction turned outwards by the angle `angleout`. -/
noncomputable def detectorDir (f : Flat) : ℝ × ℝ :=
  let s := surface f
  let n := normal f
  (Real.cos (radians f.angleout) * s.1 - Real.sin (radians f.angleout) * n.1,
   Real.cos (radians f.angleout) * s.2 - Real.sin (radians f.angleout) * n.2)

/-- The solid angle of a disk of the given area seen from a point on its axis at a distance `d`: rings of
radius `x` appear under `2 π x dx` times the cosine `d / R` over `R ^ 2`, with `R ^ 2 = x ^ 2 + d ^ 2`. -/
noncomputable def diskAngle (area d : ℝ) : ℝ :=
  ∫ x in (0 : ℝ)..Real.sqrt (area / Real.pi),
    2 * Real.pi * x * (d / Real.sqrt (x ^ 2 + d ^ 2)) / (x ^ 2 + d ^ 2)

end SC.Geometry
