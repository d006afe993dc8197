import Verif.Geometry.Spec
import Mathlib.MeasureTheory.Integral.IntervalIntegral.FundThmCalculus
import Mathlib.Analysis.Calculus.Deriv.Inv
import Mathlib.Analysis.Real.Pi.Bounds
import Mathlib.Tactic.FieldSimp
import Mathlib.Tactic.Linarith
/-! # C56: angles, solid angles and distances -/
namespace SC.Geometry
open Real

/-! ## Angles -/

theorem radians_90 : radians 90 = π / 2 := by unfold radians; ring

theorem radians_add (a b : ℝ) : radians (a + b) = radians a + radians b := by unfold radians; ring

theorem radians_sub (a b : ℝ) : radians (a - b) = radians a - radians b := by unfold radians; ring

/-- **C56.**  The angles of a flat sample are those of the vectors: the cosines with the inward normal are
the scalar products of the beam and of the detector direction with it, and the scattering angle is the
angle between the beam and the detector direction.  All vectors have length one. -/
theorem flat_angles (f : Flat) :
    dot beam beam = 1 ∧ dot (normal f) (normal f) = 1 ∧ dot (detectorDir f) (detectorDir f) = 1 ∧
    dot (surface f) (normal f) = 0 ∧
    dot beam (normal f) = f.cosnormin ∧ dot (detectorDir f) (normal f) = f.cosnormout ∧
    detectorDir f = dir (radians f.scatteringangle) ∧
    dot beam (detectorDir f) = cos (radians f.scatteringangle) := by
  have hd : detectorDir f = dir (radians f.scatteringangle) := by
    simp only [detectorDir, normal, surface, dir, Flat.scatteringangle, radians_add, cos_add, sin_add, Prod.mk.injEq]
    constructor <;> ring
  have one : ∀ θ, dot (dir θ) (dir θ) = 1 := by
    intro θ
    simp only [dot, dir]
    have := sin_sq_add_cos_sq θ
    nlinarith
  refine ⟨one 0, ?_, by rw [hd]; exact one _, ?_, ?_, ?_, hd, ?_⟩
  · have := one (radians f.anglein)
    simp only [dot, normal, surface, dir] at this ⊢
    linarith
  · simp only [dot, normal]; ring
  · simp only [dot, beam, dir, normal, surface, Flat.cosnormin, Flat.anglenormin, radians_sub, radians_90,
      cos_pi_div_two_sub, cos_zero, sin_zero]
    ring
  · rw [hd]
    simp only [dot, dir, normal, surface, Flat.cosnormout, Flat.anglenormout, Flat.scatteringangle, radians_add,
      radians_90, cos_add, sin_add, cos_pi_div_two, sin_pi_div_two]
    have := sin_sq_add_cos_sq (radians f.anglein)
    linear_combination (-sin (radians f.angleout)) * this
  · rw [hd]; simp [dot, beam, dir]

/-- **C56.**  Reflection geometry: the detector is on the side of the surface from which the beam comes. -/
theorem flat_reflection (f : Flat) (h0 : 0 < f.anglein) (h1 : f.anglein ≤ 90) (h2 : -90 ≤ f.angleout)
    (h3 : f.angleout ≤ 90) :
    0 < dot beam (normal f) ∧ (f.reflection ↔ dot (detectorDir f) (normal f) < 0) := by
  have hp := pi_pos
  obtain ⟨-, -, -, -, e1, e2, -⟩ := flat_angles f
  have c1 : f.cosnormin = sin (radians f.anglein) := by
    simp only [Flat.cosnormin, Flat.anglenormin, radians_sub, radians_90, cos_pi_div_two_sub]
  have c2 : f.cosnormout = -sin (radians f.angleout) := by
    simp only [Flat.cosnormout, Flat.anglenormout, radians_add, radians_90]
    rw [cos_add, cos_pi_div_two, sin_pi_div_two]; ring
  rw [e1, e2, c1, c2]
  constructor
  · apply sin_pos_of_pos_of_lt_pi <;> unfold radians
    · positivity
    · nlinarith
  · have key : 0 < sin (radians f.angleout) ↔ 0 < f.angleout := by
      constructor
      · intro h
        by_contra hn
        have : sin (radians f.angleout) ≤ 0 := by
          apply sin_nonpos_of_nonpos_of_neg_pi_le <;> unfold radians <;> nlinarith
        linarith
      · intro h
        apply sin_pos_of_pos_of_lt_pi <;> unfold radians
        · positivity
        · nlinarith
    unfold Flat.reflection
    constructor
    · intro h; have := key.mpr h; linarith
    · intro h; exact key.mp (by linarith)

/-- **C56.**  The angles with the normal can be set and are read back, one leaves the other alone. -/
theorem flat_setters (f : Flat) (v : ℝ) :
    (f.setAnglenormin v).anglenormin = v ∧ (f.setAnglenormin v).angleout = f.angleout ∧
    (f.setAnglenormout v).anglenormout = v ∧ (f.setAnglenormout v).anglein = f.anglein := by
  simp [Flat.setAnglenormin, Flat.setAnglenormout, Flat.anglenormin, Flat.anglenormout]

/-! ## Solid angle -/

theorem solidangleOf_eq {A d : ℝ} (hA : 0 < A) :
    solidangleOf A d = .ok (2 * π * (1 - d / sqrt (A / π + d ^ 2))) := by
  have hp := pi_pos
  have h1 : 0 < A / π + d ^ 2 := by positivity
  have h2 : sqrt (A / π + d ^ 2) ≠ 0 := (sqrt_pos.mpr h1).ne'
  simp only [solidangleOf, sqrtE, if_neg (not_lt.mpr h1.le), Except.bind, divE, if_neg h2, Except.map]

/-- **C56.**  The solid angle is that of a disk of the active area, seen from a point on its axis. -/
theorem solidangle_disk {A d : ℝ} (hA : 0 < A) (hd : 0 < d) : solidangleOf A d = .ok (diskAngle A d) := by
  have hp := pi_pos
  rw [solidangleOf_eq hA]
  congr 1
  unfold diskAngle
  have hder : ∀ x ∈ Set.uIcc (0 : ℝ) (sqrt (A / π)),
      HasDerivAt (fun x => -(2 * π * d) / sqrt (x ^ 2 + d ^ 2))
        (2 * π * x * (d / sqrt (x ^ 2 + d ^ 2)) / (x ^ 2 + d ^ 2)) x := by
    intro x _
    have hpos : 0 < x ^ 2 + d ^ 2 := by positivity
    have hs : sqrt (x ^ 2 + d ^ 2) ≠ 0 := (sqrt_pos.mpr hpos).ne'
    have h1 : HasDerivAt (fun x : ℝ => x ^ 2 + d ^ 2) (2 * x) x := by
      simpa using ((hasDerivAt_id x).pow 2).add_const (d ^ 2)
    have h2 := h1.sqrt hpos.ne'
    have h3 := (hasDerivAt_const x (-(2 * π * d))).div h2 hs
    refine h3.congr_deriv ?_
    rw [sq_sqrt hpos.le]
    field_simp
    ring
  have hcont : IntervalIntegrable
      (fun x => 2 * π * x * (d / sqrt (x ^ 2 + d ^ 2)) / (x ^ 2 + d ^ 2)) MeasureTheory.volume 0 (sqrt (A / π)) := by
    apply Continuous.intervalIntegrable
    apply Continuous.div
    · apply Continuous.mul (by fun_prop)
      apply Continuous.div (by fun_prop) (by fun_prop)
      intro x
      exact (sqrt_pos.mpr (by positivity)).ne'
    · fun_prop
    · intro x
      have : 0 < x ^ 2 + d ^ 2 := by positivity
      exact this.ne'
  rw [intervalIntegral.integral_eq_sub_of_hasDerivAt hder hcont]
  rw [sq_sqrt (by positivity), zero_pow two_ne_zero, zero_add, sqrt_sq hd.le]
  field_simp
  ring

/-- The solid angle of a detector in front of the source is between 0 and a half space. -/
theorem solidangle_range {A d sa : ℝ} (hA : 0 < A) (hd : 0 < d) (h : solidangleOf A d = .ok sa) :
    0 < sa ∧ sa < 2 * π := by
  have hp := pi_pos
  rw [solidangleOf_eq hA, Except.ok.injEq] at h
  subst h
  have h1 : 0 < A / π := by positivity
  have h2 : d < sqrt (A / π + d ^ 2) := by
    apply lt_sqrt_of_sq_lt; linarith
  have h3 : d / sqrt (A / π + d ^ 2) < 1 := (div_lt_one (hd.trans h2)).mpr h2
  have h4 : 0 < d / sqrt (A / π + d ^ 2) := div_pos hd (hd.trans h2)
  constructor
  · have : 0 < 1 - d / sqrt (A / π + d ^ 2) := by linarith
    positivity
  · nlinarith

theorem cosSq_range {sa : ℝ} (h0 : 0 < sa) (h1 : sa < 2 * π) : 0 < cosSq sa ∧ cosSq sa < 1 := by
  have hp := pi_pos
  have e1 : 0 < 1 - sa / (2 * π) := by
    have : sa / (2 * π) < 1 := (div_lt_one (by positivity)).mpr h1
    linarith
  have e2 : 1 - sa / (2 * π) < 1 := by
    have : 0 < sa / (2 * π) := by positivity
    linarith
  unfold cosSq
  constructor
  · positivity
  · nlinarith

/-- **C56.**  The distance for a solid angle is the one at which the detector has this solid angle. -/
theorem distance_of_solidangle {A sa : ℝ} (hA : 0 < A) (h0 : 0 < sa) (h1 : sa < 2 * π) :
    ∃ d, distanceOf A sa = .ok d ∧ 0 < d ∧ solidangleOf A d = .ok sa := by
  have hp := pi_pos
  obtain ⟨c0, c1⟩ := cosSq_range h0 h1
  have hden : 1 - cosSq sa ≠ 0 := by linarith
  have hq : 0 < A / π * cosSq sa / (1 - cosSq sa) := by
    have : 0 < 1 - cosSq sa := by linarith
    positivity
  refine ⟨sqrt (A / π * cosSq sa / (1 - cosSq sa)), ?_, sqrt_pos.mpr hq, ?_⟩
  · simp only [distanceOf, divE, if_neg hden, Except.bind, sqrtE, if_neg (not_lt.mpr hq.le)]
  · rw [solidangleOf_eq hA, sq_sqrt hq.le]
    have e1 : A / π + A / π * cosSq sa / (1 - cosSq sa) = (A / π * cosSq sa / (1 - cosSq sa)) / cosSq sa := by
      field_simp
      ring
    have e2 : 0 < 1 - sa / (2 * π) := by
      have : sa / (2 * π) < 1 := (div_lt_one (by positivity)).mpr h1
      linarith
    rw [e1, sqrt_div hq.le, div_div_eq_mul_div, mul_div_cancel_left₀ _ (sqrt_pos.mpr hq).ne']
    have e3 : sqrt (cosSq sa) = 1 - sa / (2 * π) := by unfold cosSq; exact sqrt_sq e2.le
    rw [e3]
    congr 1
    field_simp
    ring

/-- The squared cosine of the solid angle at a distance. -/
theorem cosSq_solidangle {A d : ℝ} (hA : 0 < A) :
    cosSq (2 * π * (1 - d / sqrt (A / π + d ^ 2))) = d ^ 2 / (A / π + d ^ 2) := by
  have hp := pi_pos
  have h1 : 0 < A / π + d ^ 2 := by positivity
  unfold cosSq
  rw [mul_div_cancel_left₀ _ (by positivity : (2 * π) ≠ 0), sub_sub_cancel, div_pow, sq_sqrt h1.le]

/-- **C56.**  The distance and the active area are recovered from the solid angle. -/
theorem solidangle_inverses {A d : ℝ} (hA : 0 < A) (hd : 0 < d) :
    ∃ sa, solidangleOf A d = .ok sa ∧ distanceOf A sa = .ok d ∧ areaOf d sa = .ok A := by
  have hp := pi_pos
  have h1 : 0 < A / π + d ^ 2 := by positivity
  have h2 : 1 - d ^ 2 / (A / π + d ^ 2) = A / π / (A / π + d ^ 2) := by field_simp; ring
  have h3 : A / π / (A / π + d ^ 2) ≠ 0 := by positivity
  have h4 : d ^ 2 / (A / π + d ^ 2) ≠ 0 := by positivity
  refine ⟨_, solidangleOf_eq hA, ?_, ?_⟩
  · rw [distanceOf, cosSq_solidangle hA, h2, divE, if_neg h3]
    have : A / π * (d ^ 2 / (A / π + d ^ 2)) / (A / π / (A / π + d ^ 2)) = d ^ 2 := by field_simp
    rw [this, Except.bind, sqrtE, if_neg (not_lt.mpr (sq_nonneg d)), sqrt_sq hd.le]
  · rw [areaOf, cosSq_solidangle hA, h2, divE, if_neg h4]
    congr 1
    field_simp

/-- **C56.**  The active area for a solid angle is the one with which the detector has this solid angle. -/
theorem area_of_solidangle {d sa : ℝ} (hd : 0 < d) (h0 : 0 < sa) (h1 : sa < 2 * π) :
    ∃ A, areaOf d sa = .ok A ∧ 0 < A ∧ solidangleOf A d = .ok sa := by
  have hp := pi_pos
  obtain ⟨c0, c1⟩ := cosSq_range h0 h1
  have hA : 0 < (1 - cosSq sa) * d ^ 2 * π / cosSq sa := by
    have : 0 < 1 - cosSq sa := by linarith
    positivity
  refine ⟨_, by simp only [areaOf, divE, if_neg c0.ne'], hA, ?_⟩
  rw [solidangleOf_eq hA]
  have e1 : (1 - cosSq sa) * d ^ 2 * π / cosSq sa / π + d ^ 2 = d ^ 2 / cosSq sa := by
    field_simp
    ring
  have e2 : 0 < 1 - sa / (2 * π) := by
    have : sa / (2 * π) < 1 := (div_lt_one (by positivity)).mpr h1
    linarith
  have e3 : sqrt (cosSq sa) = 1 - sa / (2 * π) := by unfold cosSq; exact sqrt_sq e2.le
  rw [e1, sqrt_div (sq_nonneg d), sqrt_sq hd.le, div_div_eq_mul_div, mul_div_cancel_left₀ _ hd.ne', e3]
  congr 1
  field_simp
  ring

/-- **C56.**  Closer means larger. -/
theorem solidangle_decreasing {A d d' s s' : ℝ} (hA : 0 < A) (hd : 0 < d) (hdd : d < d')
    (h : solidangleOf A d = .ok s) (h' : solidangleOf A d' = .ok s') : s' < s := by
  have hp := pi_pos
  have hd' : 0 < d' := hd.trans hdd
  rw [solidangleOf_eq hA, Except.ok.injEq] at h h'
  subst h h'
  have p1 : 0 < A / π + d ^ 2 := by positivity
  have p2 : 0 < A / π + d' ^ 2 := by positivity
  have q1 : 0 < d / sqrt (A / π + d ^ 2) := div_pos hd (sqrt_pos.mpr p1)
  have q2 : 0 < d' / sqrt (A / π + d' ^ 2) := div_pos hd' (sqrt_pos.mpr p2)
  have key : d / sqrt (A / π + d ^ 2) < d' / sqrt (A / π + d' ^ 2) := by
    apply lt_of_pow_lt_pow_left₀ 2 q2.le
    rw [div_pow, div_pow, sq_sqrt p1.le, sq_sqrt p2.le, div_lt_div_iff₀ p1 p2]
    have a0 : 0 < A / π := by positivity
    have : d ^ 2 < d' ^ 2 := by nlinarith
    nlinarith
  nlinarith

/-- **C56**, failing beyond a half space: for a solid angle between `2π` and `4π` the distance is that of the
rest of the sphere; a negative solid angle or one above `4π` has a complex distance. -/
theorem solidangle_large {A sa : ℝ} (hA : 0 < A) :
    (2 * π < sa → sa < 4 * π → ∃ d, distanceOf A sa = .ok d ∧ 0 < d ∧ solidangleOf A d = .ok (4 * π - sa)) ∧
    (sa < 0 ∨ 4 * π < sa → distanceOf A sa = .error .complexResult) ∧
    (sa = 0 ∨ sa = 4 * π → distanceOf A sa = .error .zeroDivision) := by
  have hp := pi_pos
  have sym : cosSq (4 * π - sa) = cosSq sa := by
    unfold cosSq
    field_simp
    ring
  refine ⟨?_, ?_, ?_⟩
  · intro h0 h1
    have := distance_of_solidangle hA (sa := 4 * π - sa) (by linarith) (by linarith)
    unfold distanceOf at this ⊢
    rwa [sym] at this
  · intro h
    have hc : 1 < cosSq sa := by
      unfold cosSq
      rcases h with h | h
      · have : sa / (2 * π) < 0 := div_neg_of_neg_of_pos h (by positivity)
        nlinarith
      · have : 2 < sa / (2 * π) := by rw [lt_div_iff₀ (by positivity)]; linarith
        nlinarith
    have hden : 1 - cosSq sa ≠ 0 := by linarith
    have hneg : A / π * cosSq sa / (1 - cosSq sa) < 0 :=
      div_neg_of_pos_of_neg (by positivity) (by linarith)
    simp only [distanceOf, divE, if_neg hden, Except.bind, sqrtE, if_pos hneg]
  · intro h
    have hc : 1 - cosSq sa = 0 := by
      unfold cosSq
      rcases h with h | h <;> subst h
      · norm_num
      · field_simp; norm_num
    simp only [distanceOf, divE, if_pos hc, Except.bind]

/-! ## Motor -/

/-- **C56.**  A distance set for a motor (with a sign of plus or minus one) is the distance read back; zero
distance and active area stay. -/
theorem motor_distance (g : Linear) (hs : g.sign * g.sign = 1) (z d : ℝ) (hz : g.zero = some z) :
    ∃ g', setDistance g (some d) = .ok g' ∧ distance g' = .ok d ∧ g'.zero = g.zero ∧ g'.area = g.area ∧
      g'.sign = g.sign := by
  refine ⟨{ g with position := some (g.sign * d - z) }, ?_, ?_, rfl, rfl, rfl⟩
  · simp only [setDistance, positionAt, hz, Except.map]
  · simp only [distance, distanceAt, hz]
    congr 1
    linear_combination d * hs

/-- **C56.**  A position gives a distance, and setting this distance gives the position. -/
theorem motor_position (g : Linear) (hs : g.sign * g.sign = 1) (z p : ℝ) (hz : g.zero = some z) :
    ∃ d, distance (setPosition g (some p)) = .ok d ∧
      setDistance (setPosition g (some p)) (some d) = .ok (setPosition g (some p)) := by
  refine ⟨g.sign * (p + z), by simp only [distance, setPosition, distanceAt, hz], ?_⟩
  simp only [setDistance, setPosition, positionAt, hz, Except.map]
  congr 3
  linear_combination (p + z) * hs

/-- **C56.**  Calibrating with one distance: the distance is the one given, the position stays, and other
positions differ from it by the way the motor moved. -/
theorem motor_calibrate (g : Linear) (hs : g.sign * g.sign = 1) (p d : ℝ) (hp : g.position = some p) :
    ∃ g', calibrateManually g d = .ok g' ∧ distance g' = .ok d ∧ g'.position = some p ∧ g'.area = g.area ∧
      ∀ q, distance (setPosition g' (some q)) = .ok (d + g.sign * (q - p)) := by
  refine ⟨{ g with zero := some (g.sign * d - p) }, ?_, ?_, hp, rfl, ?_⟩
  · simp only [calibrateManually, zeroAt, hp, Except.map]
  · simp only [distance, hp, distanceAt]
    congr 1
    linear_combination d * hs
  · intro q
    simp only [distance, setPosition, distanceAt]
    congr 1
    linear_combination d * hs

/-- **C56.**  A solid angle set for a detector on a motor is the one read back. -/
theorem motor_solidangle (g : Linear) (hs : g.sign * g.sign = 1) (z A sa : ℝ) (hz : g.zero = some z)
    (ha : g.area = some A) (hA : 0 < A) (h0 : 0 < sa) (h1 : sa < 2 * π) :
    ∃ g', setSolidangle g sa = .ok g' ∧ solidangle g' = .ok sa ∧ g'.zero = g.zero ∧ g'.area = g.area := by
  obtain ⟨d, e1, -, e2⟩ := distance_of_solidangle hA h0 h1
  obtain ⟨g', f1, f2, f3, f4, -⟩ := motor_distance g hs z d hz
  refine ⟨g', ?_, ?_, f3, f4⟩
  · simp only [setSolidangle, ha, solidangleCalc, e1, Except.bind, f1]
  · simp only [solidangle, f2, Except.bind, f4, ha, solidangleCalc, e2]

/-- **C56.**  Only signs of plus and minus one work. -/
theorem motor_sign (g : Linear) (z : ℝ) (hz : g.zero = some z) :
    (∀ d, ∃ g', setDistance g (some d) = .ok g' ∧ distance g' = .ok d) ↔ g.sign = 1 ∨ g.sign = -1 := by
  constructor
  · intro h
    obtain ⟨g', h1, h2⟩ := h 1
    simp only [setDistance, positionAt, hz, Except.map, Except.ok.injEq] at h1
    subst h1
    simp only [distance, distanceAt, hz, Except.ok.injEq] at h2
    have : (g.sign - 1) * (g.sign + 1) = 0 := by linear_combination h2
    rcases mul_eq_zero.mp this with h | h
    · left; linarith
    · right; linarith
  · intro h d
    have hs : g.sign * g.sign = 1 := by rcases h with h | h <;> rw [h] <;> norm_num
    obtain ⟨g', h1, h2, -⟩ := motor_distance g hs z d hz
    exact ⟨g', h1, h2⟩

/-- **C56.**  Creating a geometry: a distance decides over a position. -/
theorem motor_create (sign : ℝ) (hs : sign * sign = 1) (z : ℝ) (p dist A : Option ℝ) :
    ∃ g, create sign (some z) p dist A = .ok g ∧ g.area = A ∧ g.zero = some z ∧
      (∀ d, dist = some d → distance g = .ok d) ∧
      (dist = none → g.position = p ∧ ∀ q, p = some q → distance g = .ok (sign * (q + z))) := by
  cases dist with
  | none =>
    refine ⟨⟨sign, some z, p, A⟩, rfl, rfl, rfl, by simp, fun _ => ⟨rfl, ?_⟩⟩
    rintro q rfl
    rfl
  | some d =>
    obtain ⟨g', h1, h2, h3, h4, -⟩ := motor_distance ⟨sign, some z, none, A⟩ hs z d rfl
    refine ⟨g', ?_, h4, h3, ?_, by simp⟩
    · simp only [create, h1, Except.map, Option.isNone_some, Bool.false_eq_true, if_false]
    · rintro d' h; cases h; exact h2

/-- **C56.**  Calibrating with a known solid angle: for every zero distance the active area used is the one
that gives this solid angle at the present position; with a fixed active area the zero distance used gives
this solid angle, and the area which belongs to it is the fixed one. -/
theorem calibrate_constraint (g : Linear) (hs : g.sign * g.sign = 1) (p sa : ℝ) (hp : g.position = some p)
    (h0 : 0 < sa) (h1 : sa < 2 * π) :
    (∀ z, 0 < g.sign * (p + z) → ∃ A, areaFor g sa z = .ok A ∧
      solidangle { g with zero := some z, area := some A } = .ok sa) ∧
    (∀ A, g.area = some A → 0 < A → ∃ z, zeroFor g sa = .ok z ∧
      solidangle { g with zero := some z } = .ok sa ∧ areaFor g sa z = .ok A) := by
  constructor
  · intro z hz
    obtain ⟨A, e1, -, e2⟩ := area_of_solidangle hz h0 h1
    refine ⟨A, by simp only [areaFor, hp, distanceAt, Except.bind, solidangleCalc, e1], ?_⟩
    simp only [solidangle, distance, hp, distanceAt, Except.bind, solidangleCalc, e2]
  · intro A ha hA
    obtain ⟨d, e1, e3, e2⟩ := distance_of_solidangle hA h0 h1
    refine ⟨g.sign * d - p, by simp only [zeroFor, ha, solidangleCalc, e1, Except.bind, zeroAt, hp], ?_, ?_⟩
    all_goals have hd : g.sign * (p + (g.sign * d - p)) = d := by linear_combination d * hs
    · simp only [solidangle, distance, hp, distanceAt, hd, Except.bind, ha, solidangleCalc, e2]
    · obtain ⟨sa', i1, -, i3⟩ := solidangle_inverses hA e3
      rw [e2, Except.ok.injEq] at i1
      subst i1
      simp only [areaFor, hp, distanceAt, hd, Except.bind, solidangleCalc, i3]

/-! ## Examples -/

/-- A sample at 62° with a detector at 58°. -/
example : (⟨62, 58⟩ : Flat).scatteringangle = 120 ∧ 0 < dot beam (normal ⟨62, 58⟩) ∧
    dot (detectorDir ⟨62, 58⟩) (normal ⟨62, 58⟩) < 0 := by
  obtain ⟨h1, h2⟩ := flat_reflection ⟨62, 58⟩ (by norm_num) (by norm_num) (by norm_num) (by norm_num)
  exact ⟨by norm_num [Flat.scatteringangle], h1, h2.mp (by norm_num [Flat.reflection])⟩

example : solidangleOf 1 2 = .ok (diskAngle 1 2) := solidangle_disk (by norm_num) (by norm_num)

example : ∃ d, distanceOf 1 1 = .ok d ∧ 0 < d ∧ solidangleOf 1 d = .ok 1 :=
  distance_of_solidangle (by norm_num) (by norm_num) (by have := pi_gt_three; linarith)

example : ∃ A, areaOf 2 1 = .ok A ∧ 0 < A ∧ solidangleOf A 2 = .ok 1 :=
  area_of_solidangle (by norm_num) (by norm_num) (by have := pi_gt_three; linarith)

example : ∃ d, distanceOf 1 9 = .ok d ∧ 0 < d ∧ solidangleOf 1 d = .ok (4 * π - 9) :=
  (solidangle_large (by norm_num)).1 (by have := pi_lt_d2; linarith) (by have := pi_gt_three; linarith)

/-- The geometry `microdiff`: sign -1, zero distance -56.667 mm. -/
noncomputable def microdiff : Linear := ⟨-1, some (-56.667), some 10, some 80⟩

example : distance microdiff = .ok 46.667 := by
  simp only [distance, microdiff, distanceAt]; norm_num

example : ∃ g, setDistance microdiff (some 30) = .ok g ∧ distance g = .ok 30 := by
  obtain ⟨g, h1, h2, -⟩ := motor_distance microdiff (by norm_num [microdiff]) _ 30 rfl
  exact ⟨g, h1, h2⟩

example : ∃ g, setSolidangle microdiff 1 = .ok g ∧ solidangle g = .ok 1 := by
  obtain ⟨g, h1, h2, -⟩ := motor_solidangle microdiff (by norm_num [microdiff]) _ _ 1 rfl rfl (by norm_num)
    (by norm_num) (by have := pi_gt_three; linarith)
  exact ⟨g, h1, h2⟩

example := motor_calibrate microdiff (by norm_num [microdiff]) 10 30 rfl

example := motor_position microdiff (by norm_num [microdiff]) _ 3 rfl

example := (calibrate_constraint microdiff (by norm_num [microdiff]) 10 1 rfl (by norm_num)
  (by have := pi_gt_three; linarith)).2 80 rfl (by norm_num)

example : create 1 (some 57) (some 0) (some 30) (some 80) = .ok ⟨1, some 57, some (1 * 30 - 57), some 80⟩ := rfl

end SC.Geometry
