import Verif.Transform.Spec
import Mathlib.Tactic.NormNum
import Mathlib.Tactic.Ring
import Mathlib.Tactic.LinearCombination
import Mathlib.Tactic.FinCases
import Mathlib.Data.Matrix.Reflection
import Mathlib.LinearAlgebra.Matrix.Determinant.Basic
/-! # C14: image transformations -/
namespace SC.Transform
open Matrix

set_option linter.unusedSectionVars false

variable {K : Type} [Field K] [DecidableEq K]

theorem transMat_mul (x y x' y' : K) : transMat x y * transMat x' y' = transMat (x + x') (y + y') := by
  ext i j; fin_cases i <;> fin_cases j <;> simp [transMat, Matrix.mul_apply, Fin.sum_univ_three, add_comm]

theorem transMat_det (x y : K) : (transMat x y).det = 1 := by
  simp [transMat, Matrix.det_fin_three]

theorem transMat_zero : transMat (0 : K) 0 = 1 := by
  ext i j; fin_cases i <;> fin_cases j <;> simp [transMat]

theorem transMat_inv (x y : K) : (transMat x y)⁻¹ = transMat (-x) (-y) := by
  apply Matrix.inv_eq_right_inv
  rw [transMat_mul]; simp [transMat_zero]

/-- **C14.**  `a.before(b)` has the matrix product `A B`, `a.after(b)` the product `B A`, for every
mix of types. -/
theorem hom_before (a b : LMap K) : hom (before a b) = hom a * hom b := by
  simp only [hom, before, combine]
  cases a.cof <;> cases b.cof <;> simp [Cof.mat3, transMat_mul]

theorem hom_after (a b : LMap K) : hom (after a b) = hom b * hom a := by
  simp only [hom, after, combine]
  cases a.cof <;> cases b.cof <;> simp [Cof.mat3, transMat_mul, add_comm]

/-- **C14.**  Any sequence of compositions has the product of the matrices. -/
theorem hom_sequence (a : LMap K) (l : List (LMap K)) :
    hom (l.foldl before a) = (l.map hom).foldl (· * ·) (hom a) ∧
    hom (l.foldl after a) = (l.map hom).foldl (fun m n => n * m) (hom a) := by
  induction l generalizing a with
  | nil => exact ⟨rfl, rfl⟩
  | cons b l ih =>
    simp only [List.foldl_cons, List.map_cons]
    rw [(ih _).1, (ih _).2, hom_before, hom_after]
    exact ⟨rfl, rfl⟩

/-- **C14.**  The inverse exists exactly for non-singular matrices and has the inverse matrix. -/
theorem inverse_spec (a : LMap K) (h : (hom a).det ≠ 0) :
    ∃ i, inverse a = some i ∧ i.ttype = a.ttype ∧ hom a * hom i = 1 ∧ hom i * hom a = 1 := by
  have hu : IsUnit (hom a).det := isUnit_iff_ne_zero.mpr h
  cases hc : a.cof with
  | vec x y =>
    refine ⟨⟨a.ttype, .vec (-x) (-y)⟩, by simp [inverse, hc], rfl, ?_, ?_⟩ <;>
      simp [hom, hc, Cof.mat3, transMat_mul, transMat_zero]
  | mat m =>
    have hd : m.det ≠ 0 := by simpa [hom, hc, Cof.mat3] using h
    have hu' : IsUnit m.det := isUnit_iff_ne_zero.mpr hd
    refine ⟨⟨a.ttype, .mat m⁻¹⟩, by simp [inverse, hc, npInv, hd], rfl, ?_, ?_⟩
    · simp [hom, hc, Cof.mat3, Matrix.mul_nonsing_inv _ hu']
    · simp [hom, hc, Cof.mat3, Matrix.nonsing_inv_mul _ hu']

theorem inverse_singular (a : LMap K) (h : (hom a).det = 0) : inverse a = none := by
  cases hc : a.cof with
  | vec x y => simp [hom, hc, Cof.mat3, transMat_det] at h
  | mat m =>
    have hd : m.det = 0 := by simpa [hom, hc, Cof.mat3] using h
    simp [inverse, hc, npInv, hd]

/-- **C14.**  `new_frame` conjugates. -/
theorem newFrame_spec (a c : LMap K) (h : (hom c).det ≠ 0) :
    ∃ r, newFrame a c = some r ∧ hom c * hom r = hom a * hom c := by
  obtain ⟨i, h1, _, h3, h4⟩ := inverse_spec c h
  refine ⟨before (before i a) c, by simp [newFrame, h1], ?_⟩
  rw [hom_before, hom_before, ← Matrix.mul_assoc, ← Matrix.mul_assoc, h3, Matrix.one_mul]

/-! ## coordinates -/

theorem applyCof_point (c : Cof K) (x y : K) : applyCof c (point x y) = c.mat3.mulVec (point x y) := by
  cases c with
  | vec a b =>
    ext i; fin_cases i <;> simp [applyCof, Cof.mat3, transMat, point, Matrix.mulVec, dotProduct, Fin.sum_univ_three]
  | mat m => rfl

/-- **C14.**  On points in the plane every type of transformation acts as its matrix: translations
and matrices agree. -/
theorem coordinates_inverse_spec (a : LMap K) (x y : K) :
    transformcoordinatesinverse a (point x y) = (hom a).mulVec (point x y) := applyCof_point _ x y

/-- **C14.**  `transformcoordinates` returns the point mapped back by the matrix. -/
theorem coordinates_spec (a : LMap K) (h : (hom a).det ≠ 0) (x y : K) :
    ∃ q, transformcoordinates a (point x y) = some q ∧ MapsTo (hom a) (point x y) q := by
  cases hc : a.cof with
  | vec u v =>
    refine ⟨applyCof (.vec (-u) (-v)) (point x y), by simp only [transformcoordinates, hc], ?_⟩
    simp only [MapsTo, hom, hc, Cof.mat3]
    ext i; fin_cases i <;> simp [applyCof, transMat, point, Matrix.mulVec, dotProduct, Fin.sum_univ_three]
  | mat m =>
    have hd : m.det ≠ 0 := by simpa [hom, hc, Cof.mat3] using h
    have hu' : IsUnit m.det := isUnit_iff_ne_zero.mpr hd
    refine ⟨applyCof (.mat m⁻¹) (point x y),
      by simp only [transformcoordinates, hc, npInv, hd, if_false, Option.map_some], ?_⟩
    simp [MapsTo, hom, hc, Cof.mat3, applyCof, Matrix.mulVec_mulVec, Matrix.mul_nonsing_inv _ hu']

theorem mulVec_point {m : M3 K} (hm : IsAffine m) (x y : K) :
    m.mulVec (point x y) = point (m 0 0 * x + m 0 1 * y + m 0 2) (m 1 0 * x + m 1 1 * y + m 1 2) := by
  obtain ⟨h1, h2, h3⟩ := hm
  ext i; fin_cases i <;>
    simp [point, Matrix.mulVec, dotProduct, Fin.sum_univ_three, h1, h2, h3]

/-- **C14.**  `a.after(b)` moves points first by `b` and then by `a` (affine transformations). -/
theorem coordinates_after (a b : LMap K) (ha : (hom a).det ≠ 0) (hb : (hom b).det ≠ 0) (x y : K)
    (p : Fin 3 → K) (q : K × K) (hq : transformcoordinates b (point x y) = some (point q.1 q.2))
    (hp : transformcoordinates a (point q.1 q.2) = some p) :
    transformcoordinates (after a b) (point x y) = some p := by
  have hd : (hom (after a b)).det ≠ 0 := by
    rw [hom_after, Matrix.det_mul]; exact mul_ne_zero hb ha
  obtain ⟨q', h1, h2⟩ := coordinates_spec b hb x y
  obtain ⟨p', h3, h4⟩ := coordinates_spec a ha q.1 q.2
  obtain ⟨r, h5, h6⟩ := coordinates_spec (after a b) hd x y
  rw [hq] at h1; rw [hp] at h3
  simp only [Option.some.injEq] at h1 h3
  subst h1 h3
  rw [h5]
  have e : (hom (after a b)).mulVec r = (hom (after a b)).mulVec p := by
    simp only [MapsTo] at h2 h4 h6
    rw [h6, hom_after, ← Matrix.mulVec_mulVec, h4, h2]
  have hu : IsUnit (hom (after a b)).det := isUnit_iff_ne_zero.mpr hd
  have := congrArg ((hom (after a b))⁻¹.mulVec) e
  rw [Matrix.mulVec_mulVec, Matrix.mulVec_mulVec, Matrix.nonsing_inv_mul _ hu, Matrix.one_mulVec,
    Matrix.one_mulVec] at this
  rw [this]

/-- **C14.**  The coordinate transformation of the inverse undoes that of the mapping (affine
mappings). -/
theorem coordinates_inverse (a i : LMap K) (h : (hom a).det ≠ 0) (hi : inverse a = some i) (x y : K)
    (q : K × K) (hq : transformcoordinates a (point x y) = some (point q.1 q.2)) :
    transformcoordinates i (point q.1 q.2) = some (point x y) := by
  obtain ⟨i', h1, _, h3, h4⟩ := inverse_spec a h
  rw [hi] at h1; simp only [Option.some.injEq] at h1; subst h1
  have hdi : (hom i).det ≠ 0 := by
    intro h0
    have := congrArg Matrix.det h4
    rw [Matrix.det_mul, h0, zero_mul, Matrix.det_one] at this
    exact zero_ne_one this
  obtain ⟨q', g1, g2⟩ := coordinates_spec a h x y
  obtain ⟨r, g3, g4⟩ := coordinates_spec i hdi q.1 q.2
  rw [hq] at g1; simp only [Option.some.injEq] at g1; subst g1
  rw [g3]
  simp only [MapsTo] at g2 g4
  have := congrArg ((hom a).mulVec) g4
  rw [Matrix.mulVec_mulVec, h3, Matrix.one_mulVec, g2] at this
  rw [this]

/-! ## types keep their promises -/

theorem wf_combine (a b : LMap K) (r : Bool) : WF (combine a b r) := by
  simp only [WF, combine]
  cases a.cof <;> cases b.cof <;> simp only [combineType] <;> (repeat' split) <;> simp_all

theorem isAffine_mul {m n : M3 K} (hm : IsAffine m) (hn : IsAffine n) : IsAffine (m * n) := by
  obtain ⟨a1, a2, a3⟩ := hm
  obtain ⟨b1, b2, b3⟩ := hn
  refine ⟨?_, ?_, ?_⟩ <;> simp [Matrix.mul_apply, Fin.sum_univ_three, a1, a2, a3, b1, b2, b3]

theorem isAffine_trans (x y : K) : IsAffine (transMat x y) := by
  refine ⟨?_, ?_, ?_⟩ <;> simp [transMat]

/-- Every promise implies the promise of a more general type. -/
theorem promises_mono {m : M3 K} : (Promises .translation m → Promises .rigid m) ∧
    (Promises .rigid m → Promises .similarity m) ∧ (Promises .similarity m → Promises .affine m) ∧
    (Promises .affine m → Promises .projective m) := by
  refine ⟨?_, ?_, ?_, ?_⟩
  · rintro ⟨h, x, y, rfl⟩
    refine ⟨h, isAffine_trans x y, ?_, ?_, ?_⟩ <;> simp [transMat]
  · rintro ⟨h, h1, h2, h3, h4⟩
    exact ⟨h, h1, by rw [h2, h3], h4⟩
  · rintro ⟨h, h1, h2, h3⟩
    exact ⟨h, h1⟩
  · rintro ⟨h, h1⟩
    exact ⟨h, trivial⟩

/-- Each type is closed under products. -/
theorem promises_mul (t : TType) {m n : M3 K} (hm : Promises t m) (hn : Promises t n) :
    Promises t (m * n) := by
  obtain ⟨dm, hm⟩ := hm
  obtain ⟨dn, hn⟩ := hn
  refine ⟨by rw [Matrix.det_mul]; exact mul_ne_zero dm dn, ?_⟩
  cases t with
  | translation =>
    obtain ⟨x, y, rfl⟩ := hm
    obtain ⟨x', y', rfl⟩ := hn
    exact ⟨_, _, transMat_mul x y x' y'⟩
  | rigid =>
    obtain ⟨am, h1, h2, h3⟩ := hm
    obtain ⟨an, g1, g2, g3⟩ := hn
    obtain ⟨b1, b2, b3⟩ := an
    refine ⟨isAffine_mul am ⟨b1, b2, b3⟩, ?_, ?_, ?_⟩ <;>
      simp only [Matrix.mul_apply, Fin.sum_univ_three, b1, b2, mul_zero, add_zero]
    · linear_combination (n 0 0)^2 * h1 + (n 1 0)^2 * h2 + 2 * (n 0 0) * (n 1 0) * h3 + g1
    · linear_combination (n 0 1)^2 * h1 + (n 1 1)^2 * h2 + 2 * (n 0 1) * (n 1 1) * h3 + g2
    · linear_combination (n 0 0) * (n 0 1) * h1 + (n 1 0) * (n 1 1) * h2 +
        ((n 0 0) * (n 1 1) + (n 1 0) * (n 0 1)) * h3 + g3
  | similarity =>
    obtain ⟨am, h1, h3⟩ := hm
    obtain ⟨an, g1, g3⟩ := hn
    obtain ⟨b1, b2, b3⟩ := an
    refine ⟨isAffine_mul am ⟨b1, b2, b3⟩, ?_, ?_⟩ <;>
      simp only [Matrix.mul_apply, Fin.sum_univ_three, b1, b2, mul_zero, add_zero]
    · linear_combination ((n 0 0)^2 - (n 0 1)^2) * h1 + 2 * ((n 0 0) * (n 1 0) - (n 0 1) * (n 1 1)) * h3 +
        ((m 0 1)^2 + (m 1 1)^2) * g1
    · linear_combination (n 0 0) * (n 0 1) * h1 + ((n 0 0) * (n 1 1) + (n 1 0) * (n 0 1)) * h3 +
        ((m 0 1)^2 + (m 1 1)^2) * g3
  | affine => exact isAffine_mul hm hn
  | projective => trivial

theorem promises_left {s t : TType} {m : M3 K} (h : Promises s m) : Promises (combineType s t) m := by
  obtain ⟨a, b, c, d⟩ := promises_mono (m := m)
  cases s <;> cases t <;> simp only [combineType, reduceCtorEq, or_self, or_true, true_or, if_true, if_false]
  all_goals first
    | exact h
    | exact a h
    | exact b h
    | exact c h
    | exact d h
    | exact b (a h)
    | exact c (b h)
    | exact d (c h)
    | exact c (b (a h))
    | exact d (c (b h))
    | exact d (c (b (a h)))

theorem combineType_comm (s t : TType) : combineType s t = combineType t s := by
  cases s <;> cases t <;> rfl

theorem promises_right {s t : TType} {m : M3 K} (h : Promises t m) : Promises (combineType s t) m := by
  rw [combineType_comm]; exact promises_left h

/-- **C14.**  The type computed for a composition is right: whenever the matrices are of the types
of the two mappings, the product is of the type of the result. -/
theorem combine_type (a b : LMap K) (r : Bool) (wa : WF a) (wb : WF b) (ha : Promises a.ttype (hom a))
    (hb : Promises b.ttype (hom b)) : Promises (combine a b r).ttype (hom (combine a b r)) := by
  have hh : hom (combine a b r) = if r then hom a * hom b else hom b * hom a := by
    cases r
    · exact hom_after a b
    · exact hom_before a b
  have key : ∀ t, Promises t (hom a) → Promises t (hom b) → Promises t (hom (combine a b r)) := by
    intro t h1 h2
    rw [hh]
    split
    · exact promises_mul t h1 h2
    · exact promises_mul t h2 h1
  cases hca : a.cof <;> cases hcb : b.cof
  · simp only [WF, hca, hcb] at wa wb
    have : (combine a b r).ttype = .translation := by simp [combine, hca, hcb]
    rw [this]
    rw [wa] at ha; rw [wb] at hb
    exact key _ ha hb
  all_goals
    have ht : (combine a b r).ttype = combineType a.ttype b.ttype := by simp [combine, hca, hcb]
    rw [ht]
    exact key _ (promises_left ha) (promises_right hb)

/-- **C14.**  Inversion keeps the type's promise as well. -/
theorem inverse_type (a i : LMap K) (ha : Promises a.ttype (hom a)) (hi : inverse a = some i) :
    Promises i.ttype (hom i) := by
  obtain ⟨i', h1, ht, h3, h4⟩ := inverse_spec a ha.1
  rw [hi] at h1; simp only [Option.some.injEq] at h1; subst h1
  rw [ht]
  have hdi : (hom i).det ≠ 0 := by
    intro h0
    have := congrArg Matrix.det h4
    rw [Matrix.det_mul, h0, zero_mul, Matrix.det_one] at this
    exact zero_ne_one this
  generalize hom i = n at *
  generalize hom a = m at *
  refine ⟨hdi, ?_⟩
  have e : ∀ i j, (n * m) i j = (1 : M3 K) i j := fun i j => by rw [h4]
  have e' : ∀ i j, (m * n) i j = (1 : M3 K) i j := fun i j => by rw [h3]
  have aff : IsAffine m → IsAffine n := by
    rintro ⟨a1, a2, a3⟩
    have r0 := e' 2 0; have r1 := e' 2 1; have r2 := e' 2 2
    simp only [Matrix.mul_apply, Fin.sum_univ_three, a1, a2, a3, zero_mul, one_mul, zero_add] at r0 r1 r2
    exact ⟨by rw [r0]; simp, by rw [r1]; simp, by rw [r2]; simp⟩
  obtain ⟨hdm, ha⟩ := ha
  revert ha
  cases a.ttype <;> intro ha
  case translation =>
    obtain ⟨x, y, rfl⟩ := ha
    refine ⟨-x, -y, ?_⟩
    rw [← transMat_inv]
    exact (Matrix.inv_eq_right_inv h3).symm
  case rigid =>
    obtain ⟨am, h1, h2, h3'⟩ := ha
    have an := aff am
    obtain ⟨b1, b2, b3⟩ := an
    obtain ⟨a1, a2, a3⟩ := am
    have p00 := e 0 0; have p01 := e 0 1; have p10 := e 1 0; have p11 := e 1 1
    have q00 := e' 0 0; have q01 := e' 0 1; have q10 := e' 1 0; have q11 := e' 1 1
    simp only [Matrix.mul_apply, Fin.sum_univ_three, a1, a2, b1, b2, mul_zero, add_zero] at p00 p01 p10 p11 q00 q01 q10 q11
    simp at p00 p01 p10 p11 q00 q01 q10 q11
    -- the inverse is the transpose
    have t00 : n 0 0 = m 0 0 := by linear_combination (m 0 0) * q00 - (n 0 0) * h1 - (n 1 0) * h3' + (m 1 0) * q10
    have t01 : n 0 1 = m 1 0 := by linear_combination (m 0 0) * q01 - (n 0 1) * h1 - (n 1 1) * h3' + (m 1 0) * q11
    have t10 : n 1 0 = m 0 1 := by linear_combination (m 0 1) * q00 - (n 1 0) * h2 - (n 0 0) * h3' + (m 1 1) * q10
    have t11 : n 1 1 = m 1 1 := by linear_combination (m 0 1) * q01 - (n 1 1) * h2 - (n 0 1) * h3' + (m 1 1) * q11
    simp only [t00, t01, t10, t11] at q00 q01 q11
    refine ⟨⟨b1, b2, b3⟩, ?_, ?_, ?_⟩ <;> simp only [t00, t01, t10, t11]
    · linear_combination q00
    · linear_combination q11
    · linear_combination q01
  case similarity =>
    obtain ⟨am, h2, h3'⟩ := ha
    have an := aff am
    obtain ⟨b1, b2, b3⟩ := an
    obtain ⟨a1, a2, a3⟩ := am
    have p00 := e 0 0; have p01 := e 0 1; have p10 := e 1 0; have p11 := e 1 1
    have q00 := e' 0 0; have q01 := e' 0 1; have q10 := e' 1 0; have q11 := e' 1 1
    simp only [Matrix.mul_apply, Fin.sum_univ_three, a1, a2, b1, b2, mul_zero, add_zero] at p00 p01 p10 p11 q00 q01 q10 q11
    simp at p00 p01 p10 p11 q00 q01 q10 q11
    obtain ⟨s, hs⟩ : ∃ s, s = m 0 0 ^ 2 + m 1 0 ^ 2 := ⟨_, rfl⟩
    rw [← hs] at h2
    have t00 : s * n 0 0 = m 0 0 := by linear_combination (m 0 0) * q00 - (n 1 0) * h3' + (m 1 0) * q10 + (n 0 0) * hs
    have t01 : s * n 0 1 = m 1 0 := by linear_combination (m 0 0) * q01 - (n 1 1) * h3' + (m 1 0) * q11 + (n 0 1) * hs
    have t10 : s * n 1 0 = m 0 1 := by linear_combination (m 0 1) * q00 + (n 1 0) * h2 - (n 0 0) * h3' + (m 1 1) * q10
    have t11 : s * n 1 1 = m 1 1 := by linear_combination (m 0 1) * q01 + (n 1 1) * h2 - (n 0 1) * h3' + (m 1 1) * q11
    have hs0 : s ≠ 0 := by
      intro h0
      rw [h0, zero_mul] at t00 t01
      rw [← t00, ← t01] at p00
      simp at p00
    refine ⟨⟨b1, b2, b3⟩, ?_, ?_⟩
    · apply mul_left_cancel₀ (pow_ne_zero 2 hs0)
      have u : s ^ 2 * (n 0 0 ^ 2 + n 1 0 ^ 2) = s := by
        linear_combination (s * n 0 0) * t00 + (s * n 1 0) * t10 + s * q00
      have v : s ^ 2 * (n 0 1 ^ 2 + n 1 1 ^ 2) = s := by
        linear_combination (s * n 0 1) * t01 + (s * n 1 1) * t11 + s * q11
      rw [u, v]
    · apply mul_left_cancel₀ hs0
      linear_combination (n 0 1) * t00 + (n 1 1) * t10 + q01
  case affine => exact aff ha
  case projective => trivial

/-! ## images -/

/-- **C14 (partial: equal diagonal coefficients).**  The image is sampled where the coordinate map
says, for translations and for affine mappings whose linear part has equal diagonal elements
(rotations, uniform scaling). -/
theorem samplePoint_partial (a : LMap K) (h : IsAffine (hom a)) (hd : hom a 0 0 = hom a 1 1) (y x : K) :
    ∃ v u, samplePoint a y x = some (v, u) ∧ transformcoordinatesinverse a (point x y) = point u v := by
  cases hc : a.cof with
  | vec tx ty =>
    refine ⟨y - -ty, x - -tx, by simp [samplePoint, hc], ?_⟩
    ext i; fin_cases i <;> simp [transformcoordinatesinverse, applyCof, hc, point]
  | mat m =>
    simp only [hom, hc, Cof.mat3] at h hd
    have e : transformcoordinatesinverse a (point x y) =
        point (m 0 0 * x + m 0 1 * y + m 0 2) (m 1 0 * x + m 1 1 * y + m 1 2) := by
      rw [coordinates_inverse_spec]; simp only [hom, hc, Cof.mat3]; exact mulVec_point h x y
    simp only [samplePoint, hc]
    by_cases h1 : m = 1
    · refine ⟨y, x, by simp [h1], ?_⟩
      rw [e, h1]; simp
    · by_cases h2 : m 0 0 = 1 ∧ m 0 1 = 0 ∧ m 1 0 = 0 ∧ m 1 1 = 1
      · refine ⟨y - -(m 1 2), x - -(m 0 2), by rw [if_neg h1, if_pos h2], ?_⟩
        obtain ⟨g1, g2, g3, g4⟩ := h2
        rw [e, g1, g2, g3, g4]
        congr 1 <;> ring
      · refine ⟨m 0 0 * y + m 1 0 * x + m 1 2, m 0 1 * y + m 1 1 * x + m 0 2,
          by rw [if_neg h1, if_neg h2, if_pos ⟨h.1, h.2.1⟩], ?_⟩
        rw [e, hd]
        congr 1 <;> ring

/-- **C14 (deviation).**  For other affine mappings rows and columns are mixed up: a mapping that
stretches `x` stretches the image along `y`. -/
theorem samplePoint_wrong : ∃ a : LMap ℚ, Promises .affine (hom a) ∧ a.ttype = .affine ∧
    samplePoint a 0 1 = some (0, 1) ∧ transformcoordinatesinverse a (point 1 0) = point 2 0 := by
  refine ⟨⟨.affine, .mat !![2, 0, 0; 0, 1, 0; 0, 0, 1]⟩, ⟨?_, ?_, ?_, ?_⟩, rfl, ?_, ?_⟩
  · simp [hom, Cof.mat3, Matrix.det_fin_three]
  · simp [hom, Cof.mat3]
  · simp [hom, Cof.mat3]
  · simp [hom, Cof.mat3]
  · simp only [samplePoint]
    rw [if_neg, if_neg, if_pos]
    · simp
    · simp
    · simp
    · intro h
      have := congrFun (congrFun h 0) 0
      simp at this
  · ext i; fin_cases i <;> simp [transformcoordinatesinverse, applyCof, point, Matrix.mulVec, dotProduct, Fin.sum_univ_three]

/-- **C14 (deviation).**  The projective part is ignored when the linear part is the identity. -/
theorem samplePoint_projective_ignored (p tx ty y x : K) (hp : p ≠ 0) :
    samplePoint ⟨.projective, .mat !![1, 0, tx; 0, 1, ty; p, 0, 1]⟩ y x = some (y + ty, x + tx) := by
  simp only [samplePoint]
  rw [if_neg, if_pos]
  · simp
  · simp
  · intro h
    have := congrFun (congrFun h 2) 0
    simp at this
    exact hp this

/-! ## in place -/

/-- **C14.**  In-place composition leaves the object with the value of the composition and does not
touch objects with other arrays. -/
theorem dotinplace_spec (h : Heap K) (fresh : Nat) (a c : Obj) (right : Bool) :
    (dotinplace h fresh a c right).2.val (dotinplace h fresh a c right).1 = combine (a.val h) (c.val h) right ∧
    ∀ o : Obj, o.ref ≠ a.ref → o.ref ≠ fresh → o.val (dotinplace h fresh a c right).1 = o.val h := by
  constructor
  · simp only [dotinplace]
    split <;> simp [Obj.val, Heap.set]
  · intro o h1 h2
    simp only [dotinplace]
    split <;> simp [Obj.val, Heap.set, h1, h2]

/-- **C14.**  `new_frame_inplace` agrees with `new_frame` when the two objects do not share their
array. -/
theorem newFrameInplace_spec (h : Heap K) (i fresh fresh' : Nat) (a c : Obj) (hac : c.ref ≠ a.ref)
    (hi : i ≠ a.ref ∧ i ≠ c.ref) (hf : fresh ≠ c.ref) (hd : (hom (c.val h)).det ≠ 0) :
    ∃ r, newFrameInplace h i fresh fresh' a c = some r ∧ newFrame (a.val h) (c.val h) = some (r.2.val r.1) := by
  obtain ⟨ci, h1, _⟩ := inverse_spec (c.val h) hd
  have hne : c ≠ a := fun e => hac (by rw [e])
  refine ⟨_, by rw [newFrameInplace, h1]; rfl, ?_⟩
  simp only [hne, if_false]
  rw [(dotinplace_spec _ _ _ _ _).1, (dotinplace_spec _ _ _ _ _).1,
    (dotinplace_spec _ _ _ _ _).2 c hac (Ne.symm hf)]
  have e1 : a.val (h.set i ci.cof) = a.val h := by simp [Obj.val, Heap.set, Ne.symm hi.1]
  have e2 : c.val (h.set i ci.cof) = c.val h := by simp [Obj.val, Heap.set, Ne.symm hi.2]
  have e3 : Obj.val (h.set i ci.cof) ⟨ci.ttype, i⟩ = ci := by simp [Obj.val, Heap.set]
  rw [e1, e2, e3]
  simp only [newFrame, h1, Option.map_some, Option.some.injEq]
  have comm : before ci (a.val h) = combine (a.val h) ci false := by
    simp only [before, combine]
    cases hx : (a.val h).cof <;> cases hy : ci.cof <;> simp [combineType_comm, add_comm]
  rw [comm]; rfl

/-- **C14 (deviation).**  With the object itself as frame, `new_frame_inplace` gives the identity
instead of the mapping. -/
theorem newFrameInplace_self (h : Heap K) (i fresh fresh' : Nat) (a : Obj) (hi : i ≠ a.ref)
    (hd : (hom (a.val h)).det ≠ 0) :
    ∃ r, newFrameInplace h i fresh fresh' a a = some r ∧ hom (r.2.val r.1) = 1 ∧
    ∃ b, newFrame (a.val h) (a.val h) = some b ∧ hom b = hom (a.val h) := by
  obtain ⟨ai, h1, _, h3, h4⟩ := inverse_spec (a.val h) hd
  refine ⟨_, by rw [newFrameInplace, h1]; rfl, ?_, ?_⟩
  · simp only [if_true]
    rw [(dotinplace_spec _ _ _ _ _).1]
    have hb : ∀ p q : LMap K, combine p q true = before p q := fun _ _ => rfl
    have ha : ∀ p q : LMap K, combine p q false = after p q := fun _ _ => rfl
    rw [hb, hom_before, (dotinplace_spec _ _ _ _ _).1, ha, hom_after]
    have e1 : a.val (h.set i ai.cof) = a.val h := by simp [Obj.val, Heap.set, Ne.symm hi]
    have e3 : Obj.val (h.set i ai.cof) ⟨ai.ttype, i⟩ = ai := by simp [Obj.val, Heap.set]
    rw [e1, e3, h4, Matrix.one_mul]
  · obtain ⟨b, h5, h6⟩ := newFrame_spec (a.val h) (a.val h) hd
    refine ⟨b, h5, ?_⟩
    have := congrArg (hom ai * ·) h6
    simp only [← Matrix.mul_assoc, h4, Matrix.one_mul] at this
    exact this

/-- **C14 (deviation).**  A copy is not independent: setting the translation of the copy changes
the original. -/
theorem copy_shares (h : Heap K) (o : Obj) (x y : K) :
    gettranslation (o.val (settranslationObj h o.copy x y)) = (x, y) := by
  simp only [settranslationObj, Obj.copy, Obj.val, Heap.set, if_true, settranslation]
  cases h o.ref <;> simp [gettranslation, setCol]

/-! ## setters and getters -/

/-- **C14.**  Setting the translation or the linear part is read back and leaves the rest. -/
theorem settranslation_get (s : LMap K) (x y : K) :
    gettranslation (settranslation s x y) = (x, y) ∧ getlinear (settranslation s x y) = getlinear s ∧
    (settranslation s x y).ttype = s.ttype := by
  simp only [settranslation]
  cases hc : s.cof <;> simp [gettranslation, getlinear, setCol, hc]

theorem setlinear_get (s : LMap K) (a b c d : K) :
    getlinear (setlinear s a b c d) = (a, b, c, d) ∧ gettranslation (setlinear s a b c d) = gettranslation s := by
  simp only [setlinear]
  cases hc : s.cof <;> simp [gettranslation, getlinear, setLin, setCol, hc]

/-- **C14 (deviation).**  `getaffine` does not return what `setaffine` stored: it returns the first
two columns. -/
theorem getaffine_wrong (m : M3 K) (a : Matrix (Fin 2) (Fin 3) K) :
    getaffine (setaffine ⟨.affine, .mat m⟩ a) = [[a 0 0, a 0 1], [a 1 0, a 1 1], [m 2 0, m 2 1]] := by
  simp [getaffine, setaffine]

/-- **C14 (deviation).**  `setprojective` keeps the type of a rigid mapping, which is then wrong. -/
theorem setprojective_type_wrong : ∃ (s : LMap ℚ) (m : M3 ℚ), Promises s.ttype (hom s) ∧ m.det ≠ 0 ∧
    hom (setprojective s m) = m ∧ ¬ Promises (setprojective s m).ttype (hom (setprojective s m)) := by
  refine ⟨⟨.rigid, .mat 1⟩, !![1, 0, 0; 0, 1, 0; 1, 0, 1], ⟨?_, ⟨?_, ?_, ?_⟩, ?_, ?_, ?_⟩, ?_, rfl, ?_⟩
  any_goals simp [hom, Cof.mat3, Matrix.det_fin_three]
  intro h
  have := h.2.1.1
  simp [setprojective] at this

/-- **C14 (deviation).**  `setrigid` fails on a translation, after erasing it. -/
theorem setrigid_translation (x y c t u v : K) :
    setrigid ⟨.translation, .vec x y⟩ c t u v = (⟨.translation, .vec 0 0⟩, false) := rfl

/-- **C14 (deviation).**  `fromtransform` between a translation and another type fails after the
type has been changed: the object no longer has the form of its type. -/
theorem fromtransform_broken (x y : K) (t : TType) (m : M3 K) (ht : t ≠ .translation) :
    (fromtransform ⟨.translation, .vec x y⟩ ⟨t, .mat m⟩).2 = false ∧
    ¬ WF (fromtransform ⟨.translation, .vec x y⟩ ⟨t, .mat m⟩).1 := by
  simp [fromtransform, WF, ht]

/-- **C14 (deviation).**  On homogeneous points with last coordinate other than 1 a translation
moves differently from its matrix. -/
theorem translation_homogeneous : ∃ (a : LMap ℚ) (p : Fin 3 → ℚ), transformcoordinatesinverse a p ≠ (hom a).mulVec p := by
  refine ⟨⟨.translation, .vec 1 0⟩, ![0, 0, 2], ?_⟩
  intro h
  have := congrFun h 0
  simp [transformcoordinatesinverse, applyCof, hom, Cof.mat3, transMat, Matrix.mulVec, dotProduct, Fin.sum_univ_three] at this

/-! ## concrete cases -/

/-- a rotation by 90 degrees with a translation -/
def rot : LMap ℚ := ⟨.rigid, .mat !![0, -1, 3; 1, 0, 5; 0, 0, 1]⟩
def tra : LMap ℚ := ⟨.translation, .vec 2 7⟩

theorem rot_promises : Promises rot.ttype (hom rot) := by
  refine ⟨?_, ⟨?_, ?_, ?_⟩, ?_, ?_, ?_⟩ <;> simp [rot, hom, Cof.mat3, Matrix.det_fin_three]

theorem tra_promises : Promises tra.ttype (hom tra) :=
  ⟨by simp [tra, hom, Cof.mat3, transMat_det], 2, 7, rfl⟩

example : WF rot ∧ WF tra := ⟨by simp [WF, rot], by simp [WF, tra]⟩
example : Promises .rigid (hom (after rot tra)) := by
  have := combine_type rot tra false (by simp [WF, rot]) (by simp [WF, tra]) rot_promises tra_promises
  simpa [combine, rot, tra, combineType, after] using this
example : hom (after rot tra) = !![0, -1, 5; 1, 0, 12; 0, 0, 1] := by
  rw [hom_after]; ext i j; fin_cases i <;> fin_cases j <;>
    simp [rot, tra, hom, Cof.mat3, transMat, Matrix.mul_apply, Fin.sum_univ_three] <;> norm_num
example : hom (before rot tra) = !![0, -1, -4; 1, 0, 7; 0, 0, 1] := by
  rw [hom_before]; ext i j; fin_cases i <;> fin_cases j <;>
    simp [rot, tra, hom, Cof.mat3, transMat, Matrix.mul_apply, Fin.sum_univ_three] <;> norm_num
example : transformcoordinates tra (point 4 4) = some (point 2 (-3)) := by
  simp only [transformcoordinates, tra, applyCof, Option.some.injEq]
  ext i; fin_cases i <;> simp [point] <;> norm_num
example : ∃ v u, samplePoint rot 1 2 = some (v, u) ∧ transformcoordinatesinverse rot (point 2 1) = point u v :=
  samplePoint_partial rot (by have := rot_promises; exact this.2.1) (by simp [rot, hom, Cof.mat3]) 1 2

end SC.Transform
