import Verif.LineShape.Spec
import Verif.Fit.Cramer
import Mathlib.Tactic.Ring
import Mathlib.Tactic.FieldSimp
import Mathlib.Tactic.Linarith
import Mathlib.Tactic.Positivity
import Mathlib.Tactic.LinearCombination
/-! # Lemmas about the conversion of line shapes -/
namespace SC.LineShape
open SC.Fit Matrix
variable {K : Type} [Field K] [LinearOrder K] [IsStrictOrderedRing K]

theorem wpeak_proper {w : Three K} (h : Proper w) : wpeak w = .ok (1 - (w.s + w.l + w.p)) := by
  obtain ⟨⟨h1, h2, h3⟩, h4⟩ := h
  have a : ¬ (w.s + w.l + w.p < -(1 / 10000) ∨ 1 + 1 / 10000 < w.s + w.l + w.p) := by
    rintro (h | h)
    · have : (0 : K) < 1 / 10000 := by positivity
      linarith
    · have : (0 : K) < 1 / 10000 := by positivity
      linarith
  simp only [wpeak, if_neg a]
  congr 1
  rw [max_eq_left (by linarith), min_eq_left (by linarith)]

theorem areas_ratiosSingle (N : Norms K) {u st lt : K} (hN : N.Pos u) (hs : 0 < st) (hl : 0 < lt)
    (w : Three K) {wp : K} (hw : wp ≠ 0) :
    areas N u st lt (ratiosSingle wp w (consts N u st lt)) = ⟨w.s / wp, w.l / wp, w.p / wp⟩ := by
  have h1 := (hN.tnorm st hs).ne'
  have h2 := (hN.tnorm lt hl).ne'
  have h3 := hN.gnorm.ne'
  have h4 := hN.snorm.ne'
  have h5 := hs.ne'
  have h6 := hl.ne'
  simp only [areas, ratiosSingle, if_neg hw, consts, Three.mk.injEq]
  refine ⟨?_, ?_, ?_⟩
  · field_simp
  · field_simp
  · field_simp

theorem fractions_of_areas {w : Three K} (h : Proper w) :
    AreFractions ⟨w.s / (1 - (w.s + w.l + w.p)), w.l / (1 - (w.s + w.l + w.p)), w.p / (1 - (w.s + w.l + w.p))⟩ w := by
  obtain ⟨⟨h1, h2, h3⟩, h4⟩ := h
  have hp : (1 - (w.s + w.l + w.p)) ≠ 0 := by linarith
  have hd : 1 + (w.s / (1 - (w.s + w.l + w.p)) + w.l / (1 - (w.s + w.l + w.p)) + w.p / (1 - (w.s + w.l + w.p)))
      = 1 / (1 - (w.s + w.l + w.p)) := by
    field_simp
    ring
  refine ⟨?_, ?_, ?_⟩ <;> rw [hd] <;> field_simp

theorem areas_unique {a b w : Three K} (ha : AreFractions a w) (hb : AreFractions b w)
    (ha0 : 0 < 1 + (a.s + a.l + a.p)) (hb0 : 0 < 1 + (b.s + b.l + b.p)) : a = b := by
  obtain ⟨a1, a2, a3⟩ := ha
  obtain ⟨b1, b2, b3⟩ := hb
  obtain ⟨A, hA⟩ : ∃ A, A = 1 + (a.s + a.l + a.p) := ⟨_, rfl⟩
  obtain ⟨B, hB⟩ : ∃ B, B = 1 + (b.s + b.l + b.p) := ⟨_, rfl⟩
  rw [← hA] at a1 a2 a3 ha0
  rw [← hB] at b1 b2 b3 hb0
  have e1 : w.s + w.l + w.p = 1 - 1 / A := by
    rw [a1, a2, a3]
    field_simp
    linear_combination -hA
  have e2 : w.s + w.l + w.p = 1 - 1 / B := by
    rw [b1, b2, b3]
    field_simp
    linear_combination -hB
  have hAB : A = B := by
    have : 1 / A = 1 / B := by linarith
    rw [one_div, one_div] at this
    exact inv_injective this
  subst hAB
  have hne := ha0.ne'
  have f1 : a.s = b.s := by
    have := a1.symm.trans b1
    rwa [div_left_inj' hne] at this
  have f2 : a.l = b.l := by
    have := a2.symm.trans b2
    rwa [div_left_inj' hne] at this
  have f3 : a.p = b.p := by
    have := a3.symm.trans b3
    rwa [div_left_inj' hne] at this
  cases a
  cases b
  simp_all

theorem areFractions_unique {a w w' : Three K} (h : AreFractions a w) (h' : AreFractions a w') : w = w' := by
  obtain ⟨a1, a2, a3⟩ := h
  obtain ⟨b1, b2, b3⟩ := h'
  cases w
  cases w'
  simp only at a1 a2 a3 b1 b2 b3
  rw [a1, a2, a3, b1, b2, b3]

theorem areas_nonneg (N : Norms K) {u st lt : K} (hN : N.Pos u) (hs : 0 < st) (hl : 0 < lt) {r : Three K}
    (hr : r.Nonneg) : (areas N u st lt r).Nonneg := by
  obtain ⟨r1, r2, r3⟩ := hr
  have h1 := hN.tnorm st hs
  have h2 := hN.tnorm lt hl
  have h3 := hN.gnorm
  have h4 := hN.snorm
  refine ⟨?_, ?_, ?_⟩
  · show 0 ≤ r.s / st * N.tnorm u st
    positivity
  · show 0 ≤ r.l / lt * N.tnorm u lt
    positivity
  · show 0 ≤ r.p * (1 / N.gnorm u) * N.snorm u
    positivity

theorem areas_inj (N : Norms K) {u st lt : K} (hN : N.Pos u) (hs : 0 < st) (hl : 0 < lt) {r r' : Three K}
    (h : areas N u st lt r = areas N u st lt r') : r = r' := by
  have h1 := (hN.tnorm st hs).ne'
  have h2 := (hN.tnorm lt hl).ne'
  have h3 := hN.gnorm.ne'
  have h4 := hN.snorm.ne'
  simp only [areas, Three.mk.injEq] at h
  obtain ⟨e1, e2, e3⟩ := h
  have f1 : r.s = r'.s := by
    have := mul_right_cancel₀ h1 e1
    rwa [div_left_inj' hs.ne'] at this
  have f2 : r.l = r'.l := by
    have := mul_right_cancel₀ h2 e2
    rwa [div_left_inj' hl.ne'] at this
  have f3 : r.p = r'.p := by
    have := mul_right_cancel₀ h4 e3
    exact mul_right_cancel₀ (one_div_ne_zero h3) this
  cases r
  cases r'
  simp_all

theorem fractions_proper {a w : Three K} (ha : a.Nonneg) (h : AreFractions a w) : Proper w := by
  obtain ⟨h1, h2, h3⟩ := ha
  obtain ⟨e1, e2, e3⟩ := h
  have hp : 0 < 1 + (a.s + a.l + a.p) := by linarith
  refine ⟨⟨by rw [e1]; positivity, by rw [e2]; positivity, by rw [e3]; positivity⟩, ?_⟩
  rw [e1, e2, e3, ← add_div, ← add_div, div_lt_one hp]
  linarith

theorem fractionsSingle_peak (r c : Three K) (hr : r.Nonneg) (h1 : 0 < c.s) (h2 : 0 < c.l) (h3 : 0 < c.p) :
    ∃ w, fractionsSingle true r c = .ok w ∧ AreFractions ⟨r.s / c.s, r.l / c.l, r.p / c.p⟩ w := by
  obtain ⟨r1, r2, r3⟩ := hr
  obtain ⟨S, hS⟩ : ∃ S, S = 1 + (r.s / c.s + r.l / c.l + r.p / c.p) := ⟨_, rfl⟩
  have hS0 : 0 < S := by rw [hS]; positivity
  have hSe : S * (c.s * c.l * c.p) = c.s * c.l * c.p + r.s * c.l * c.p + r.l * c.s * c.p + r.p * c.s * c.l := by
    rw [hS]
    field_simp
    ring
  obtain ⟨A, hA⟩ : ∃ A : Matrix (Fin 3) (Fin 3) K, A = !![r.s + c.s, r.s, r.s; r.l, r.l + c.l, r.l; r.p, r.p, r.p + c.p] := ⟨_, rfl⟩
  have hdet : A.det ≠ 0 := by
    have : A.det = S * (c.s * c.l * c.p) := by
      rw [hSe, hA, det_fin_three]
      simp
      ring
    rw [this]
    positivity
  have hsol : A *ᵥ ![r.s / c.s / S, r.l / c.l / S, r.p / c.p / S] = ![r.s, r.l, r.p] := by
    have hS1 : r.s / c.s / S + r.l / c.l / S + r.p / c.p / S = 1 - 1 / S := by
      rw [← add_div, ← add_div]
      field_simp
      rw [hS]
      field_simp
      ring
    have hone : 1 / S * S = 1 := one_div_mul_cancel hS0.ne'
    have row : ∀ r' c' q : K, 0 < c' → q = r' / c' / S →
        r' * (r.s / c.s / S + r.l / c.l / S + r.p / c.p / S) + c' * q = r' := by
      intro r' c' q hc hq
      rw [hS1, hq]
      field_simp
      ring
    have e1 := row r.s c.s _ h1 rfl
    have e2 := row r.l c.l _ h2 rfl
    have e3 := row r.p c.p _ h3 rfl
    rw [hA]
    funext i
    fin_cases i
    · simp only [mulVec, dotProduct, Fin.sum_univ_three]
      simp
      linear_combination e1
    · simp only [mulVec, dotProduct, Fin.sum_univ_three]
      simp
      linear_combination e2
    · simp only [mulVec, dotProduct, Fin.sum_univ_three]
      simp
      linear_combination e3
  have hx := (cramer_solves A ![r.s, r.l, r.p] _ hdet).mp hsol
  have hc : cramer id A ![r.s, r.l, r.p] = .ok ![r.s / c.s / S, r.l / c.l / S, r.p / c.p / S] := by
    rw [cramer_square, if_neg hdet, ← hx]
  refine ⟨⟨r.s / c.s / S, r.l / c.l / S, r.p / c.p / S⟩, ?_, ?_⟩
  · simp only [fractionsSingle, if_true, ← hA, hc]
    rfl
  · simp only [AreFractions, ← hS, and_self]

theorem consts_pos (N : Norms K) {u st lt : K} (hN : N.Pos u) (hs : 0 < st) (hl : 0 < lt) :
    0 < (consts N u st lt).s ∧ 0 < (consts N u st lt).l ∧ 0 < (consts N u st lt).p :=
  ⟨div_pos hs (hN.tnorm st hs), div_pos hl (hN.tnorm lt hl), div_pos hN.gnorm hN.snorm⟩

theorem areas_eq (N : Norms K) {u st lt : K} (hN : N.Pos u) (hs : 0 < st) (hl : 0 < lt) (r : Three K) :
    (⟨r.s / (consts N u st lt).s, r.l / (consts N u st lt).l, r.p / (consts N u st lt).p⟩ : Three K)
      = areas N u st lt r := by
  have h1 := (hN.tnorm st hs).ne'
  have h2 := (hN.tnorm lt hl).ne'
  have h3 := hN.gnorm.ne'
  have h4 := hN.snorm.ne'
  simp only [areas, consts, Three.mk.injEq]
  refine ⟨?_, ?_, ?_⟩
  · field_simp
  · field_simp
  · field_simp

/-- The ratios that belong to proper fractions. -/
theorem ratiosSingle_spec (N : Norms K) {u st lt : K} (hN : N.Pos u) (hs : 0 < st) (hl : 0 < lt)
    {w : Three K} (hw : Proper w) :
    (ratiosSingle (1 - (w.s + w.l + w.p)) w (consts N u st lt)).Nonneg ∧
    AreFractions (areas N u st lt (ratiosSingle (1 - (w.s + w.l + w.p)) w (consts N u st lt))) w := by
  have hp : 0 < 1 - (w.s + w.l + w.p) := by linarith [hw.2]
  obtain ⟨c1, c2, c3⟩ := consts_pos N hN hs hl
  obtain ⟨⟨w1, w2, w3⟩, -⟩ := id hw
  constructor
  · simp only [ratiosSingle, if_neg hp.ne', Three.Nonneg]
    refine ⟨by positivity, by positivity, by positivity⟩
  · rw [areas_ratiosSingle N hN hs hl w hp.ne']
    exact fractions_of_areas hw

theorem calcRatios_eq (N : Norms K) (d : Shape K) (u sb lb : K) {w : Three K} (hw : Proper w)
    (h1 : d.sbroad = some sb) (h2 : d.lbroad = some lb) (h3 : d.fractions = some w) :
    calcRatios N d u = .ok (ratiosSingle (1 - (w.s + w.l + w.p)) w (consts N u (sb * N.sigma u) (lb * N.sigma u))) := by
  simp only [calcRatios, h1, h2, h3, attr]
  show Except.bind (wpeak w) _ = _
  rw [wpeak_proper hw]
  rfl

theorem calcFractions_eq (N : Norms K) (d : Shape K) (u st lt : K) {r : Three K}
    (h1 : d.sslope = some st) (h2 : d.lslope = some lt) (h3 : d.ratios = some r) :
    calcFractions N d u = fractionsSingle d.bpeak r (consts N u st lt) := by
  simp only [calcFractions, h1, h2, h3, attr]
  rfl

/-- The fractions that belong to ratios. -/
theorem fractionsSingle_spec (N : Norms K) {u st lt : K} (hN : N.Pos u) (hs : 0 < st) (hl : 0 < lt)
    {r : Three K} (hr : r.Nonneg) :
    ∃ w, fractionsSingle true r (consts N u st lt) = .ok w ∧ Proper w ∧ AreFractions (areas N u st lt r) w := by
  obtain ⟨c1, c2, c3⟩ := consts_pos N hN hs hl
  obtain ⟨w, hw, hf⟩ := fractionsSingle_peak r (consts N u st lt) hr c1 c2 c3
  rw [areas_eq N hN hs hl] at hf
  exact ⟨w, hw, fractions_proper (areas_nonneg N hN hs hl hr) hf, hf⟩

end SC.LineShape
