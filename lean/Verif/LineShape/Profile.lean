import Verif.LineShape.Props
import Mathlib.Tactic.NormNum
/-! # C52: the profile, and what goes wrong -/
namespace SC.LineShape
open SC.Fit Matrix
variable {K : Type} [Field K] [LinearOrder K] [IsStrictOrderedRing K]

/-- In sync, each set of values can be computed from the other. -/
theorem sync_computed (N : Norms K) {u st lt : K} (hN : N.Pos u) (hs : 0 < st) (hl : 0 < lt) {w r : Three K}
    (hw : Proper w) (hr : r.Nonneg) (ha : AreFractions (areas N u st lt r) w) :
    r = ratiosSingle (1 - (w.s + w.l + w.p)) w (consts N u st lt) ∧
    fractionsSingle true r (consts N u st lt) = .ok w := by
  have h1 := ratiosSingle_spec N hN hs hl hw
  have n1 := areas_nonneg N hN hs hl hr
  have n2 := areas_nonneg N hN hs hl h1.1
  constructor
  · apply areas_inj N hN hs hl
    exact areas_unique ha h1.2 (by linarith [n1.1, n1.2.1, n1.2.2]) (by linarith [n2.1, n2.2.1, n2.2.2])
  · obtain ⟨w', hw', -, hf⟩ := fractionsSingle_spec N hN hs hl hr
    rw [hw', areFractions_unique ha hf]

theorem heights_fixed (N : Norms K) (d : Shape K) (u sb lb : K) (w : Three K) (hw : Proper w)
    (hf : d.fixed = true) (h1 : d.sbroad = some sb) (h2 : d.lbroad = some lb) (h3 : d.fractions = some w)
    (nb : Option Bool) :
    heights N d u nb = .ok (
      if nb.getD true then
        ⟨if 0 < 1 - (w.s + w.l + w.p) ∧ d.bpeak then (1 - (w.s + w.l + w.p)) / N.gnorm u else 0,
          if 0 < sb ∧ 0 < w.s ∧ d.bstail then w.s / N.tnorm u (sb * N.sigma u) else 0,
          if 0 < lb ∧ 0 < w.l ∧ d.bltail then w.l / N.tnorm u (lb * N.sigma u) else 0,
          if 0 < w.p ∧ d.bstep then w.p / N.snorm u else 0,
          if 0 < sb ∧ 0 < w.s ∧ d.bstail then sb * N.sigma u else 0,
          if 0 < lb ∧ 0 < w.l ∧ d.bltail then lb * N.sigma u else 0⟩
      else
        ⟨if d.bpeak then 1 / N.gnorm u else 0,
          if 0 < sb ∧ 0 < w.s ∧ d.bstail then
            (ratiosSingle (1 - (w.s + w.l + w.p)) w (consts N u (sb * N.sigma u) (lb * N.sigma u))).s / (sb * N.sigma u) else 0,
          if 0 < lb ∧ 0 < w.l ∧ d.bltail then
            (ratiosSingle (1 - (w.s + w.l + w.p)) w (consts N u (sb * N.sigma u) (lb * N.sigma u))).l / (lb * N.sigma u) else 0,
          if 0 < w.p ∧ d.bstep then
            (ratiosSingle (1 - (w.s + w.l + w.p)) w (consts N u (sb * N.sigma u) (lb * N.sigma u))).p / N.gnorm u else 0,
          if (0 < sb ∧ 0 < w.s ∧ d.bstail) ∨ (0 < lb ∧ 0 < w.l ∧ d.bltail) ∨ (0 < w.p ∧ d.bstep) then sb * N.sigma u else 0,
          if (0 < sb ∧ 0 < w.s ∧ d.bstail) ∨ (0 < lb ∧ 0 < w.l ∧ d.bltail) ∨ (0 < w.p ∧ d.bstep) then lb * N.sigma u else 0⟩) := by
  simp only [heights, hf, if_true, h1, h2, h3, attr]
  show Except.bind (wpeak w) _ = _
  rw [wpeak_proper hw]
  cases hb : nb.getD true with
  | true => rfl
  | false => rfl

theorem heights_ratios (N : Norms K) (d : Shape K) (u st lt : K) (w r : Three K) (hw : Proper w)
    (hf : d.fixed = false) (h1 : d.sslope = some st) (h2 : d.lslope = some lt) (h3 : d.ratios = some r)
    (hb : fractionsSingle d.bpeak r (consts N u st lt) = .ok w) (nb : Option Bool) :
    heights N d u nb = .ok (
      if nb.getD false then
        ⟨if d.bpeak then (1 - (w.s + w.l + w.p)) / N.gnorm u else 0,
          if 0 < st ∧ 0 < r.s ∧ d.bstail then w.s / N.tnorm u st else 0,
          if 0 < lt ∧ 0 < r.l ∧ d.bltail then w.l / N.tnorm u lt else 0,
          if 0 < r.p ∧ d.bstep then w.p / N.snorm u else 0, st, lt⟩
      else
        ⟨if d.bpeak then 1 / N.gnorm u else 0,
          if 0 < st ∧ 0 < r.s ∧ d.bstail then r.s / st else 0,
          if 0 < lt ∧ 0 < r.l ∧ d.bltail then r.l / lt else 0,
          if 0 < r.p ∧ d.bstep then r.p / N.gnorm u else 0, st, lt⟩) := by
  simp only [heights, hf, Bool.false_eq_true, if_false, h1, h2, h3, attr]
  cases hn : nb.getD false with
  | true =>
      show Except.bind (fractionsSingle d.bpeak r (consts N u st lt)) _ = _
      rw [hb]
      show Except.bind (wpeak w) _ = _
      rw [wpeak_proper hw]
      rfl
  | false => rfl

/-- The area of a line: every height times its norm. -/
def Heights.area (N : Norms K) (u st lt : K) (h : Heights K) : K :=
  h.peak * N.gnorm u + h.stail * N.tnorm u st + h.ltail * N.tnorm u lt + h.step * N.snorm u

/-- A normalised line given by fractions: the area of every part that is enabled is its fraction, at
every energy; with all parts enabled the total is one. -/
theorem area_fixed (N : Norms K) (d : Shape K) (u sb lb : K) (w : Three K) (hN : N.Pos u)
    (hs : 0 < sb) (hl : 0 < lb) (hw : Proper w)
    (hf : d.fixed = true) (h1 : d.sbroad = some sb) (h2 : d.lbroad = some lb) (h3 : d.fractions = some w) :
    ∃ h, heights N d u none = .ok h ∧ heights N d u (some true) = .ok h ∧
      h.peak * N.gnorm u = (if d.bpeak then 1 - (w.s + w.l + w.p) else 0) ∧
      h.stail * N.tnorm u (sb * N.sigma u) = (if d.bstail then w.s else 0) ∧
      h.ltail * N.tnorm u (lb * N.sigma u) = (if d.bltail then w.l else 0) ∧
      h.step * N.snorm u = (if d.bstep then w.p else 0) ∧
      (d.bpeak = true → d.bstail = true → d.bltail = true → d.bstep = true →
        h.area N u (sb * N.sigma u) (lb * N.sigma u) = 1) := by
  have hp : 0 < 1 - (w.s + w.l + w.p) := by linarith [hw.2]
  have t1 := (hN.tnorm _ (mul_pos hs hN.sigma)).ne'
  have t2 := (hN.tnorm _ (mul_pos hl hN.sigma)).ne'
  have t3 := hN.gnorm.ne'
  have t4 := hN.snorm.ne'
  obtain ⟨⟨w1, w2, w3⟩, -⟩ := id hw
  have part : ∀ (x nrm : K) (c b : Bool), nrm ≠ 0 → 0 ≤ x → (c = true ↔ (0 < x ∧ b = true)) →
      (if c then x / nrm else 0) * nrm = if b then x else 0 := by
    intro x nrm c b hn hx hc
    by_cases hcc : c = true
    · obtain ⟨-, hb⟩ := hc.mp hcc
      rw [if_pos hcc, if_pos hb, div_mul_cancel₀ _ hn]
    · rw [if_neg hcc, zero_mul]
      by_cases hb : b = true
      · rw [if_pos hb]
        by_contra hx0
        exact hcc (hc.mpr ⟨lt_of_le_of_ne hx hx0, hb⟩)
      · rw [if_neg hb]
  refine ⟨_, heights_fixed N d u sb lb w hw hf h1 h2 h3 none, ?_, ?_, ?_, ?_, ?_, ?_⟩
  · rw [heights_fixed N d u sb lb w hw hf h1 h2 h3 (some true)]
    rfl
  · simp only [Option.getD_none, if_true, hp, true_and]
    split
    · rw [div_mul_cancel₀ _ t3]
    · rw [zero_mul]
  · have := part w.s _ (decide (0 < sb ∧ 0 < w.s ∧ d.bstail = true)) d.bstail t1 w1 (by simp [hs])
    simpa using this
  · have := part w.l _ (decide (0 < lb ∧ 0 < w.l ∧ d.bltail = true)) d.bltail t2 w2 (by simp [hl])
    simpa using this
  · have := part w.p _ (decide (0 < w.p ∧ d.bstep = true)) d.bstep t4 w3 (by simp)
    simpa using this
  · intro b1 b2 b3 b4
    have e2 := part w.s _ (decide (0 < sb ∧ 0 < w.s ∧ d.bstail = true)) d.bstail t1 w1 (by simp [hs])
    have e3 := part w.l _ (decide (0 < lb ∧ 0 < w.l ∧ d.bltail = true)) d.bltail t2 w2 (by simp [hl])
    have e4 := part w.p _ (decide (0 < w.p ∧ d.bstep = true)) d.bstep t4 w3 (by simp)
    simp only [decide_eq_true_eq, b2, b3, b4, if_true] at e2 e3 e4
    simp only [Heights.area, Option.getD_none, if_true, hp, true_and, b1, b2, b3, b4]
    rw [e2, e3, e4, div_mul_cancel₀ _ t3]
    ring

/-- A line given by ratios and slopes: the peak has area one and the other parts that are enabled have
the areas of the PyMca description; normalised, all heights are divided by the same total area, so that
the area of the line is one. -/
theorem area_ratios (N : Norms K) (d : Shape K) (u st lt : K) (r : Three K) (hN : N.Pos u)
    (hs : 0 < st) (hl : 0 < lt) (hr : r.Nonneg)
    (hf : d.fixed = false) (h1 : d.sslope = some st) (h2 : d.lslope = some lt) (h3 : d.ratios = some r)
    (b1 : d.bpeak = true) (b2 : d.bstail = true) (b3 : d.bltail = true) (b4 : d.bstep = true) :
    ∃ h h', heights N d u none = .ok h ∧ heights N d u (some true) = .ok h' ∧
      h.peak * N.gnorm u = 1 ∧
      (⟨h.stail * N.tnorm u st, h.ltail * N.tnorm u lt, h.step * N.snorm u⟩ : Three K) = areas N u st lt r ∧
      h'.area N u st lt = 1 ∧
      h'.peak * h.area N u st lt = h.peak ∧ h'.stail * h.area N u st lt = h.stail ∧
      h'.ltail * h.area N u st lt = h.ltail ∧ h'.step * h.area N u st lt = h.step ∧
      h.sslope = st ∧ h.lslope = lt ∧ h'.sslope = st ∧ h'.lslope = lt := by
  obtain ⟨w, hw, hp, ha⟩ := fractionsSingle_spec N hN hs hl hr
  have t1 := (hN.tnorm _ hs).ne'
  have t2 := (hN.tnorm _ hl).ne'
  have t3 := hN.gnorm.ne'
  have t4 := hN.snorm.ne'
  obtain ⟨r1, r2, r3⟩ := id hr
  obtain ⟨n1, n2, n3⟩ := areas_nonneg N hN hs hl hr
  have e1 := heights_ratios N d u st lt w r hp hf h1 h2 h3 (by rw [b1]; exact hw) none
  have e2 := heights_ratios N d u st lt w r hp hf h1 h2 h3 (by rw [b1]; exact hw) (some true)
  have z : ∀ (x c : K), 0 ≤ x → (if 0 < x then x / c else 0) = x / c := by
    intro x c hx
    split
    · rfl
    · rw [le_antisymm (not_lt.mp ‹_›) hx, zero_div]
  have z' : ∀ (x y c : K), 0 ≤ x → (x = 0 → y = 0) → (if 0 < x then y / c else 0) = y / c := by
    intro x y c hx hxy
    split
    · rfl
    · rw [hxy (le_antisymm (not_lt.mp ‹_›) hx), zero_div]
  obtain ⟨f1, f2, f3⟩ := ha
  have q1 : r.s = 0 → w.s = 0 := by intro h; rw [f1]; simp [areas, h]
  have q2 : r.l = 0 → w.l = 0 := by intro h; rw [f2]; simp [areas, h]
  have q3 : r.p = 0 → w.p = 0 := by intro h; rw [f3]; simp [areas, h]
  simp only [Option.getD_none, Option.getD_some, Bool.false_eq_true, if_false, if_true, b1, b2, b3, b4, hs, hl,
    true_and, and_true, z _ _ r1, z _ _ r2, z _ _ r3, z' _ _ _ r1 q1, z' _ _ _ r2 q2, z' _ _ _ r3 q3] at e1 e2
  have tot : 1 + ((areas N u st lt r).s + (areas N u st lt r).l + (areas N u st lt r).p) ≠ 0 := by
    have : 0 < 1 + ((areas N u st lt r).s + (areas N u st lt r).l + (areas N u st lt r).p) := by linarith
    exact this.ne'
  have harea : Heights.area N u st lt ⟨1 / N.gnorm u, r.s / st, r.l / lt, r.p / N.gnorm u, st, lt⟩
      = 1 + ((areas N u st lt r).s + (areas N u st lt r).l + (areas N u st lt r).p) := by
    simp only [Heights.area, areas]
    field_simp
    ring
  have m1 : w.s * (1 + ((areas N u st lt r).s + (areas N u st lt r).l + (areas N u st lt r).p)) = (areas N u st lt r).s := by
    rw [f1, div_mul_cancel₀ _ tot]
  have m2 : w.l * (1 + ((areas N u st lt r).s + (areas N u st lt r).l + (areas N u st lt r).p)) = (areas N u st lt r).l := by
    rw [f2, div_mul_cancel₀ _ tot]
  have m3 : w.p * (1 + ((areas N u st lt r).s + (areas N u st lt r).l + (areas N u st lt r).p)) = (areas N u st lt r).p := by
    rw [f3, div_mul_cancel₀ _ tot]
  have m0 : (1 - (w.s + w.l + w.p)) * (1 + ((areas N u st lt r).s + (areas N u st lt r).l + (areas N u st lt r).p)) = 1 := by
    linear_combination -m1 - m2 - m3
  refine ⟨_, _, e1, e2, ?_, ?_, ?_, ?_, ?_, ?_, ?_, rfl, rfl, rfl, rfl⟩
  · exact div_mul_cancel₀ _ t3
  · simp only [areas, Three.mk.injEq, true_and]
    ring
  · simp only [Heights.area, div_mul_cancel₀ _ t1, div_mul_cancel₀ _ t2, div_mul_cancel₀ _ t3, div_mul_cancel₀ _ t4]
    ring
  · rw [harea, div_mul_eq_mul_div, m0]
  · rw [harea, div_mul_eq_mul_div, m1]
    simp only [areas]
    rw [mul_div_assoc, div_self t1, mul_one]
  · rw [harea, div_mul_eq_mul_div, m2]
    simp only [areas]
    rw [mul_div_assoc, div_self t2, mul_one]
  · rw [harea, div_mul_eq_mul_div, m3]
    simp only [areas]
    rw [mul_div_assoc, div_self t4, mul_one]
    ring

/-- At the conversion energy both descriptions give the same profile, normalised or not: the same
heights, and the same slopes of the tails that are there. -/
theorem same_profile (N : Norms K) (d : Shape K) (hN : ∀ u, d.energy = some u → N.Pos u) (hd : InSync N d)
    (hb : d.bpeak = true) (nb : Bool) (u : K) (hu : d.energy = some u) :
    ∃ h h', heights N { d with fixed := true } u (some nb) = .ok h ∧
      heights N { d with fixed := false } u (some nb) = .ok h' ∧
      h.peak = h'.peak ∧ h.stail = h'.stail ∧ h.ltail = h'.ltail ∧ h.step = h'.step ∧
      (h.stail ≠ 0 → h.sslope = h'.sslope) ∧ (h.ltail ≠ 0 → h.lslope = h'.lslope) := by
  obtain ⟨u', sb, lb, st, lt, w, r, d1, d2, d3, d4, d5, d6, d7, ps, pl, es, el, hw, hr, ha⟩ := hd
  rw [hu] at d1
  obtain rfl : u = u' := by simpa using d1
  have hP := hN u hu
  obtain ⟨hrw, hwr⟩ := sync_computed N hP ps pl hw hr ha
  have psb : 0 < sb := by
    rw [es] at ps
    exact pos_of_mul_pos_left ps hP.sigma.le
  have plb : 0 < lb := by
    rw [el] at pl
    exact pos_of_mul_pos_left pl hP.sigma.le
  have hp : 0 < 1 - (w.s + w.l + w.p) := by linarith [hw.2]
  obtain ⟨c1, c2, c3⟩ := consts_pos N hP ps pl
  have pos_iff : ∀ (x c : K), 0 < c → (0 < x / (1 - (w.s + w.l + w.p)) * c ↔ 0 < x) := by
    intro x c hc
    rw [mul_pos_iff_of_pos_right hc, div_pos_iff_of_pos_right hp]
  have i1 : 0 < r.s ↔ 0 < w.s := by
    rw [hrw]
    simp only [ratiosSingle, if_neg hp.ne']
    exact pos_iff _ _ c1
  have i2 : 0 < r.l ↔ 0 < w.l := by
    rw [hrw]
    simp only [ratiosSingle, if_neg hp.ne']
    exact pos_iff _ _ c2
  have i3 : 0 < r.p ↔ 0 < w.p := by
    rw [hrw]
    simp only [ratiosSingle, if_neg hp.ne']
    exact pos_iff _ _ c3
  have e1 := heights_fixed N { d with fixed := true } u sb lb w hw rfl d2 d3 d6 (some nb)
  have e2 := heights_ratios N { d with fixed := false } u st lt w r hw rfl d4 d5 d7 (by rw [hb]; exact hwr) (some nb)
  rw [← es, ← el, ← hrw] at e1
  refine ⟨_, _, e1, e2, ?_⟩
  cases nb with
  | true =>
      simp only [Option.getD_some, if_true, hp, hb, psb, plb, ps, pl, i1, i2, i3, true_and, and_self]
      refine ⟨?_, ?_⟩
      · intro h
        split at h
        · rw [if_pos ‹_›]
        · exact absurd rfl h
      · intro h
        split at h
        · rw [if_pos ‹_›]
        · exact absurd rfl h
  | false =>
      simp only [Option.getD_some, Bool.false_eq_true, if_false, hb, psb, plb, ps, pl, i1, i2, i3, true_and, and_self, if_true]
      refine ⟨?_, ?_⟩
      · intro h
        split at h
        · rw [if_pos (.inl ‹_›)]
        · exact absurd rfl h
      · intro h
        split at h
        · rw [if_pos (.inr (.inl ‹_›))]
        · exact absurd rfl h

/-! ## what goes wrong -/

/-- Assigning a broadening updates the slope but not the ratios: the values stay in sync exactly when
the tail has no area or the norm of the tail over its slope did not change. -/
theorem assign_broadening_partial (N : Norms K) (d : Shape K) (u st : K) (r : Three K)
    (hN : N.Pos u) (hf : d.fixed = true) (hd : InSync N d) (h1 : d.energy = some u) (h2 : d.sslope = some st)
    (h3 : d.ratios = some r) (v : K) (hv : 0 < v) :
    InSync N (setSbroad N d v) ↔
      r.s = 0 ∨ N.tnorm u (v * N.sigma u) / (v * N.sigma u) = N.tnorm u st / st := by
  obtain ⟨u', sb, lb, st', lt, w, r', d1, d2, d3, d4, d5, d6, d7, ps, pl, es, el, hw, hr, ha⟩ := hd
  rw [h1] at d1
  rw [h2] at d4
  rw [h3] at d7
  obtain rfl : u = u' := by simpa using d1
  obtain rfl : st = st' := by simpa using d4
  obtain rfl : r = r' := by simpa using d7
  have pv : 0 < v * N.sigma u := mul_pos hv hN.sigma
  obtain ⟨f, en, b1, b2, b3, b4, a1, a2, a3, a4, a5, a6⟩ := d
  simp only at hf h1 h2 h3 d2 d3 d5 d6
  subst hf h1 h2 h3 d2 d3 d5 d6
  have e : setSbroad N ⟨true, some u, b1, b2, b3, b4, some sb, some lb, some st, some lt, some w, some r⟩ v
      = ⟨true, some u, b1, b2, b3, b4, some v, some lb, some (v * N.sigma u), some lt, some w, some r⟩ := rfl
  rw [e]
  have hiff : (r.s = 0 ∨ N.tnorm u (v * N.sigma u) / (v * N.sigma u) = N.tnorm u st / st) ↔
      areas N u (v * N.sigma u) lt r = areas N u st lt r := by
    simp only [areas, Three.mk.injEq, and_true]
    have q1 : r.s / (v * N.sigma u) * N.tnorm u (v * N.sigma u)
        = r.s * (N.tnorm u (v * N.sigma u) / (v * N.sigma u)) := by ring
    have q2 : r.s / st * N.tnorm u st = r.s * (N.tnorm u st / st) := by ring
    rw [q1, q2]
    constructor
    · rintro (h | h)
      · rw [h, zero_mul, zero_mul]
      · rw [h]
    · intro h
      by_cases h0 : r.s = 0
      · exact .inl h0
      · exact .inr (mul_left_cancel₀ h0 h)
  rw [hiff]
  constructor
  · rintro ⟨u', sb', lb', st', lt', w', r', g1, g2, g3, g4, g5, g6, g7, -, -, -, -, -, hr', ha'⟩
    simp only [Option.some.injEq] at g1 g2 g3 g4 g5 g6 g7
    subst g1 g2 g3 g4 g5 g6 g7
    have n1 := areas_nonneg N hN pv pl hr
    have n2 := areas_nonneg N hN ps pl hr
    exact areas_unique ha' ha (by linarith [n1.1, n1.2.1, n1.2.2]) (by linarith [n2.1, n2.2.1, n2.2.2])
  · intro h
    exact ⟨u, v, lb, _, lt, w, r, rfl, rfl, rfl, rfl, rfl, rfl, rfl, pv, pl, rfl, el, hw, hr, by rw [h]; exact ha⟩

/-- A norm that is not proportional to the slope. -/
def exampleNorms : Norms ℚ := ⟨fun _ => 1, fun _ => 1, fun _ => 2, fun _ t => t * (1 + t)⟩

theorem exampleNorms_pos (u : ℚ) : exampleNorms.Pos u :=
  ⟨by norm_num [exampleNorms], by norm_num [exampleNorms], by norm_num [exampleNorms], fun t ht => by
    show 0 < t * (1 + t)
    positivity⟩

def exampleShape : Shape ℚ :=
  ⟨true, some 5, true, true, true, true, some 1, some 2, some 1, some 2, some ⟨1 / 8, 1 / 8, 1 / 4⟩,
    some ⟨1 / 8, 1 / 12, 1 / 4⟩⟩

theorem exampleShape_sync : InSync exampleNorms exampleShape := by
  refine ⟨5, 1, 2, 1, 2, ⟨1 / 8, 1 / 8, 1 / 4⟩, ⟨1 / 8, 1 / 12, 1 / 4⟩, rfl, rfl, rfl, rfl, rfl, rfl, rfl, ?_⟩
  norm_num [exampleNorms, Proper, Three.Nonneg, AreFractions, areas]

example : new exampleNorms true (some 5) ⟨true, true, true, true, 1, 2, ⟨1 / 8, 1 / 8, 1 / 4⟩⟩ = .ok exampleShape := by
  decide +kernel
example : convert exampleNorms exampleShape none = .ok { exampleShape with fixed := false } :=
  convert_sync _ _ (fun u _ => exampleNorms_pos u) exampleShape_sync (by intro h; cases h)
example : (getstate exampleShape).bind (setstate exampleNorms) = .ok exampleShape :=
  pickle_sync _ _ (fun u _ => exampleNorms_pos u) exampleShape_sync (by intro h; cases h)
example : heights exampleNorms exampleShape 5 none
    = .ok ⟨1 / 2, 1 / 16, 1 / 48, 1 / 8, 1, 2⟩ := by decide +kernel

/-- After assigning a broadening the ratios are stale. -/
theorem assign_broadening_stale :
    InSync exampleNorms exampleShape ∧ ¬ InSync exampleNorms (setSbroad exampleNorms exampleShape 3) := by
  refine ⟨exampleShape_sync, ?_⟩
  rw [assign_broadening_partial exampleNorms exampleShape 5 1 ⟨1 / 8, 1 / 12, 1 / 4⟩
    (exampleNorms_pos 5) rfl exampleShape_sync rfl rfl rfl 3 (by norm_num)]
  norm_num [exampleNorms]

/-- Without a peak the conversion back divides the fractions by what is left for the peak … -/
theorem nopeak_roundtrip (wp : K) (w c : Three K) (h1 : c.s ≠ 0) (h2 : c.l ≠ 0) (h3 : c.p ≠ 0) :
    fractionsSingle false (ratiosSingle wp w c) c
      = .ok ⟨w.s / (if wp = 0 then 1 else wp), w.l / (if wp = 0 then 1 else wp), w.p / (if wp = 0 then 1 else wp)⟩ := by
  simp only [fractionsSingle, ratiosSingle, Bool.false_eq_true, if_false, mul_div_cancel_right₀ _ h1,
    mul_div_cancel_right₀ _ h2, mul_div_cancel_right₀ _ h3]

/-- … so that converting twice changes them. -/
theorem nopeak_wrong :
    (convert exampleNorms { exampleShape with bpeak := false } none).bind
        (fun d => (convert exampleNorms d none).map Shape.fractions)
      = .ok (some ⟨1 / 4, 1 / 4, 1 / 2⟩) ∧ exampleShape.fractions = some ⟨1 / 8, 1 / 8, 1 / 4⟩ := by
  decide +kernel

/-- A shape with a peak that gets nothing: converting twice halves the fractions. -/
theorem peak_without_area_wrong :
    ((setFractions exampleNorms exampleShape ⟨1 / 4, 1 / 4, 1 / 2⟩).bind fun d =>
      (convert exampleNorms d none).bind fun d => (convert exampleNorms d none).map Shape.fractions)
      = .ok (some ⟨1 / 8, 1 / 8, 1 / 4⟩) := by
  decide +kernel

end SC.LineShape
