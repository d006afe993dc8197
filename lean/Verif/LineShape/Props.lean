import Verif.LineShape.Lemmas
/-! # C52: the two descriptions of a line shape -/
namespace SC.LineShape
open SC.Fit Matrix
variable {K : Type} [Field K] [LinearOrder K] [IsStrictOrderedRing K]

/-- A detector made from fractions has ratios of which the areas have those fractions. -/
theorem new_fixed (N : Norms K) (u : K) (hN : N.Pos u) (g : Given K) (hs : 0 < g.s) (hl : 0 < g.l)
    (hw : Proper g.three) :
    ∃ d, new N true (some u) g = .ok d ∧ InSync N d ∧ d.fixed = true ∧ d.energy = some u ∧
      d.sbroad = some g.s ∧ d.lbroad = some g.l ∧ d.fractions = some g.three ∧
      d.bpeak = g.bpeak ∧ d.bstail = g.bstail ∧ d.bltail = g.bltail ∧ d.bstep = g.bstep := by
  have h1 : 0 < g.s * N.sigma u := mul_pos hs hN.sigma
  have h2 : 0 < g.l * N.sigma u := mul_pos hl hN.sigma
  have hr := ratiosSingle_spec N hN h1 h2 hw
  have e : new N true (some u) g = .ok ⟨true, some u, g.bpeak, g.bstail, g.bltail, g.bstep, some g.s, some g.l,
      some (g.s * N.sigma u), some (g.l * N.sigma u), some g.three,
      some (ratiosSingle (1 - (g.three.s + g.three.l + g.three.p)) g.three (consts N u (g.s * N.sigma u) (g.l * N.sigma u)))⟩ := by
    simp only [new, if_true, setFractions, setLbroad, setSbroad, blank]
    rw [calcRatios_eq N _ u g.s g.l hw rfl rfl rfl]
    rfl
  exact ⟨_, e, ⟨u, g.s, g.l, _, _, g.three, _, rfl, rfl, rfl, rfl, rfl, rfl, rfl, h1, h2, rfl, rfl, hw, hr.1, hr.2⟩,
    rfl, rfl, rfl, rfl, rfl, rfl, rfl, rfl, rfl⟩

/-- A detector with a peak made from ratios has the fractions of the areas. -/
theorem new_ratios (N : Norms K) (u : K) (hN : N.Pos u) (g : Given K) (hs : 0 < g.s) (hl : 0 < g.l)
    (hb : g.bpeak = true) (hr : g.three.Nonneg) :
    ∃ d, new N false (some u) g = .ok d ∧ InSync N d ∧ d.fixed = false ∧ d.energy = some u ∧
      d.sslope = some g.s ∧ d.lslope = some g.l ∧ d.ratios = some g.three ∧
      d.bpeak = g.bpeak ∧ d.bstail = g.bstail ∧ d.bltail = g.bltail ∧ d.bstep = g.bstep := by
  obtain ⟨w, hw, hp, hf⟩ := fractionsSingle_spec N hN hs hl hr
  have hσ := hN.sigma.ne'
  have e : calcFractions N ⟨false, some u, g.bpeak, g.bstail, g.bltail, g.bstep, some (g.s / N.sigma u),
      some (g.l / N.sigma u), some g.s, some g.l, none, some g.three⟩ u = .ok w := by
    simp only [calcFractions, attr, hb]
    exact hw
  have e2 : new N false (some u) g = .ok ⟨false, some u, g.bpeak, g.bstail, g.bltail, g.bstep, some (g.s / N.sigma u),
      some (g.l / N.sigma u), some g.s, some g.l, some w, some g.three⟩ := by
    simp only [new, setRatios, setLslope, setSslope, blank]
    simp only [Bool.false_eq_true, if_false, e]
    rfl
  exact ⟨_, e2, ⟨u, _, _, g.s, g.l, w, g.three, rfl, rfl, rfl, rfl, rfl, rfl, rfl, hs, hl,
    (div_mul_cancel₀ _ hσ).symm, (div_mul_cancel₀ _ hσ).symm, hp, hr, hf⟩,
    rfl, rfl, rfl, rfl, rfl, rfl, rfl, rfl, rfl⟩

/-- What convert leaves alone. -/
def SameParts (d e : Shape K) : Prop :=
  e.bpeak = d.bpeak ∧ e.bstail = d.bstail ∧ e.bltail = d.bltail ∧ e.bstep = d.bstep

theorem convert_fixed (N : Norms K) (d : Shape K) (u : K) (hN : N.Pos u) (hf : d.fixed = true)
    (e : Option K) (he : e.or d.energy = some u) (sb lb : K) (w : Three K) (hs : 0 < sb) (hl : 0 < lb)
    (h1 : d.sbroad = some sb) (h2 : d.lbroad = some lb) (h3 : d.fractions = some w) (hw : Proper w) :
    ∃ d', convert N d e = .ok d' ∧ InSync N d' ∧ d'.fixed = false ∧ d'.energy = some u ∧
      d'.sbroad = some sb ∧ d'.lbroad = some lb ∧ d'.fractions = some w ∧ SameParts d d' := by
  have p1 : 0 < sb * N.sigma u := mul_pos hs hN.sigma
  have p2 : 0 < lb * N.sigma u := mul_pos hl hN.sigma
  have hr := ratiosSingle_spec N hN p1 p2 hw
  have hconv : convert N d e = .ok ⟨false, some u, d.bpeak, d.bstail, d.bltail, d.bstep, some sb, some lb,
      some (sb * N.sigma u), some (lb * N.sigma u), some w,
      some (ratiosSingle (1 - (w.s + w.l + w.p)) w (consts N u (sb * N.sigma u) (lb * N.sigma u)))⟩ := by
    obtain ⟨f, en, b1, b2, b3, b4, a1, a2, a3, a4, a5, a6⟩ := d
    simp only at hf h1 h2 h3 he
    subst hf h1 h2 h3
    cases e with
    | none =>
        simp only [Option.none_or] at he
        subst he
        simp only [convert, if_true, attr, setSbroad, setLbroad, setFractions]
        show Except.bind (Except.map _ (calcRatios N _ u)) _ = _
        rw [calcRatios_eq N _ u sb lb hw rfl rfl rfl]
        rfl
    | some v =>
        simp only [Option.some_or, Option.some.injEq] at he
        subst he
        simp only [convert, if_true, attr, setSbroad, setLbroad, setFractions]
        show Except.bind (Except.map _ (calcRatios N _ v)) _ = _
        rw [calcRatios_eq N _ v sb lb hw rfl rfl rfl]
        rfl
  exact ⟨_, hconv, ⟨u, sb, lb, _, _, w, _, rfl, rfl, rfl, rfl, rfl, rfl, rfl, p1, p2, rfl, rfl, hw, hr.1, hr.2⟩,
    rfl, rfl, rfl, rfl, rfl, rfl, rfl, rfl, rfl⟩

theorem convert_ratios (N : Norms K) (d : Shape K) (u : K) (hN : N.Pos u) (hf : d.fixed = false)
    (hb : d.bpeak = true)
    (e : Option K) (he : e.or d.energy = some u) (st lt : K) (r : Three K) (hs : 0 < st) (hl : 0 < lt)
    (h1 : d.sslope = some st) (h2 : d.lslope = some lt) (h3 : d.ratios = some r) (hr : r.Nonneg) :
    ∃ d', convert N d e = .ok d' ∧ InSync N d' ∧ d'.fixed = true ∧ d'.energy = some u ∧
      d'.sslope = some st ∧ d'.lslope = some lt ∧ d'.ratios = some r ∧ SameParts d d' := by
  obtain ⟨w, hw, hp, hfr⟩ := fractionsSingle_spec N hN hs hl hr
  have hσ := hN.sigma.ne'
  have hconv : convert N d e = .ok ⟨true, some u, d.bpeak, d.bstail, d.bltail, d.bstep, some (st / N.sigma u),
      some (lt / N.sigma u), some st, some lt, some w, some r⟩ := by
    obtain ⟨f, en, b1, b2, b3, b4, a1, a2, a3, a4, a5, a6⟩ := d
    simp only at hf h1 h2 h3 he hb
    subst hf h1 h2 h3 hb
    have key : ∀ w0, calcFractions N ⟨false, some u, true, b2, b3, b4, some (st / N.sigma u), some (lt / N.sigma u),
        some st, some lt, w0, some r⟩ u = .ok w := by
      intro w0
      simp only [calcFractions, attr]
      exact hw
    cases e with
    | none =>
        simp only [Option.none_or] at he
        subst he
        simp only [convert, attr, setSslope, setLslope, setRatios, Bool.false_eq_true, if_false]
        show Except.bind (Except.map _ (calcFractions N _ u)) _ = _
        rw [key]
        rfl
    | some v =>
        simp only [Option.some_or, Option.some.injEq] at he
        subst he
        simp only [convert, attr, setSslope, setLslope, setRatios, Bool.false_eq_true, if_false]
        show Except.bind (Except.map _ (calcFractions N _ v)) _ = _
        rw [key]
        rfl
  exact ⟨_, hconv, ⟨u, _, _, st, lt, w, r, rfl, rfl, rfl, rfl, rfl, rfl, rfl, hs, hl,
    (div_mul_cancel₀ _ hσ).symm, (div_mul_cancel₀ _ hσ).symm, hp, hr, hfr⟩,
    rfl, rfl, rfl, rfl, rfl, rfl, rfl, rfl, rfl⟩

/-- Two detectors with the same parts and energy whose values are in sync have the same values when
they have the same given values. -/
theorem sync_fractions {N : Norms K} {d e : Shape K} (hN : ∀ u, d.energy = some u → N.Pos u)
    (hd : InSync N d) (he : InSync N e) (hu : e.energy = d.energy)
    (h : (d.sbroad = e.sbroad ∧ d.lbroad = e.lbroad ∧ d.fractions = e.fractions) ∨
      (d.sslope = e.sslope ∧ d.lslope = e.lslope ∧ d.ratios = e.ratios)) :
    d.sbroad = e.sbroad ∧ d.lbroad = e.lbroad ∧ d.fractions = e.fractions ∧ d.sslope = e.sslope ∧
      d.lslope = e.lslope ∧ d.ratios = e.ratios := by
  obtain ⟨u, sb, lb, st, lt, w, r, d1, d2, d3, d4, d5, d6, d7, ps, pl, es, el, hw, hr, ha⟩ := hd
  obtain ⟨u', sb', lb', st', lt', w', r', f1, f2, f3, f4, f5, f6, f7, ps', pl', es', el', hw', hr', ha'⟩ := he
  have hP := hN u d1
  rw [f1, d1] at hu
  obtain rfl : u' = u := by simpa using hu
  rw [d2, d3, d4, d5, d6, d7, f2, f3, f4, f5, f6, f7] at h
  rw [d2, d3, d4, d5, d6, d7, f2, f3, f4, f5, f6, f7]
  have hσ := hP.sigma.ne'
  rcases h with ⟨h1, h2, h3⟩ | ⟨h1, h2, h3⟩
  · simp only [Option.some.injEq] at h1 h2 h3
    subst h1 h2 h3
    obtain rfl : st = st' := es.trans es'.symm
    obtain rfl : lt = lt' := el.trans el'.symm
    have hn := areas_nonneg N hP ps pl hr
    have hn' := areas_nonneg N hP ps pl hr'
    have := areas_unique ha ha' (by linarith [hn.1, hn.2.1, hn.2.2]) (by linarith [hn'.1, hn'.2.1, hn'.2.2])
    obtain rfl := areas_inj N hP ps pl this
    simp
  · simp only [Option.some.injEq] at h1 h2 h3
    subst h1 h2 h3
    obtain rfl : sb = sb' := mul_right_cancel₀ hσ (es.symm.trans es')
    obtain rfl : lb = lb' := mul_right_cancel₀ hσ (el.symm.trans el')
    obtain rfl := areFractions_unique ha ha'
    simp

/-- Converting a detector in sync changes which values are the given ones, and nothing else: all
values are in sync before and after.  Converting from ratios needs a peak. -/
theorem convert_sync (N : Norms K) (d : Shape K) (hN : ∀ u, d.energy = some u → N.Pos u) (hd : InSync N d)
    (hb : d.fixed = false → d.bpeak = true) :
    convert N d none = .ok { d with fixed := !d.fixed } := by
  obtain ⟨u, sb, lb, st, lt, w, r, d1, d2, d3, d4, d5, d6, d7, ps, pl, es, el, hw, hr, ha⟩ := id hd
  have hP := hN u d1
  have psb : 0 < sb := by
    have := hP.sigma
    rw [es] at ps
    exact pos_of_mul_pos_left ps this.le
  have plb : 0 < lb := by
    have := hP.sigma
    rw [el] at pl
    exact pos_of_mul_pos_left pl this.le
  have fin : ∀ d' : Shape K, convert N d none = .ok d' → InSync N d' → d'.fixed = !d.fixed → d'.energy = some u →
      SameParts d d' →
      ((d.sbroad = d'.sbroad ∧ d.lbroad = d'.lbroad ∧ d.fractions = d'.fractions) ∨
      (d.sslope = d'.sslope ∧ d.lslope = d'.lslope ∧ d.ratios = d'.ratios)) →
      convert N d none = .ok { d with fixed := !d.fixed } := by
    intro d' hc hs hfx hen ⟨q1, q2, q3, q4⟩ hg
    obtain ⟨g1, g2, g3, g4, g5, g6⟩ := sync_fractions hN hd hs (by rw [hen, d1]) hg
    rw [hc]
    congr 1
    obtain ⟨f, en, b1, b2, b3, b4, a1, a2, a3, a4, a5, a6⟩ := d
    obtain ⟨f', en', b1', b2', b3', b4', a1', a2', a3', a4', a5', a6'⟩ := d'
    simp only at *
    subst hfx hen q1 q2 q3 q4 g1 g2 g3 g4 g5 g6 d1
    rfl
  by_cases hf : d.fixed = true
  · obtain ⟨d', hc, hs, hfx, hen, e1, e2, e3, hp⟩ :=
      convert_fixed N d u hP hf none (by simpa using d1) sb lb w psb plb d2 d3 d6 hw
    exact fin d' hc hs (by rw [hfx, hf]; rfl) hen hp (.inl ⟨by rw [d2, e1], by rw [d3, e2], by rw [d6, e3]⟩)
  · have hf' : d.fixed = false := by simpa using hf
    obtain ⟨d', hc, hs, hfx, hen, e1, e2, e3, hp⟩ :=
      convert_ratios N d u hP hf' (hb hf') none (by simpa using d1) st lt r ps pl d4 d5 d7 hr
    exact fin d' hc hs (by rw [hfx, hf']; rfl) hen hp (.inr ⟨by rw [d4, e1], by rw [d5, e2], by rw [d7, e3]⟩)

/-- Converting at a new energy keeps the given values and derives the others from them. -/
theorem convert_energy (N : Norms K) (d : Shape K) (u : K) (hN : N.Pos u) :
    (d.fixed = true → ∀ sb lb w, d.sbroad = some sb → d.lbroad = some lb → d.fractions = some w →
      0 < sb → 0 < lb → Proper w →
      ∃ d', convert N d (some u) = .ok d' ∧ InSync N d' ∧ d'.fixed = false ∧ d'.energy = some u ∧
        d'.sbroad = some sb ∧ d'.lbroad = some lb ∧ d'.fractions = some w ∧ SameParts d d') ∧
    (d.fixed = false → d.bpeak = true → ∀ st lt r, d.sslope = some st → d.lslope = some lt → d.ratios = some r →
      0 < st → 0 < lt → r.Nonneg →
      ∃ d', convert N d (some u) = .ok d' ∧ InSync N d' ∧ d'.fixed = true ∧ d'.energy = some u ∧
        d'.sslope = some st ∧ d'.lslope = some lt ∧ d'.ratios = some r ∧ SameParts d d') :=
  ⟨fun hf sb lb w h1 h2 h3 hs hl hw => convert_fixed N d u hN hf (some u) rfl sb lb w hs hl h1 h2 h3 hw,
   fun hf hb st lt r h1 h2 h3 hs hl hr => convert_ratios N d u hN hf hb (some u) rfl st lt r hs hl h1 h2 h3 hr⟩

/-- Without an energy a detector has no derived values, and does not convert. -/
theorem no_energy (N : Norms K) (g : Given K) :
    (∃ d, new N true none g = .ok d ∧ d.ratios = none ∧ d.sslope = none ∧ d.lslope = none ∧
      convert N d none = .error .runtime) ∧
    (∃ d, new N false none g = .ok d ∧ d.fractions = none ∧ d.sbroad = none ∧ d.lbroad = none ∧
      convert N d none = .error .runtime) :=
  ⟨⟨_, rfl, rfl, rfl, rfl, rfl⟩, ⟨_, rfl, rfl, rfl, rfl, rfl⟩⟩

/-- Assigning fractions keeps the values in sync. -/
theorem assign_fractions (N : Norms K) (d : Shape K) (hN : ∀ u, d.energy = some u → N.Pos u) (hd : InSync N d)
    (hf : d.fixed = true) (w : Three K) (hw : Proper w) :
    ∃ d', setFractions N d w = .ok d' ∧ InSync N d' ∧ d'.fractions = some w ∧ d'.sbroad = d.sbroad ∧
      d'.lbroad = d.lbroad := by
  obtain ⟨u, sb, lb, st, lt, w0, r, d1, d2, d3, d4, d5, d6, d7, ps, pl, es, el, hw0, hr0, ha⟩ := hd
  have hP := hN u d1
  have hr := ratiosSingle_spec N hP ps pl hw
  obtain ⟨f, en, b1, b2, b3, b4, a1, a2, a3, a4, a5, a6⟩ := d
  simp only at hf d1 d2 d3 d4 d5 d6 d7
  subst hf d1 d2 d3 d4 d5 d6 d7
  have e : setFractions N ⟨true, some u, b1, b2, b3, b4, some sb, some lb, some st, some lt, some w0, some r⟩ w
      = .ok ⟨true, some u, b1, b2, b3, b4, some sb, some lb, some st, some lt, some w,
          some (ratiosSingle (1 - (w.s + w.l + w.p)) w (consts N u st lt))⟩ := by
    simp only [setFractions]
    rw [calcRatios_eq N _ u sb lb hw rfl rfl rfl, es, el]
    rfl
  exact ⟨_, e, ⟨u, sb, lb, st, lt, w, _, rfl, rfl, rfl, rfl, rfl, rfl, rfl, ps, pl, es, el, hw, hr.1, hr.2⟩,
    rfl, rfl, rfl⟩

/-- Assigning ratios keeps the values in sync. -/
theorem assign_ratios (N : Norms K) (d : Shape K) (hN : ∀ u, d.energy = some u → N.Pos u) (hd : InSync N d)
    (hf : d.fixed = false) (hb : d.bpeak = true) (r : Three K) (hr : r.Nonneg) :
    ∃ d', setRatios N d r = .ok d' ∧ InSync N d' ∧ d'.ratios = some r ∧ d'.sslope = d.sslope ∧
      d'.lslope = d.lslope := by
  obtain ⟨u, sb, lb, st, lt, w0, r0, d1, d2, d3, d4, d5, d6, d7, ps, pl, es, el, hw0, hr0, ha⟩ := hd
  have hP := hN u d1
  obtain ⟨w, hw, hp, hfr⟩ := fractionsSingle_spec N hP ps pl hr
  obtain ⟨f, en, b1, b2, b3, b4, a1, a2, a3, a4, a5, a6⟩ := d
  simp only at hf d1 d2 d3 d4 d5 d6 d7 hb
  subst hf d1 d2 d3 d4 d5 d6 d7 hb
  have key : calcFractions N ⟨false, some u, true, b2, b3, b4, some sb, some lb, some st, some lt, some w0, some r⟩ u
      = .ok w := by
    simp only [calcFractions, attr]
    exact hw
  have e : setRatios N ⟨false, some u, true, b2, b3, b4, some sb, some lb, some st, some lt, some w0, some r0⟩ r
      = .ok ⟨false, some u, true, b2, b3, b4, some sb, some lb, some st, some lt, some w, some r⟩ := by
    simp only [setRatios, key]
    rfl
  exact ⟨_, e, ⟨u, sb, lb, st, lt, w, r, rfl, rfl, rfl, rfl, rfl, rfl, rfl, ps, pl, es, el, hp, hr, hfr⟩,
    rfl, rfl, rfl⟩

/-- wpeak: what the tails and the step leave, with a margin of 0.0001 on both sides. -/
theorem wpeak_spec (w : Three K) :
    (∀ x, wpeak w = .ok x → 0 ≤ x ∧ x ≤ 1 ∧ (0 ≤ w.s + w.l + w.p → w.s + w.l + w.p ≤ 1 → x = 1 - (w.s + w.l + w.p)) ∧
      (1 < w.s + w.l + w.p → x = 0) ∧ (w.s + w.l + w.p < 0 → x = 1)) ∧
    (wpeak w = .error .runtime ↔ w.s + w.l + w.p < -(1 / 10000) ∨ 1 + 1 / 10000 < w.s + w.l + w.p) := by
  constructor
  · intro x hx
    simp only [wpeak] at hx
    split at hx
    · cases hx
    · obtain rfl : min (max (1 - (w.s + w.l + w.p)) 0) 1 = x := by simpa using hx
      refine ⟨le_min (le_max_right _ _) zero_le_one, min_le_right _ _, ?_, ?_, ?_⟩
      · intro h1 h2
        rw [max_eq_left (by linarith), min_eq_left (by linarith)]
      · intro h
        rw [max_eq_right (by linarith), min_eq_left zero_le_one]
      · intro h
        rw [max_eq_left (by linarith), min_eq_right (by linarith)]
  · simp only [wpeak]
    split <;> simp_all

/-- Pickling: a detector in sync comes back as it was. -/
theorem pickle_sync (N : Norms K) (d : Shape K) (hN : ∀ u, d.energy = some u → N.Pos u) (hd : InSync N d)
    (hb : d.fixed = false → d.bpeak = true) :
    (getstate d).bind (setstate N) = .ok d := by
  obtain ⟨u, sb, lb, st, lt, w, r, d1, d2, d3, d4, d5, d6, d7, ps, pl, es, el, hw, hr, ha⟩ := id hd
  have hP := hN u d1
  have psb : 0 < sb := by
    have := hP.sigma
    rw [es] at ps
    exact pos_of_mul_pos_left ps this.le
  have plb : 0 < lb := by
    have := hP.sigma
    rw [el] at pl
    exact pos_of_mul_pos_left pl this.le
  have fin : ∀ d' : Shape K, InSync N d' → d'.fixed = d.fixed → d'.energy = some u → SameParts d d' →
      ((d.sbroad = d'.sbroad ∧ d.lbroad = d'.lbroad ∧ d.fractions = d'.fractions) ∨
      (d.sslope = d'.sslope ∧ d.lslope = d'.lslope ∧ d.ratios = d'.ratios)) → d' = d := by
    intro d' hs hfx hen ⟨q1, q2, q3, q4⟩ hg
    obtain ⟨g1, g2, g3, g4, g5, g6⟩ := sync_fractions hN hd hs (by rw [hen, d1]) hg
    obtain ⟨f, en, b1, b2, b3, b4, a1, a2, a3, a4, a5, a6⟩ := d
    obtain ⟨f', en', b1', b2', b3', b4', a1', a2', a3', a4', a5', a6'⟩ := d'
    simp only at *
    subst hfx hen q1 q2 q3 q4 g1 g2 g3 g4 g5 g6 d1
    rfl
  by_cases hf : d.fixed = true
  · obtain ⟨d', hc, hs, hfx, hen, e1, e2, e3, p1, p2, p3, p4⟩ :=
      new_fixed N u hP ⟨d.bpeak, d.bstail, d.bltail, d.bstep, sb, lb, w⟩ psb plb hw
    have := fin d' hs (by rw [hfx, hf]) hen ⟨p1, p2, p3, p4⟩ (.inl ⟨by rw [d2, e1], by rw [d3, e2], by rw [d6, e3]⟩)
    subst this
    simp only [getstate, hf, if_true, d1, d2, d3, d6, attr]
    exact hc
  · have hf' : d.fixed = false := by simpa using hf
    obtain ⟨d', hc, hs, hfx, hen, e1, e2, e3, p1, p2, p3, p4⟩ :=
      new_ratios N u hP ⟨d.bpeak, d.bstail, d.bltail, d.bstep, st, lt, r⟩ ps pl (hb hf') hr
    have := fin d' hs (by rw [hfx, hf']) hen ⟨p1, p2, p3, p4⟩ (.inr ⟨by rw [d4, e1], by rw [d5, e2], by rw [d7, e3]⟩)
    subst this
    simp only [getstate, hf', Bool.false_eq_true, if_false, d1, d4, d5, d7, attr]
    exact hc

/-- Equal detectors in sync have all values in common. -/
theorem eq_sync (N : Norms K) (d e : Shape K) (hN : ∀ u, d.energy = some u → N.Pos u) (hd : InSync N d)
    (he : InSync N e) : eq d e = true ↔ d = e := by
  constructor
  · intro h
    simp only [eq] at h
    split at h
    · cases h
    · rename_i hfx
      split at h
      · cases h
      · rename_i h1
        split at h
        · cases h
        · rename_i h2
          simp only [Bool.and_eq_true, beq_iff_eq] at h
          obtain ⟨⟨⟨⟨q1, q2⟩, q3⟩, q4⟩, q5⟩ := h
          have hff : d.fixed = e.fixed := by simpa using hfx
          have hg : (d.sbroad = e.sbroad ∧ d.lbroad = e.lbroad ∧ d.fractions = e.fractions) ∨
              (d.sslope = e.sslope ∧ d.lslope = e.lslope ∧ d.ratios = e.ratios) := by
            by_cases hf : d.fixed = true
            · left
              simp only [hf, Bool.true_and, Bool.or_eq_true, bne_iff_ne, ne_eq, not_or, not_not] at h1
              exact ⟨h1.1.1, h1.1.2, h1.2⟩
            · right
              simp only [hf, Bool.not_false, Bool.true_and, Bool.or_eq_true, bne_iff_ne, ne_eq, not_or, not_not] at h2
              exact ⟨h2.1.1, h2.1.2, h2.2⟩
          obtain ⟨g1, g2, g3, g4, g5, g6⟩ := sync_fractions hN hd he q1.symm hg
          obtain ⟨f, en, b1, b2, b3, b4, a1, a2, a3, a4, a5, a6⟩ := d
          obtain ⟨f', en', b1', b2', b3', b4', a1', a2', a3', a4', a5', a6'⟩ := e
          simp only at *
          subst hff q1 q2 q3 q4 q5 g1 g2 g3 g4 g5 g6
          rfl
  · rintro rfl
    simp [eq]

end SC.LineShape
