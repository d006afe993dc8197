import Verif.FitCfg.Active
/-! # C73: the lines of an adapted configuration -/
namespace SC.FitCfg
open SC.Py

/-- **C73.**  Lines in use keep their order, their relative energies and weights and whether they scatter; the
first gets the energy that is asked for, and weight 1.  There are no other lines. -/
theorem adapt_active (E e0 w0 : Rat) (c : Lines) (hc : Complete c e0 w0) :
    ∃ c' : Lines, adaptEnergy E 0 c = some (c', (active c).length) ∧ active c' = (active c).map (rescale e0 w0 E) := by
  have hlen := active_length c
  have hpos : 0 < (flags c).count true := by
    obtain ⟨s, r, hf⟩ := hc.first
    rw [← hlen, hf]; simp
  refine ⟨_, by rw [adaptEnergy_plain E c hpos, hlen], ?_⟩
  have hR := isRel_sel 0 c hpos
  obtain ⟨h1, h2, h3⟩ := active_pack (flags c).length _ ((ratios 0 (sel c none c.energy)).map (· * E)) _ _ _ (by rw [List.length_map, hR.r]) hR.w hR.f hR.s hR.f0
  apply lines_ext
  · rw [h1, energies_rescaled 0 e0 w0 E c hc]
  · rw [h2, weights_rescaled _ e0 w0 E c hc]
  · rw [h3, ← active_scatter]; simp [List.map_map, Function.comp_def, rescale]

/-- **C73.**  With `addhigh` there is one more line, of that multiple of the energy, with a low weight and without
scattering, unless the lines end with such a line already. -/
theorem adapt_high (E e0 w0 h : Rat) (hE : 0 < E) (hh : h ≠ 0) (c : Lines) (hc : Complete c e0 w0) :
    (EndsHigh c e0 w0 → ∃ c' : Lines, adaptEnergy E h c = some (c', (active c).length) ∧ active c' = (active c).map (rescale e0 w0 E)) ∧
    (¬ EndsHigh c e0 w0 → ∃ c' : Lines, adaptEnergy E h c = some (c', (active c).length + 1) ∧
      active c' = (active c).map (rescale e0 w0 E) ++ [⟨some (h * E), some (1 / 10000000000), 0⟩]) := by
  have hlen := active_length c
  have hpos : 0 < (flags c).count true := by
    obtain ⟨s, r, hf⟩ := hc.first
    rw [← hlen, hf]; simp
  have hR := isRel_sel h c hpos
  have hiff := endsHigh_iff h e0 w0 E hE c hc
  constructor
  · intro hend
    refine ⟨_, by rw [adaptEnergy_high E h hh c hpos, if_pos (hiff.2 hend), hlen], ?_⟩
    obtain ⟨h1, h2, h3⟩ := active_pack (flags c).length _ ((ratios h (sel c none c.energy)).map (· * E)) _ _ _ (by rw [List.length_map, hR.r]) hR.w hR.f hR.s hR.f0
    apply lines_ext
    · rw [h1, energies_rescaled h e0 w0 E c hc]
    · rw [h2, weights_rescaled _ e0 w0 E c hc]
    · rw [h3, ← active_scatter]; simp [List.map_map, Function.comp_def, rescale]
  · intro hend
    refine ⟨_, by rw [adaptEnergy_high E h hh c hpos, if_neg (fun h' => hend (hiff.1 h')), hlen], ?_⟩
    have hR' := hR.snoc h (1 / 10000000000)
    obtain ⟨h1, h2, h3⟩ := active_pack (flags c).length _ ((ratios h (sel c none c.energy) ++ [h]).map (· * E)) _ _ _ (by rw [List.length_map, hR'.r]) hR'.w hR'.f hR'.s hR'.f0
    apply lines_ext
    · rw [h1, List.map_append, List.map_append, energies_rescaled h e0 w0 E c hc, List.map_append]; rfl
    · rw [h2, List.map_append, weights_rescaled _ e0 w0 E c hc, List.map_append]; rfl
    · rw [h3, ← active_scatter]; simp [List.map_map, Function.comp_def, rescale]

/-- **C73.**  The lists of an adapted configuration are as long as before, or longer when a line is added and there
is no place. -/
theorem adapt_length (E h : Rat) (c c' : Lines) (n : Nat) (ha : adaptEnergy E h c = some (c', n)) :
    c'.flag.length = max c.flag.length n ∧ c'.energy.length = max c.flag.length n ∧ c'.weight.length = max c.flag.length n ∧
    c'.scatter.length = max c.flag.length n := by
  have hfl : (flags c).length = c.flag.length := by simp [flags]
  have hpos : 0 < (flags c).count true := by
    rcases Nat.eq_zero_or_pos ((flags c).count true) with h0 | h0
    · rw [adaptEnergy_none _ _ _ h0] at ha; exact absurd ha (by simp)
    · exact h0
  have hR := isRel_sel h c hpos
  have hlen : ∀ (m : Nat) (es ws fs ss : List Rat), es.length = m → ws.length = m → fs.length = m → ss.length = m →
      let p := pack c.flag.length es ws fs ss
      p.flag.length = max c.flag.length m ∧ p.energy.length = max c.flag.length m ∧ p.weight.length = max c.flag.length m ∧ p.scatter.length = max c.flag.length m := by
    intro m es ws fs ss h1 h2 h3 h4
    refine ⟨?_, ?_, ?_, ?_⟩ <;> simp [pack, padTo_length, h1, h2, h3, h4]
  by_cases hh : h = 0
  · subst hh
    rw [adaptEnergy_plain _ _ hpos, hfl] at ha
    simp only [Option.some.injEq, Prod.mk.injEq] at ha
    obtain ⟨rfl, rfl⟩ := ha
    exact hlen _ _ _ _ _ (by simpa using hR.r) hR.w hR.f hR.s
  · rw [adaptEnergy_high _ _ hh _ hpos, hfl] at ha
    have hR' := hR.snoc h (1 / 10000000000)
    split at ha
    · simp only [Option.some.injEq, Prod.mk.injEq] at ha
      obtain ⟨rfl, rfl⟩ := ha
      exact hlen _ _ _ _ _ (by simpa using hR.r) hR.w hR.f hR.s
    · simp only [Option.some.injEq, Prod.mk.injEq] at ha
      obtain ⟨rfl, rfl⟩ := ha
      exact hlen _ _ _ _ _ (by simpa using hR'.r) hR'.w hR'.f hR'.s

/-- **C73.**  Adapting lines fails exactly when none is in use. -/
theorem adapt_fails (E h : Rat) (c : Lines) : adaptEnergy E h c = none ↔ active c = [] := by
  rw [← List.length_eq_zero_iff, active_length]
  constructor
  · intro ha
    rcases Nat.eq_zero_or_pos ((flags c).count true) with h0 | h0
    · exact h0
    · by_cases hh : h = 0
      · subst hh; rw [adaptEnergy_plain _ _ h0] at ha; simp at ha
      · rw [adaptEnergy_high _ _ hh _ h0] at ha; split at ha <;> simp at ha
  · exact adaptEnergy_none E h c

theorem isRel_count {n n' : Nat} {rs ws fs ss : List Rat} (h : IsRel n rs ws fs ss) (h' : IsRel n' rs ws fs ss) : n = n' := h.r.symm.trans h'.r

/-- The number of lines does not depend on the energy. -/
theorem adapt_count (E E' h : Rat) (hE : 0 < E) (hE' : 0 < E') (c c' c'' : Lines) (n n' : Nat) (h1 : adaptEnergy E h c = some (c', n))
    (h2 : adaptEnergy E' h c = some (c'', n')) : n = n' := by
  have hpos : 0 < (flags c).count true := by
    rcases Nat.eq_zero_or_pos ((flags c).count true) with h0 | h0
    · rw [adaptEnergy_none _ _ _ h0] at h1; exact absurd h1 (by simp)
    · exact h0
  by_cases hh : h = 0
  · subst hh
    rw [adaptEnergy_plain _ _ hpos] at h1 h2
    simp only [Option.some.injEq, Prod.mk.injEq] at h1 h2
    omega
  · rw [adaptEnergy_high _ _ hh _ hpos] at h1 h2
    by_cases hH : High E (ratios h (sel c none c.energy)) (ratios (1 / 10000000000) (sel c none c.weight))
    · have hH' := (high_iff E' hE' _ _).2 ((high_iff E hE _ _).1 hH)
      rw [if_pos hH] at h1
      rw [if_pos hH'] at h2
      simp only [Option.some.injEq, Prod.mk.injEq] at h1 h2
      omega
    · have hH' : ¬ High E' _ _ := fun h => hH ((high_iff E hE _ _).2 ((high_iff E' hE' _ _).1 h))
      rw [if_neg hH] at h1
      rw [if_neg hH'] at h2
      simp only [Option.some.injEq, Prod.mk.injEq] at h1 h2
      omega

/-! ## Groups of lines -/

/-- **C73.**  Group M of elements in the list is replaced by the subgroups; other groups keep their order. -/
theorem mlines_spec (mlines : List (Name × List Name)) (peaks : Dict Name (List Name)) (el : Name) :
    (el ∉ mlines.map Prod.fst → (adaptMlines mlines peaks).get? el = peaks.get? el) ∧
    (∀ g sub, (mlines.map Prod.fst).Nodup → (el, sub) ∈ mlines → peaks.get? el = some g →
      (adaptMlines mlines peaks).get? el = some (if kM ∈ g then g.filter (fun y => y ≠ kM) ++ sub else g)) := by
  have hstep : ∀ (p : Dict Name (List Name)) (x : Name × List Name), x.1 ≠ el → (match p.get? x.1 with
      | none => p
      | some g => if kM ∈ g then p.set x.1 (g.filter (fun y => y ≠ kM) ++ x.2) else p).get? el = p.get? el := by
    intro p x hx
    cases p.get? x.1 with
    | none => rfl
    | some g =>
      simp only
      split
      · rw [Dict.get?_set, if_neg hx]
      · rfl
  have hout : ∀ (l : List (Name × List Name)) (p : Dict Name (List Name)), el ∉ l.map Prod.fst → (adaptMlines l p).get? el = p.get? el := by
    intro l
    induction l with
    | nil => intro p _; rfl
    | cons x l ih =>
      intro p hx
      simp only [List.map_cons, List.mem_cons, not_or] at hx
      exact (ih _ hx.2).trans (hstep p x (Ne.symm hx.1))
  refine ⟨hout mlines peaks, ?_⟩
  intro g sub hnd hmem hg
  induction mlines generalizing peaks with
  | nil => cases hmem
  | cons x l ih =>
    rw [List.map_cons, List.nodup_cons] at hnd
    rcases List.mem_cons.1 hmem with hx | hx
    · subst hx
      refine (hout l _ hnd.1).trans ?_
      simp only [hg]
      by_cases hM : kM ∈ g
      · rw [if_pos hM, if_pos hM, Dict.get?_set, if_pos rfl]
      · rw [if_neg hM, if_neg hM, hg]
    · have hne : x.1 ≠ el := by
        rintro rfl
        exact hnd.1 (List.mem_map.2 ⟨_, hx, rfl⟩)
      exact ih _ hnd.2 hx ((hstep peaks x hne).trans hg)

/-- Groups of lines after replacement have no group M. -/
def NoM (peaks : Dict Name (List Name)) (el : Name) : Prop := ∀ g, peaks.get? el = some g → kM ∉ g

theorem mlines_step_noM (sub : Name × List Name) (hs : kM ∉ sub.2) (p : Dict Name (List Name)) (el : Name) (h : NoM p el ∨ el = sub.1) :
    NoM (match p.get? sub.1 with
      | none => p
      | some g => if kM ∈ g then p.set sub.1 (g.filter (fun y => y ≠ kM) ++ sub.2) else p) el := by
  intro g' hg'
  cases hp : p.get? sub.1 with
  | none =>
    rw [hp] at hg'
    rcases h with h | h
    · exact h g' hg'
    · subst h; simp only at hg'; rw [hp] at hg'; cases hg'
  | some g =>
    rw [hp] at hg'
    simp only at hg'
    by_cases hM : kM ∈ g
    · rw [if_pos hM, Dict.get?_set] at hg'
      split at hg'
      · cases hg'
        simp [hs]
      · rename_i hne
        rcases h with h | h
        · exact h g' hg'
        · exact absurd h.symm hne
    · rw [if_neg hM] at hg'
      rcases h with h | h
      · exact h g' hg'
      · subst h; rw [hp] at hg'; cases hg'; exact hM

theorem mlines_noM (l : List (Name × List Name)) (hs : ∀ x ∈ l, kM ∉ x.2) (p : Dict Name (List Name)) (el : Name) (h : NoM p el ∨ el ∈ l.map Prod.fst) :
    NoM (adaptMlines l p) el := by
  induction l generalizing p with
  | nil =>
    rcases h with h | h
    · exact h
    · cases h
  | cons x l ih =>
    apply ih (fun y hy => hs y (by simp [hy]))
    rcases h with h | h
    · exact Or.inl (mlines_step_noM x (hs x (by simp)) p el (Or.inl h))
    · rw [List.map_cons, List.mem_cons] at h
      rcases h with h | h
      · exact Or.inl (mlines_step_noM x (hs x (by simp)) p el (Or.inr h))
      · exact Or.inr h

theorem mlines_same (l : List (Name × List Name)) (p : Dict Name (List Name)) (h : ∀ x ∈ l, NoM p x.1) : adaptMlines l p = p := by
  induction l with
  | nil => rfl
  | cons x l ih =>
    have hx := h x (by simp)
    have : (match p.get? x.1 with
      | none => p
      | some g => if kM ∈ g then p.set x.1 (g.filter (fun y => y ≠ kM) ++ x.2) else p) = p := by
      cases hp : p.get? x.1 with
      | none => rfl
      | some g => simp only; rw [if_neg (hx g hp)]
    exact (congrArg (adaptMlines l) this).trans (ih fun y hy => h y (by simp [hy]))

/-- **C73.**  Replacing M groups twice is replacing them once, when no subgroup is M. -/
theorem mlines_twice (l : List (Name × List Name)) (hs : ∀ x ∈ l, kM ∉ x.2) (p : Dict Name (List Name)) :
    adaptMlines l (adaptMlines l p) = adaptMlines l p :=
  mlines_same _ _ fun x hx => mlines_noM l hs p x.1 (Or.inr (List.mem_map.2 ⟨x, hx, rfl⟩))

/-! ## Whole configurations -/

/-- **C73.**  The parameters of a quantification are set, others stay; the sum of the angles fits the angles. -/
theorem quant_spec (q : Quant) (c : Config) :
    (adaptQuant q c).conc = ⟨q.flux.getD c.conc.flux, q.time.getD c.conc.time, q.area.getD c.conc.area, q.distance.getD c.conc.distance⟩ ∧
    (adaptQuant q c).matrix.anglein = q.anglein.getD c.matrix.anglein ∧ (adaptQuant q c).matrix.angleout = q.angleout.getD c.matrix.angleout ∧
    ((q.anglein.isSome ∨ q.angleout.isSome ∨ c.matrix.total = c.matrix.anglein + c.matrix.angleout) →
      (adaptQuant q c).matrix.total = (adaptQuant q c).matrix.anglein + (adaptQuant q c).matrix.angleout) ∧
    (adaptQuant q c).lines = c.lines ∧ (adaptQuant q c).peaks = c.peaks := by
  unfold adaptQuant
  cases ha : q.anglein <;> cases hb : q.angleout <;> simp

/-- **C73.**  What an adapted configuration is: the lines of the energy, M groups replaced, and no weights; fast fits are
linear and do not adjust the matrix. -/
theorem adapt_spec (E : Val) (h : Rat) (ml : List (Name × List Name)) (fast : Bool) (c c' : Config) (ha : adapt E h ml none fast c = some c') :
    c'.weight = 0 ∧ c'.peaks = adaptMlines ml c.peaks ∧ c'.conc = c.conc ∧
    (fast = true → c'.linear ≠ 0 ∧ c'.strategy = some 0) ∧ (fast = false → c'.linear = c.linear ∧ c'.strategy = c.strategy) ∧
    (E = none → c'.lines = c.lines ∧ c'.matrix = c.matrix) ∧
    (∀ e, E = some e → ∃ n, adaptEnergy e h c.lines = some (c'.lines, n) ∧
      (c.matrix.on ≠ 0 ∨ n ≤ 1 → c'.matrix = c.matrix) ∧
      (c.matrix.on = 0 → 1 < n → c'.matrix = { c.matrix with on := 1, material := kDummy, density := 1, thickness := 0 } ∧ c'.dummy = true)) := by
  unfold adapt at ha
  cases hs : adaptSource E h c with
  | none => rw [hs] at ha; cases ha
  | some d =>
    rw [hs] at ha
    simp only at ha
    have hc : c' = adaptRest ml none fast d := by
      split at ha
      · exact (Option.some.inj ha).symm
      · cases ha
    have hd : d.peaks = c.peaks ∧ d.conc = c.conc ∧ d.linear = c.linear ∧ d.strategy = c.strategy ∧ (E = none → d = c) ∧
        (∀ e, E = some e → ∃ n, adaptEnergy e h c.lines = some (d.lines, n) ∧ (c.matrix.on ≠ 0 ∨ n ≤ 1 → d.matrix = c.matrix) ∧
          (c.matrix.on = 0 → 1 < n → d.matrix = { c.matrix with on := 1, material := kDummy, density := 1, thickness := 0 } ∧ d.dummy = true)) := by
      unfold adaptSource at hs
      cases E with
      | none =>
        simp only [Option.some.injEq] at hs
        subst hs
        simp
      | some e =>
        simp only at hs
        cases hl : adaptEnergy e h c.lines with
        | none => rw [hl] at hs; cases hs
        | some ln =>
          obtain ⟨l, n⟩ := ln
          rw [hl] at hs
          simp only [Option.some.injEq] at hs
          by_cases hcond : c.matrix.on = 0 ∧ 1 < n
          · rw [if_pos hcond] at hs
            subst hs
            refine ⟨rfl, rfl, rfl, rfl, by simp, ?_⟩
            intro e' he'
            cases he'
            refine ⟨n, hl, ?_, fun _ _ => ⟨rfl, rfl⟩⟩
            rintro (h1 | h1)
            · exact absurd hcond.1 h1
            · omega
          · rw [if_neg hcond] at hs
            subst hs
            refine ⟨rfl, rfl, rfl, rfl, by simp, ?_⟩
            intro e' he'
            cases he'
            exact ⟨n, hl, fun _ => rfl, fun h1 h2 => absurd ⟨h1, h2⟩ hcond⟩
    obtain ⟨d1, d2, d3, d4, d5, d6⟩ := hd
    subst hc
    cases fast with
    | true =>
      refine ⟨rfl, by simp [adaptRest, adaptFast, d1], by simp [adaptRest, adaptFast, d2], fun _ => ⟨?_, rfl⟩, by simp, ?_, ?_⟩
      · simp only [adaptRest, if_true, adaptFast]
        split
        · decide
        · assumption
      · intro hE; rw [d5 hE]; exact ⟨rfl, rfl⟩
      · exact d6
    | false =>
      refine ⟨rfl, by simp [adaptRest, d1], by simp [adaptRest, d2], by simp, fun _ => ⟨d3, d4⟩, ?_, ?_⟩
      · intro hE; rw [d5 hE]; exact ⟨rfl, rfl⟩
      · exact d6

theorem adaptRest_twice (ml : List (Name × List Name)) (hs : ∀ x ∈ ml, kM ∉ x.2) (fast : Bool) (c : Config) :
    adaptRest ml none fast (adaptRest ml none fast c) = adaptRest ml none fast c := by
  cases fast with
  | true =>
    simp only [adaptRest, if_true, adaptFast, mlines_twice ml hs]
    by_cases h : c.linear = 0 <;> simp [h]
  | false => simp only [adaptRest, mlines_twice ml hs, Bool.false_eq_true, if_false]

/-- Adapting the source commutes with the rest. -/
theorem adaptSource_rest (E : Val) (h : Rat) (ml : List (Name × List Name)) (fast : Bool) (c : Config) :
    adaptSource E h (adaptRest ml none fast c) = (adaptSource E h c).map (adaptRest ml none fast) := by
  have h1 : (adaptRest ml none fast c).lines = c.lines ∧ (adaptRest ml none fast c).matrix = c.matrix := by
    cases fast <;> exact ⟨rfl, rfl⟩
  unfold adaptSource
  cases E with
  | none => rfl
  | some e =>
    simp only [h1.1, h1.2]
    cases adaptEnergy e h c.lines with
    | none => rfl
    | some ln =>
      obtain ⟨l, n⟩ := ln
      simp only [Option.map_some, Option.some.injEq]
      by_cases hc : c.matrix.on = 0 ∧ 1 < n
      · rw [if_pos hc, if_pos hc]; cases fast <;> rfl
      · rw [if_neg hc, if_neg hc]; cases fast <;> rfl

theorem adaptSource_twice (E E' h : Rat) (hE : 0 < E) (hE' : 0 < E') (hh : h = 0 ∨ 1 < h) (c d : Config) (h1 : adaptSource (some E) h c = some d) :
    adaptSource (some E') h d = adaptSource (some E') h c := by
  unfold adaptSource at h1
  simp only at h1
  cases hl : adaptEnergy E h c.lines with
  | none => rw [hl] at h1; cases h1
  | some ln =>
    obtain ⟨l, n⟩ := ln
    rw [hl] at h1
    simp only [Option.some.injEq] at h1
    have htw := adaptEnergy_twice E E' h hE hE' hh c.lines l n hl
    have hdl : d.lines = l := by rw [← h1]; split <;> rfl
    unfold adaptSource
    simp only
    rw [hdl, htw]
    cases hl' : adaptEnergy E' h c.lines with
    | none => rfl
    | some ln' =>
      obtain ⟨l', n'⟩ := ln'
      have hn := adapt_count E E' h hE hE' _ _ _ _ _ hl hl'
      subst hn
      simp only [Option.some.injEq]
      by_cases hc : c.matrix.on = 0 ∧ 1 < n
      · rw [if_pos hc] at h1
        subst h1
        rw [if_pos hc, if_neg (by simp)]
      · rw [if_neg hc] at h1
        subst h1
        rw [if_neg hc]

/-- **C73.**  Adapting a configuration that was adapted to another energy gives the same as adapting the
original configuration. -/
theorem adapt_twice (E E' h : Rat) (hE : 0 < E) (hE' : 0 < E') (hh : h = 0 ∨ 1 < h) (ml : List (Name × List Name)) (hs : ∀ x ∈ ml, kM ∉ x.2)
    (fast : Bool) (c d : Config) (h1 : adapt (some E) h ml none fast c = some d) :
    adapt (some E') h ml none fast d = adapt (some E') h ml none fast c := by
  unfold adapt at h1
  cases hs1 : adaptSource (some E) h c with
  | none => rw [hs1] at h1; cases h1
  | some c1 =>
    rw [hs1] at h1
    simp only at h1
    have hd : d = adaptRest ml none fast c1 := by
      split at h1
      · exact (Option.some.inj h1).symm
      · cases h1
    subst hd
    unfold adapt
    rw [adaptSource_rest, adaptSource_twice E E' h hE hE' hh c c1 hs1]
    cases adaptSource (some E') h c with
    | none => rfl
    | some c2 =>
      simp only [Option.map_some]
      rw [adaptRest_twice ml hs fast c2]

/-- **C73.**  With an energy that is not finite the lines stay as they are: those of the previous energy. -/
theorem adapt_keeps (E h : Rat) (ml : List (Name × List Name)) (fast : Bool) (c d e : Config) (_h1 : adapt (some E) h ml none fast c = some d)
    (h2 : adapt none h ml none fast d = some e) : e.lines = d.lines :=
  ((adapt_spec none h ml fast d e h2).2.2.2.2.2.1 rfl).1

/-! ## Where the lines are not as asked for -/

/-- Lines to try. -/
def exLines : Lines := ⟨[some 7, some 9, none], [some 2, some 1, some 0], [1, 1, 0], [1, 0, 0]⟩

/-- Non-vacuity of `adapt_active` and `adapt_high`. -/
example : Complete exLines 7 2 ∧ ¬ EndsHigh exLines 7 2 := by
  refine ⟨⟨⟨1, [⟨some 9, some 1, 0⟩], by decide +kernel⟩, by decide +kernel, by decide +kernel, by decide +kernel, by decide +kernel⟩, ?_⟩
  rintro ⟨l, e, w, h1, h2, h3, h4, _⟩
  have : (active exLines).getLast? = some ⟨some 9, some 1, 0⟩ := by decide +kernel
  rw [this, Option.some.injEq] at h1
  subst h1
  simp only [Option.some.injEq] at h3
  subst h3
  revert h4
  decide +kernel

example : (adaptEnergy 14 0 exLines).map (fun x => (active x.1, x.2)) = some ([⟨some 14, some 1, 1⟩, ⟨some 18, some (1/2), 0⟩], 2) := by decide +kernel

example : (adaptEnergy 14 3 exLines).map (fun x => (active x.1, x.2)) =
    some ([⟨some 14, some 1, 1⟩, ⟨some 18, some (1/2), 0⟩, ⟨some 42, some (1/10000000000), 0⟩], 3) := by decide +kernel

/-- **C73, deviation.**  A multiple that is not larger than 1 (`addhigh=True`) adds a line at each adaptation. -/
theorem high_accumulates : ∃ (c c' c'' : Lines), adaptEnergy 7 1 c = some (c', 2) ∧ adaptEnergy 8 1 c' = some (c'', 3) ∧ (active c).length = 1 := by
  refine ⟨⟨[some 7], [some 1], [1], [1]⟩, ⟨[some 7, some 7], [some 1, some (1/10000000000)], [1, 1], [1, 0]⟩,
    ⟨[some 8, some 8, some 8], [some 1, some (1/10000000000), some (1/10000000000)], [1, 1, 1], [1, 0, 0]⟩, ?_, ?_, ?_⟩ <;> decide +kernel

/-- **C73, deviation.**  A line in use without energy gets energy zero. -/
theorem zero_energy : ∃ c : Lines, ∃ s : Rat, (adaptEnergy 8 0 c).map (fun x => (active x.1)[1]?) = some (some ⟨some 0, some 1, s⟩) :=
  ⟨⟨[some 7, none], [some 1, some 1], [1, 1], [1, 0]⟩, 0, by decide +kernel⟩

end SC.FitCfg
