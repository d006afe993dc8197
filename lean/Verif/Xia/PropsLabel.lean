import Verif.Xia.Props
import Mathlib.Data.List.Infix
/-! # C28, labels: base label and detector -/
namespace SC.Xia
open SC.Py SC.Py.Regex SC.Naming

/-- How a detector is written in a counter label. -/
def IsDetector (d : Str) : Prop :=
  (d ≠ [] ∧ ∀ c ∈ d, c.isDigit = true) ∨ d = ['s', 'u', 'm'] ∨ d = ['S', 'u', 'm'] ∨
    ∃ e, d = 'S' :: e ∧ e ≠ [] ∧ ∀ c ∈ e, c.isDigit = true

theorem IsDetector.no_underscore {d : Str} (h : IsDetector d) : '_' ∉ d := by
  rcases h with ⟨_, h⟩ | rfl | rfl | ⟨e, rfl, _, h⟩
  · exact fun hm => absurd (h _ hm) (by decide)
  · decide
  · decide
  · intro hm
    rcases List.mem_cons.1 hm with hm | hm
    · exact absurd hm (by decide)
    · exact absurd (h _ hm) (by decide)

theorem IsDetector.no_newline {d : Str} (h : IsDetector d) : '\n' ∉ d := by
  rcases h with ⟨_, h⟩ | rfl | rfl | ⟨e, rfl, _, h⟩
  · exact fun hm => absurd (h _ hm) (by decide)
  · decide
  · decide
  · intro hm
    rcases List.mem_cons.1 hm with hm | hm
    · exact absurd hm (by decide)
    · exact absurd (h _ hm) (by decide)

theorem digits_iff {t : Str} : Piece.Fits ({ p := digit, lo := 1, hi := none } : Piece Unit) t ↔
    t ≠ [] ∧ ∀ c ∈ t, c.isDigit = true := by
  simp only [Piece.Fits, digit]
  constructor
  · rintro ⟨h1, h2, _⟩
    exact ⟨by rintro rfl; simp at h2, h1⟩
  · rintro ⟨h1, h2⟩
    exact ⟨h2, List.length_pos_iff.2 h1, by simp⟩

theorem flatten_singletons (w : Str) : (w.map (fun c => [c])).flatten = w := by
  induction w with
  | nil => rfl
  | cons a w ih => simp [ih]

/-- A text fits one of the alternatives exactly when it is a detector. -/
theorem alts_iff (s r d : Str) : (∃ ps ∈ detectorAlts, ∃ ts, Fits ps s ts r ∧ ts.flatten = d) ↔
    IsDetector d ∧ s = d ++ r := by
  simp only [detectorAlts, List.mem_cons, List.not_mem_nil, or_false, exists_eq_or_imp, exists_eq_left, fits_one, fits_lit,
    fits_append, digits_iff]
  constructor
  · rintro (⟨ts, ⟨t, rfl, rfl, h⟩, rfl⟩ | ⟨ts, ⟨rfl, rfl⟩, rfl⟩ | ⟨ts, ⟨rfl, rfl⟩, rfl⟩ | ⟨ts, ⟨t1, t2, m, rfl, ⟨rfl, rfl⟩, t, rfl, rfl, h⟩, rfl⟩)
    · simp only [List.flatten_cons, List.flatten_nil, List.append_nil]
      exact ⟨Or.inl h, trivial⟩
    · rw [flatten_singletons]; exact ⟨Or.inr (Or.inl rfl), rfl⟩
    · rw [flatten_singletons]; exact ⟨Or.inr (Or.inr (Or.inl rfl)), rfl⟩
    · refine ⟨Or.inr (Or.inr (Or.inr ⟨t, by simp, h⟩)), by simp⟩
  · rintro ⟨h | rfl | rfl | ⟨e, rfl, h⟩, rfl⟩
    · exact Or.inl ⟨[d], ⟨d, rfl, rfl, h⟩, by simp⟩
    · exact Or.inr (Or.inl ⟨_, ⟨rfl, rfl⟩, flatten_singletons _⟩)
    · exact Or.inr (Or.inr (Or.inl ⟨_, ⟨rfl, rfl⟩, flatten_singletons _⟩))
    · exact Or.inr (Or.inr (Or.inr ⟨_, ⟨_, _, _, rfl, ⟨rfl, rfl⟩, e, rfl, rfl, h⟩, by simp⟩))

theorem detectorEnd_eq {s : Str} {o : List Str} (h : detectorEnd s = some o) :
    ∃ d e, IsDetector d ∧ (e = [] ∨ e = ['\n']) ∧ s = d ++ e ∧ o = [d] := by
  unfold detectorEnd at h
  obtain ⟨ps, hps, h⟩ := List.exists_of_findSome?_eq_some h
  rw [Option.map_eq_some_iff] at h
  obtain ⟨ts, hts, rfl⟩ := h
  obtain ⟨ts', r, o', rfl, hf, hk⟩ := run_sound _ _ _ _ hts
  obtain ⟨he, rfl⟩ := dollar_eq.1 hk
  obtain ⟨h1, h2⟩ := (alts_iff s r ts'.flatten).1 ⟨ps, hps, ts', hf, rfl⟩
  exact ⟨ts'.flatten, r, h1, he, h2, by simp⟩

theorem detectorEnd_some {d e : Str} (hd : IsDetector d) (he : e = [] ∨ e = ['\n']) : (detectorEnd (d ++ e)).isSome := by
  obtain ⟨ps, hps, ts, hf, _⟩ := (alts_iff (d ++ e) e d).2 ⟨hd, rfl⟩
  unfold detectorEnd
  rw [List.findSome?_isSome_iff]
  refine ⟨ps, hps, ?_⟩
  have := run_complete ps dollar (d ++ e) ts e hf (by rw [dollar_isSome]; exact he)
  simpa using this

/-- A text is read as a name, possibly an underscore, and a detector. -/
def NameDetector (label name u d : Str) : Prop :=
  ∃ e, (∀ c ∈ name, c ≠ '\n') ∧ (u = [] ∨ u = ['_']) ∧ IsDetector d ∧ (e = [] ∨ e = ['\n']) ∧ label = name ++ (u ++ (d ++ e))

theorem name_pieces {s r : Str} {ts : List Str} :
    Fits ({ p := dot, lo := 0, hi := none, greedy := false } ::
      [({ p := fun c => c == '_', lo := 0, hi := some 1 } : Piece Unit)]) s ts r ↔
    ∃ name u, (∀ c ∈ name, c ≠ '\n') ∧ (u = [] ∨ u = ['_']) ∧ ts = [name, u] ∧ s = name ++ (u ++ r) := by
  rw [fits_cons]
  simp only [fits_one]
  constructor
  · rintro ⟨name, ts', s', rfl, rfl, ⟨h1, _, _⟩, u, rfl, rfl, ⟨h2, _, h3⟩⟩
    refine ⟨name, u, fun c hc => by simpa [dot] using h1 c hc, ?_, rfl, rfl⟩
    have := h3 1 rfl
    match u, this with
    | [], _ => exact Or.inl rfl
    | [c], _ => have := h2 c (by simp); simp at this; exact Or.inr (by rw [this])
  · rintro ⟨name, u, h1, h2, rfl, rfl⟩
    refine ⟨name, [u], u ++ r, rfl, rfl, ⟨fun c hc => by simpa [dot] using h1 c hc, by simp, by simp⟩, u, rfl, rfl, ?_⟩
    rcases h2 with rfl | rfl <;> simp [Piece.Fits]

/-- The expression for detectors takes the shortest name with which the rest is a detector. -/
theorem matchDetector_spec {label name d : Str} (h : matchDetector label = some (name, d)) :
    (∃ u, NameDetector label name u d) ∧ ∀ name' u' d', NameDetector label name' u' d' → name.length ≤ name'.length := by
  unfold matchDetector at h
  split at h
  · next n1 u1 d1 hrun =>
    simp only [Option.some.injEq, Prod.mk.injEq] at h
    obtain ⟨rfl, rfl⟩ := h
    obtain ⟨ts, r, o', ho, hf, hk⟩ := run_sound _ _ _ _ hrun
    obtain ⟨dd, e, hd, he, rfl, rfl⟩ := detectorEnd_eq hk
    obtain ⟨nn, uu, h1, h2, rfl, hs⟩ := name_pieces.1 hf
    simp only [List.cons_append, List.nil_append, List.cons.injEq, and_true] at ho
    obtain ⟨rfl, rfl, rfl⟩ := ho
    refine ⟨⟨u1, e, h1, h2, hd, he, hs⟩, ?_⟩
    rintro name' u' d' ⟨e', k1, k2, k3, k4, k5⟩
    exact run_lazy _ _ rfl _ _ _ _ hrun name' _ (d' ++ e') (name_pieces.2 ⟨name', u', k1, k2, rfl, k5⟩) (detectorEnd_some k3 k4)
  · simp at h

theorem matchDetector_isSome {label : Str} : (matchDetector label).isSome ↔ ∃ name u d, NameDetector label name u d := by
  constructor
  · intro h
    obtain ⟨⟨name, d⟩, h⟩ := Option.isSome_iff_exists.1 h
    obtain ⟨⟨u, h1⟩, _⟩ := matchDetector_spec h
    exact ⟨name, u, d, h1⟩
  · rintro ⟨name, u, d, e, k1, k2, k3, k4, k5⟩
    have h := run_complete _ detectorEnd label _ (d ++ e) (name_pieces.2 ⟨name, u, k1, k2, rfl, k5⟩) (detectorEnd_some k3 k4)
    obtain ⟨o, ho⟩ := Option.isSome_iff_exists.1 h
    obtain ⟨ts, r, o', ho', hf, hk⟩ := run_sound _ _ _ _ ho
    obtain ⟨dd, e', hd, he, rfl, rfl⟩ := detectorEnd_eq hk
    obtain ⟨nn, uu, h1, h2, rfl, hs⟩ := name_pieces.1 hf
    unfold matchDetector
    rw [ho, ho']
    simp

/-- A separated detector is found. -/
theorem matchDetector_separated {base d : Str} (hb : ∀ c ∈ base, c ≠ '\n') (hd : IsDetector d) :
    matchDetector (base ++ '_' :: d) = some (base, d) := by
  have hnd : NameDetector (base ++ '_' :: d) base ['_'] d := ⟨[], hb, Or.inr rfl, hd, Or.inl rfl, by simp⟩
  obtain ⟨⟨name, d'⟩, h⟩ := Option.isSome_iff_exists.1 (matchDetector_isSome.2 ⟨_, _, _, hnd⟩)
  obtain ⟨⟨u, e, k1, k2, k3, k4, k5⟩, hmin⟩ := matchDetector_spec h
  have hle := hmin _ _ _ hnd
  have he : e = [] := by
    rcases k4 with rfl | rfl
    · rfl
    · have : '\n' ∈ base ++ '_' :: d := by rw [k5]; simp
      rcases List.mem_append.1 this with hm | hm
      · exact absurd rfl (hb _ hm)
      · rcases List.mem_cons.1 hm with hm | hm
        · exact absurd hm (by decide)
        · exact absurd hm hd.no_newline
  subst he
  rw [List.append_nil] at k5
  rw [h]
  rcases k2 with rfl | rfl
  · exfalso
    rw [List.nil_append] at k5
    rcases List.append_eq_append_iff.1 k5 with ⟨x, hx1, hx2⟩ | ⟨x, hx1, hx2⟩
    · have : x = [] := by
        have := congrArg List.length hx1
        rw [List.length_append] at this
        exact List.length_eq_zero_iff.1 (by omega)
      subst this
      simp only [List.nil_append] at hx2
      exact k3.no_underscore (by rw [← hx2]; simp)
    · exact k3.no_underscore (by rw [hx2]; simp)
  · obtain ⟨rfl, rfl⟩ := sep_last k5 hd.no_underscore k3.no_underscore
    rfl

theorem xiaparselabel_eq (label : Str) : xiaparselabel label =
    if ['x', 'i', 'a'] <+: label then (['x', 'i', 'a'], label.drop 3)
    else if ['P', 'U', 'Z', '_', 'x', 'm', 'a', 'p'] <+: label ∨ ['x', 'm', 'a', 'p'] <+: label then
      ((matchDetector label).map (fun x => (stripUnderscore x.1, x.2))).getD (label, [])
    else (label, []) := by
  simp only [xiaparselabel, ← List.isPrefixOf_iff_prefix]
  split
  · rfl
  · simp only [defaultCounters, List.findSome?_cons, labelOf, Bool.and_false, Bool.and_true, Bool.false_eq_true, if_false,
      List.findSome?_nil]
    cases h1 : ['P', 'U', 'Z', '_', 'x', 'm', 'a', 'p'].isPrefixOf label <;> cases h2 : ['x', 'm', 'a', 'p'].isPrefixOf label <;>
      cases matchDetector label <;> simp

theorem not_both {c d : Char} {a b label : Str} (hcd : c ≠ d) (h : (c :: a) <+: label) : ¬ (d :: b) <+: label := by
  rintro ⟨t, ht⟩
  obtain ⟨t', rfl⟩ := h
  simp only [List.cons_append, List.cons.injEq] at ht
  exact hcd ht.1.symm

theorem not_xia_xmap {label : Str} (h : ['P', 'U', 'Z', '_', 'x', 'm', 'a', 'p'] <+: label ∨ ['x', 'm', 'a', 'p'] <+: label) :
    ¬ ['x', 'i', 'a'] <+: label := by
  rintro ⟨t, rfl⟩
  rcases h with ⟨t', h⟩ | ⟨t', h⟩ <;> simp at h

/-- Counters of the xmap electronics: the detector after the last underscore is split off. -/
theorem xiaparselabel_detector {base d : Str} (hb : ∀ c ∈ base, c ≠ '\n') (hd : IsDetector d)
    (h : ['P', 'U', 'Z', '_', 'x', 'm', 'a', 'p'] <+: base ∨ ['x', 'm', 'a', 'p'] <+: base)
    (hu : base.getLast? ≠ some '_') : xiaparselabel (base ++ '_' :: d) = (base, d) := by
  have h' : ['P', 'U', 'Z', '_', 'x', 'm', 'a', 'p'] <+: base ++ '_' :: d ∨ ['x', 'm', 'a', 'p'] <+: base ++ '_' :: d :=
    h.imp (fun h => h.trans (List.prefix_append ..)) (fun h => h.trans (List.prefix_append ..))
  rw [xiaparselabel_eq, if_neg (not_xia_xmap h'), if_pos h', matchDetector_separated hb hd]
  simp [stripUnderscore, hu]

/-- One more underscore does not become part of the base label. -/
theorem xiaparselabel_underscores {base d : Str} (hb : ∀ c ∈ base, c ≠ '\n') (hd : IsDetector d)
    (h : ['P', 'U', 'Z', '_', 'x', 'm', 'a', 'p'] <+: base ∨ ['x', 'm', 'a', 'p'] <+: base) :
    xiaparselabel (base ++ '_' :: '_' :: d) = (base, d) := by
  have e : base ++ '_' :: '_' :: d = (base ++ ['_']) ++ '_' :: d := by simp
  have hb' : ∀ c ∈ base ++ ['_'], c ≠ '\n' := by
    intro c hc
    rcases List.mem_append.1 hc with hc | hc
    · exact hb c hc
    · simp only [List.mem_singleton] at hc
      subst hc
      decide
  have h' : ['P', 'U', 'Z', '_', 'x', 'm', 'a', 'p'] <+: base ++ '_' :: '_' :: d ∨ ['x', 'm', 'a', 'p'] <+: base ++ '_' :: '_' :: d :=
    h.imp (fun h => h.trans (List.prefix_append ..)) (fun h => h.trans (List.prefix_append ..))
  rw [xiaparselabel_eq, if_neg (not_xia_xmap h'), if_pos h', e, matchDetector_separated hb' hd]
  simp [stripUnderscore]

/-- Counters of the xmap electronics without a detector at the end keep their label. -/
theorem xiaparselabel_nodetector {label : Str} (h : ¬ ∃ name u d, NameDetector label name u d)
    (hx : ¬ ['x', 'i', 'a'] <+: label) : xiaparselabel label = (label, []) := by
  have : matchDetector label = none := by
    rw [← matchDetector_isSome] at h
    simpa using h
  rw [xiaparselabel_eq, if_neg hx, this]
  split <;> rfl

/-- Other labels keep their label and have no detector. -/
theorem xiaparselabel_other {label : Str} (hx : ¬ ['x', 'i', 'a'] <+: label)
    (h1 : ¬ ['P', 'U', 'Z', '_', 'x', 'm', 'a', 'p'] <+: label) (h2 : ¬ ['x', 'm', 'a', 'p'] <+: label) :
    xiaparselabel label = (label, []) := by
  rw [xiaparselabel_eq, if_neg hx, if_neg (by tauto)]

/-- The parsed base label and detector are those of the label. -/
theorem parse_label {extra : List Str} {f : Str} {n : XiaName} (h : parse extra f = some n) :
    (n.baselabel, n.detector) = xiaparselabel n.label := by
  simp only [parse, Option.map_eq_some_iff] at h
  obtain ⟨x, _, rfl⟩ := h
  rfl

end SC.Xia
