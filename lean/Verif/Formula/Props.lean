import Verif.Formula.Longest
import Verif.Compound.Props
/-! # C53: chemical formulas -/
namespace SC.Formula
open SC.Compound (amount total names IsTable Items Cmpd Frac inUnits)

/-- What follows a formula and does not continue it: white space, then nothing or foreign text. -/
theorem stop_of {b z : Str} (hb : Blank b) (hz : Foreign z) : Stop (b ++ z) := by
  have key : ∀ c ∈ z.head?, isBlank c = false ∧ c.isDigit = false ∧ c ≠ '.' ∧ isUpper c = false ∧ c ≠ '(' ∧ isLower c = false := by
    intro c hc
    obtain ⟨h1, h2, h3, h4⟩ := hz c hc
    simp only [List.mem_cons, List.not_mem_nil, or_false, not_or] at h1
    refine ⟨?_, h4, h1.2.2.2.2.1, by simpa [isUpper] using h2, h1.2.2.2.2.2, by simpa [isLower] using h3⟩
    simp [isBlank, h1.1, h1.2.1, h1.2.2.1, h1.2.2.2.1]
  constructor
  · intro c hc
    rw [skip_blank _ _ hb] at hc
    cases z with
    | nil => simp [skip] at hc
    | cons a z =>
      have hk := key a (by simp)
      rw [skip_cons _ hk.1] at hc
      simp at hc; subst hc
      exact ⟨hk.2.1, hk.2.2.1, hk.2.2.2.1, hk.2.2.2.2.1⟩
  · intro c hc
    rcases head_blank _ _ hb c hc with h | h
    · exact blank_not_lower h
    · exact (key c h).2.2.2.2.2

theorem layout_length_le {t z : Str} : t.length ≤ (t ++ z).length + 1 := by
  rw [List.length_append]; omega

/-- **C53.**  Every way to write a formula is read as this formula, with any white space behind
it. -/
theorem formula_written (strict : Bool) {f : F} {t b : Str} (h : Layout f t) (hf : f ≠ .nil) (hb : Blank b) :
    parse strict (t ++ b) = some (f, b) := by
  have hz := stop_of hb (z := []) (by simp [Foreign])
  rw [List.append_nil] at hz
  have := groups_layout strict h ((t ++ b).length + 1) b layout_length_le hz
  simp only [parse, this, if_neg hf]

/-- **C53.**  What is read stands at the beginning of the text, in both versions of pyparsing. -/
theorem formula_read (strict : Bool) {s r : Str} {f : F} (h : parse strict s = some (f, r)) :
    f ≠ .nil ∧ ∃ t, Layout f t ∧ s = t ++ r := by
  simp only [parse] at h
  split at h
  · cases h
  · rename_i hne
    have h' := Option.some.inj h
    obtain ⟨t, ht, hs⟩ := groups_sound strict (s.length + 1) s
    rw [h'] at ht hs hne
    exact ⟨hne, t, ht, hs⟩

/-- **C53.**  A text is read to the end as `f` exactly when it is a way to write `f` with white space
behind it. -/
theorem formula_exact (strict : Bool) (s : Str) (f : F) : (∃ r, parse strict s = some (f, r) ∧ Blank r) ↔
    f ≠ .nil ∧ ∃ t b, Layout f t ∧ Blank b ∧ s = t ++ b := by
  constructor
  · rintro ⟨r, h, hr⟩
    obtain ⟨hf, t, ht, hs⟩ := formula_read strict h
    exact ⟨hf, t, r, ht, hr, hs⟩
  · rintro ⟨hf, t, b, ht, hb, rfl⟩
    exact ⟨b, formula_written strict ht hf hb, hb⟩

/-- **C53.**  A text is a way to write one formula only. -/
theorem formula_unambiguous {f g : F} {t : Str} (h : Layout f t) (h' : Layout g t) : f = g := by
  have hz : Stop [] := stop_of (b := []) (z := []) (by simp [Blank]) (by simp [Foreign])
  have e1 := groups_layout true h t.length [] le_rfl hz
  have e2 := groups_layout true h' t.length [] le_rfl hz
  rw [e1] at e2
  exact (Prod.mk.inj e2).1

/-- **C53.**  A text is refused exactly when no formula stands at its beginning. -/
theorem formula_refused (strict : Bool) (s : Str) : parse strict s = none ↔
    ¬ ∃ f t r, f ≠ .nil ∧ Layout f t ∧ s = t ++ r := by
  constructor
  · rintro h ⟨f, t, r, hf, ht, rfl⟩
    have := groups_some strict ht hf ((t ++ r).length + 1) r layout_length_le
    simp only [parse] at h
    split at h
    · rename_i h'; exact this h'
    · cases h
  · intro h
    cases hp : parse strict s with
    | none => rfl
    | some x =>
      obtain ⟨hf, t, ht, hs⟩ := formula_read strict (f := x.1) (r := x.2) hp
      exact absurd ⟨x.1, t, x.2, hf, ht, hs⟩ h

/-- **C53.**  No formula at the beginning of the text is longer than the one that is read.  Before
pyparsing 3 this needs a text without two small letters in a row. -/
theorem formula_longest (strict : Bool) {s r : Str} {f : F} (h : parse strict s = some (f, r))
    (hp : strict = true → NoPair s) {g : F} {t z : Str} (hg : Layout g t) (hs : s = t ++ z) : r.length ≤ z.length := by
  subst hs
  have := groups_longest strict hg ((t ++ z).length + 1) z layout_length_le hp
  simp only [parse] at h
  split at h
  · cases h
  · rw [Option.some.inj h] at this; exact this

/-- **C53, violated.**  Without `parseAll`, text behind a formula is ignored: a formula with foreign
text behind it, such as an unmatched closing parenthesis, is accepted as if the text were not
there. -/
theorem formula_tail_partial (strict : Bool) {f : F} {t b z : Str} (h : Layout f t) (hf : f ≠ .nil) (hb : Blank b)
    (hz : Foreign z) : parse strict (t ++ (b ++ z)) = some (f, b ++ z) ∧ eval strict (t ++ (b ++ z)) = eval strict t := by
  have h1 := groups_layout strict h ((t ++ (b ++ z)).length + 1) (b ++ z) layout_length_le (stop_of hb hz)
  have h2 := formula_written strict h hf (b := []) (by simp [Blank])
  rw [List.append_nil] at h2
  refine ⟨by simp only [parse, h1, if_neg hf], ?_⟩
  have h3 : parse strict (t ++ (b ++ z)) = some (f, b ++ z) := by simp only [parse, h1, if_neg hf]
  simp only [eval, h2, h3, Option.map_some]

/-- **C53.**  The numbers of a formula: every element once, in the order of first occurrence, with
the sum over its occurrences of the products of the multipliers around them. -/
theorem formula_counts (strict : Bool) {s r : Str} {f : F} (h : parse strict s = some (f, r)) (val : Str → ℚ)
    (hv : Values val f) : ∃ d, eval strict s = some d ∧
      IsTable id d (names id (occurrences val f 1)) (amount id (occurrences val f 1)) ∧
      names id d = firsts (names id (occurrences val f 1)) := by
  obtain ⟨-, t, ht, -⟩ := formula_read strict h
  have hp := layout_proper ht
  have hw := walk_trees hp
  rw [occurrences_congr (values_floatOf hp) hv] at hw
  have he : eval strict s = some (walk (.node f.trees) 1 []) := by simp only [eval, h, Option.map_some]
  refine ⟨_, he, ?_⟩
  rw [hw]
  exact ⟨Compound.compose_table id _, names_compose _⟩

/-- **C53.**  Every formula that is read has values for its numbers, so the theorem above applies to
every text that is not refused; values are never negative. -/
theorem formula_values (strict : Bool) {s r : Str} {f : F} (h : parse strict s = some (f, r)) :
    (∃ val, Values val f) ∧ ∀ val, Values val f → ∀ p ∈ occurrences val f 1, 0 ≤ p.2 := by
  obtain ⟨-, t, ht, -⟩ := formula_read strict h
  exact ⟨⟨_, values_floatOf (layout_proper ht)⟩, fun val hv => occurrences_nonneg hv 1 zero_le_one⟩

theorem occurrences_ne {f : F} (hf : f ≠ .nil) (hp : Proper f) (val : Str → ℚ) (m : ℚ) : occurrences val f m ≠ [] := by
  induction f generalizing m with
  | nil => exact absurd rfl hf
  | el e n r _ => simp [occurrences]
  | par i n r ih _ =>
    have := ih hp.1 hp.2.1 (m * val n)
    simp [occurrences, this]

theorem _root_.SC.Compound.IsTable.congr {d : Items Str ℚ} {ns ns' : List Str} {g g' : Str → ℚ} (h : IsTable id d ns g)
    (hn : ∀ e, e ∈ ns ↔ e ∈ ns') (hg : ∀ e ∈ ns', g e = g' e) : IsTable id d ns' g' where
  distinct := h.distinct
  known e he := by rw [h.known e ((hn e).2 he), hg e he]
  unknown e he := h.unknown e fun h' => he ((hn e).1 h')

/-- **C53.**  A compound from a formula holds its elements in the proportions of the formula: the mole
fraction of an element is its number of atoms in the total number of atoms, the mass fraction is
its share of the molar mass, which is the sum over the atoms. -/
theorem formula_compound (strict : Bool) (known : Str → Bool) (MM rho : Str → ℚ) (hM : ∀ e, 0 < MM e) {s r : Str}
    {f : F} (h : parse strict s = some (f, r)) (val : Str → ℚ) (hv : Values val f)
    (hk : ∀ e ∈ names id (occurrences val f 1), known e = true) (h0 : 0 < total (occurrences val f 1))
    (density : Option ℚ) (name : Option Str) :
    ∃ c x w, new strict known MM rho s density name = some c ∧ c.Valid ∧ c.name = String.ofList (name.getD s) ∧
      (∀ d, density = some d → d ≠ 0 → c.density = d) ∧
      c.fractions MM .mole = some x ∧ c.fractions MM .mass = some w ∧
      IsTable id x (names id (occurrences val f 1))
        (fun e => amount id (occurrences val f 1) e / total (occurrences val f 1)) ∧
      IsTable id w (names id (occurrences val f 1))
        (fun e => amount id (occurrences val f 1) e * MM e / total (inUnits MM (occurrences val f 1))) ∧
      c.molarmass MM = total (inUnits MM (occurrences val f 1)) := by
  obtain ⟨hf, t, ht, -⟩ := formula_read strict h
  have hpr := layout_proper ht
  have hev : eval strict s = some (Compound.compose id (occurrences val f 1)) := by
    have hw := walk_trees hpr
    rw [occurrences_congr (values_floatOf hpr) hv] at hw
    have he : eval strict s = some (walk (.node f.trees) 1 []) := by simp only [eval, h, Option.map_some]
    rw [he, hw]
  generalize hl : occurrences val f 1 = l at *
  have hnn : ∀ p ∈ l, 0 ≤ p.2 := by rw [← hl]; exact occurrences_nonneg hv 1 zero_le_one
  have hpl : Compound.Proper l := ⟨hnn, h0⟩
  have hpd := hpl.compose (id : Str → Str)
  generalize hd : Compound.compose id l = d at *
  have hne : d.isEmpty = false := by
    cases d with
    | nil => exact absurd hpd.pos (by simp [Compound.total_nil])
    | cons a d => rfl
  have hkn : (Compound.keys d).all known = true := by
    rw [List.all_eq_true]
    intro e he
    apply hk
    rw [← Compound.compose_names id l e, hd]
    simpa [Compound.keys, names] using he
  have hzip : (Compound.keys d).zip (Compound.vals d) = d := by
    simp only [Compound.keys, Compound.vals]
    rw [List.zip_map', List.map_id']
  have hlen : (Compound.keys d).length = (Compound.vals d).length := by simp [Compound.keys, Compound.vals]
  obtain ⟨c, x, hc1, hc2, hc3, hc4, hc5, hc6, hc7, -⟩ := Compound.new_compound MM rho hM (String.ofList (name.getD s))
    (Compound.keys d) (Compound.vals d) .mole density (by simp) hlen (by rw [hzip]; exact hpd)
  rw [hzip] at hc6
  have hcel : c.elements = Compound.compose id d := by
    simp only [Cmpd.new, Compound.elementMoles, Option.map_some, hzip] at hc1
    rw [← Option.some.inj hc1]
  have ham : ∀ e, amount id c.elements e = amount id l e := by
    intro e; rw [hcel, Compound.compose_amount, ← hd, Compound.compose_amount]
  have hnm : ∀ e, e ∈ names id c.elements ↔ e ∈ names id l := by
    intro e; rw [hcel, Compound.compose_names, ← hd, Compound.compose_names]
  have hws : ∀ g : Str → ℚ, total (inUnits g c.elements) = total (inUnits g l) := by
    intro g
    have e1 := Compound.wsum_compose id g d (Compound.respects_id g d)
    have e2 := Compound.wsum_compose id g l (Compound.respects_id g l)
    rw [hcel]
    exact e1.trans (by rw [← hd]; exact e2)
  obtain ⟨x', hx1, -, hx2⟩ := Compound.compound_fractions MM hM c hc2 .mole (by simp)
  obtain ⟨w, hw1, -, hw2⟩ := Compound.compound_fractions MM hM c hc2 .mass (by simp)
  refine ⟨c, x', w, ?_, hc2, hc3, hc4, hx1, hw1, ?_, ?_, ?_⟩
  · simp only [new, hev, hne, hkn, if_true, hc1]
    rfl
  · refine hx2.congr (fun e => (hnm e)) fun e _ => ?_
    have : total (inUnits (Compound.perMole MM .mole) c.elements) = total l := by
      rw [hws]
      show total (inUnits (fun _ => 1) l) = _
      rw [Compound.inUnits_one]
    rw [this, ham]
    show _ * (1 : ℚ) / _ = _
    rw [mul_one]
  · refine hw2.congr (fun e => (hnm e)) fun e _ => ?_
    have : total (inUnits (Compound.perMole MM .mass) c.elements) = total (inUnits MM l) := hws MM
    rw [this, ham]
    rfl
  · rw [← hws MM]
    simp only [Cmpd.molarmass, Cmpd.equivalents, total, inUnits, List.map_map]
    congr 1
    apply List.map_congr_left
    intro p _
    exact mul_comm _ _

theorem mapM_some {α β : Type} (g : α → Option β) (l : List α) (r : List β) :
    l.mapM g = some r ↔ List.Forall₂ (fun a b => g a = some b) l r := by
  induction l generalizing r with
  | nil =>
    simp only [List.mapM_nil, List.forall₂_nil_left_iff]
    constructor
    · intro h; exact (Option.some.inj h).symm
    · rintro rfl; rfl
  | cons a l ih =>
    rw [List.mapM_cons]
    constructor
    · intro h
      cases ha : g a with
      | none => rw [ha] at h; cases h
      | some b =>
        rw [ha] at h
        cases hl : l.mapM g with
        | none => rw [hl] at h; cases h
        | some bs =>
          rw [hl] at h
          cases h
          exact .cons ha ((ih bs).1 hl)
    · intro h
      cases h with
      | cons ha hl => rw [ha, (ih _).2 hl]; rfl

/-- **C53.**  `factory` makes all the compounds of a list, or none. -/
theorem formula_factory (strict : Bool) (known : Str → Bool) (MM rho : Str → ℚ) (l : List Str) (cs : List (Cmpd Str ℚ)) :
    factory strict known MM rho l = some cs ↔
      List.Forall₂ (fun s c => new strict known MM rho s none none = some c) l cs := mapM_some _ l cs

/-! ## cases -/

/-- nested parentheses, decimals and white space -/
def sample : F := .el "Ca".toList "5".toList (.par (.el "P".toList "1".toList (.par (.el "O".toList "2.".toList
  (.el "H".toList ".5".toList .nil)) "2".toList .nil)) "3".toList (.el "F".toList "1".toList (.el "O".toList "1".toList .nil)))
theorem sample_parse (strict : Bool) : parse strict " Ca 5(P(O2.H.5 )2)3F O".toList = some (sample, []) := by
  cases strict <;> decide +kernel
example : ∃ t, Layout sample t ∧ " Ca 5(P(O2.H.5 )2)3F O".toList = t ++ [] := (formula_read true (sample_parse true)).2
example : eval false " Ca 5(P(O2.H.5 )2)3F O".toList =
    some [("Ca".toList, 5), ("P".toList, 3), ("O".toList, 13), ("H".toList, 3), ("F".toList, 1)] := by decide +kernel
example : (∃ val, Values val sample) := (formula_values true (sample_parse true)).1
/-- the unclosed group is dropped silently -/
example : parse false "H2(SO4".toList = some (.el "H".toList "2".toList .nil, "(SO4".toList) := by decide +kernel
example : parse false "H2)O".toList = some (.el "H".toList "2".toList .nil, ")O".toList) := by decide +kernel
example : Foreign ")O".toList := by
  intro c hc
  have : c = ')' := by simpa using hc.symm
  subst this; decide
/-- the versions of pyparsing differ; the older one is not the longest formula -/
example : parse true "Caa".toList = some (.el "C".toList "1".toList .nil, "aa".toList) ∧
    parse false "Caa".toList = some (.el "Ca".toList "1".toList .nil, "a".toList) := by decide +kernel
example : parse false "h2o".toList = none ∧ parse false "".toList = none ∧ parse true "2H".toList = none ∧
    parse true "(H".toList = none := by decide +kernel
example : NoPair "Ca".toList := by
  intro p a b q e ha
  have h1 : p ++ a :: b :: q = ['C', 'a'] := e.symm
  cases p with
  | nil => simp at h1; rw [h1.1] at ha; exact absurd ha (by decide)
  | cons x p =>
    have := congrArg List.length h1
    simp only [List.length_cons, List.length_append, List.length_nil] at this
    omega
example : (factory false (fun _ => true) (fun _ => 1) (fun _ => 1) ["H2O".toList, "NaCl".toList]).isSome = true := by
  decide +kernel
example : 0 < total (occurrences SC.Scan.floatOf sample 1) := by decide +kernel

end SC.Formula
