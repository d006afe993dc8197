import Verif.Pymca.Spec
import Verif.Compound.Lemmas
import Mathlib.Tactic.Linarith
/-! # Lemmas about names and saving -/
namespace SC.Pymca
open SC.Formula (Str IsSymbol isUpper isLower)
open SC.Py

theorem isUpper_iff (c : Char) : isUpper c = true ↔ 'A' ≤ c ∧ c ≤ 'Z' := by simp [isUpper]
theorem isLower_iff (c : Char) : isLower c = true ↔ 'a' ≤ c ∧ c ≤ 'z' := by simp [isLower]
theorem isDig_iff (c : Char) : isDig c = true ↔ '0' ≤ c ∧ c ≤ '9' := by simp [isDig]

theorem dig_not_upper {c : Char} (h : isDig c = true) : isUpper c = false := by
  rw [isDig_iff] at h
  have : ¬ isUpper c = true := by
    rw [isUpper_iff]; intro h2
    exact absurd (Char.le_trans h2.1 h.2) (by decide)
  simpa using this

theorem lower_not_upper {c : Char} (h : isLower c = true) : isUpper c = false := by
  rw [isLower_iff] at h
  have : ¬ isUpper c = true := by
    rw [isUpper_iff]; intro h2
    exact absurd (Char.le_trans h.1 h2.2) (by decide)
  simpa using this

theorem lower_not_dig {c : Char} (h : isLower c = true) : isDig c = false := by
  rw [isLower_iff] at h
  have : ¬ isDig c = true := by
    rw [isDig_iff]; intro h2
    exact absurd (Char.le_trans h.1 h2.2) (by decide)
  simpa using this

theorem tail_digits (ds r : Str) (h : ∀ c ∈ ds, isDig c = true) : tokens .tail (ds ++ r) = tokens .tail r := by
  induction ds with
  | nil => rfl
  | cons c ds ih =>
    have hc := h c (by simp)
    simp only [List.cons_append, tokens, dig_not_upper hc, hc]
    simpa using ih (fun x hx => h x (by simp [hx]))

theorem upper_digits (ds r : Str) (h : ∀ c ∈ ds, isDig c = true) (hr : tokens .upper r = true)
    (hr' : tokens .tail r = true) : tokens .upper (ds ++ r) = true := by
  cases ds with
  | nil => exact hr
  | cons c ds =>
    have hc := h c (by simp)
    simp only [List.cons_append, tokens, dig_not_upper hc, hc]
    simpa [tail_digits ds r (fun x hx => h x (by simp [hx]))] using hr'

theorem start_piece (t r : Str) (h : IsPiece t) (hr : tokens .upper r = true) (hr' : tokens .tail r = true) :
    tokens .start (t ++ r) = true ∧ tokens .upper (t ++ r) = true ∧ tokens .tail (t ++ r) = true := by
  obtain ⟨e, ds, ⟨c, hc, he⟩, hds, rfl⟩ := h
  have hd : ∀ c ∈ ds, isDig c = true := fun c hc => (isDig_iff c).2 (hds c hc)
  have hU := (isUpper_iff c).2 hc
  have key : ∀ e', (e = c :: e') → tokens .upper (e' ++ (ds ++ r)) = true := by
    intro e' h'
    rcases he with rfl | ⟨d, hdl, rfl⟩
    · simp only [List.cons.injEq, true_and] at h'; subst h'
      simpa using upper_digits ds r hd hr hr'
    · simp only [List.cons.injEq, true_and] at h'; subst h'
      have hL := (isLower_iff d).2 hdl
      simp only [List.cons_append, List.nil_append, tokens, lower_not_upper hL, hL]
      simpa [tail_digits ds r hd] using hr'
  have : ∃ e', e = c :: e' := by
    rcases he with rfl | ⟨d, _, rfl⟩ <;> simp
  obtain ⟨e', rfl⟩ := this
  have := key e' rfl
  simp only [List.append_assoc] at this ⊢
  simp [tokens, hU, this]

theorem pieces_tokens (ts : List Str) (h : ∀ t ∈ ts, IsPiece t) :
    tokens .upper ts.flatten = true ∧ tokens .tail ts.flatten = true ∧ (ts ≠ [] → tokens .start ts.flatten = true) := by
  induction ts with
  | nil => simp [tokens]
  | cons t ts ih =>
    obtain ⟨h1, h2, _⟩ := ih (fun x hx => h x (by simp [hx]))
    obtain ⟨a, b, c⟩ := start_piece t ts.flatten (h t (by simp)) h1 h2
    simp only [List.flatten_cons]
    exact ⟨b, c, fun _ => a⟩

theorem tokens_pieces (s : Str) :
    (tokens .tail s = true → ∃ ds : Str, ∃ ts : List Str, (∀ c ∈ ds, '0' ≤ c ∧ c ≤ '9') ∧ (∀ t ∈ ts, IsPiece t) ∧
      s = ds ++ ts.flatten) ∧
    (tokens .upper s = true → ∃ l ds : Str, ∃ ts : List Str, (l = [] ∨ ∃ c, ('a' ≤ c ∧ c ≤ 'z') ∧ l = [c]) ∧
      (∀ c ∈ ds, '0' ≤ c ∧ c ≤ '9') ∧ (∀ t ∈ ts, IsPiece t) ∧ s = l ++ (ds ++ ts.flatten)) := by
  induction s with
  | nil =>
    exact ⟨fun _ => ⟨[], [], by simp, by simp, rfl⟩, fun _ => ⟨[], [], [], Or.inl rfl, by simp, by simp, rfl⟩⟩
  | cons c r ih =>
    have hup : isUpper c = true → tokens .upper r = true → ∃ ts : List Str, (∀ t ∈ ts, IsPiece t) ∧ c :: r = ts.flatten := by
      intro hc hr
      obtain ⟨l, ds, ts, hl, hds, hts, rfl⟩ := ih.2 hr
      refine ⟨(c :: l ++ ds) :: ts, ?_, by simp⟩
      intro t ht
      rcases List.mem_cons.1 ht with rfl | ht
      · refine ⟨c :: l, ds, ⟨c, (isUpper_iff c).1 hc, ?_⟩, hds, rfl⟩
        rcases hl with rfl | ⟨d, hd, rfl⟩
        · exact Or.inl rfl
        · exact Or.inr ⟨d, hd, rfl⟩
      · exact hts t ht
    have htl : isDig c = true → tokens .tail r = true → ∃ ds : Str, ∃ ts : List Str, (∀ c ∈ ds, '0' ≤ c ∧ c ≤ '9') ∧
        (∀ t ∈ ts, IsPiece t) ∧ c :: r = ds ++ ts.flatten := by
      intro hc hr
      obtain ⟨ds, ts, hds, hts, rfl⟩ := ih.1 hr
      refine ⟨c :: ds, ts, ?_, hts, rfl⟩
      intro x hx
      rcases List.mem_cons.1 hx with rfl | hx
      · exact (isDig_iff x).1 hc
      · exact hds x hx
    constructor
    · intro h
      simp only [tokens] at h
      split at h
      · rename_i hc
        obtain ⟨ts, hts, e⟩ := hup hc h
        exact ⟨[], ts, by simp, hts, e⟩
      · simp only [Bool.and_eq_true] at h
        exact htl h.1 h.2
    · intro h
      simp only [tokens] at h
      split at h
      · rename_i hc
        obtain ⟨ts, hts, e⟩ := hup hc h
        exact ⟨[], [], ts, Or.inl rfl, by simp, hts, e⟩
      · simp only [Bool.and_eq_true, Bool.or_eq_true] at h
        obtain ⟨hc | hc, hr⟩ := h
        · obtain ⟨ds, ts, hds, hts, rfl⟩ := ih.1 hr
          exact ⟨[c], ds, ts, Or.inr ⟨c, (isLower_iff c).1 hc, rfl⟩, hds, hts, rfl⟩
        · obtain ⟨ds, ts, hds, hts, e⟩ := htl hc hr
          exact ⟨[], ds, ts, Or.inl rfl, hds, hts, e⟩

theorem start_iff (s : Str) :
    tokens .start s = true ↔ ∃ ts : List Str, ts ≠ [] ∧ (∀ t ∈ ts, IsPiece t) ∧ s = ts.flatten := by
  constructor
  · intro h
    cases s with
    | nil => simp [tokens] at h
    | cons c r =>
      simp only [tokens, Bool.and_eq_true] at h
      obtain ⟨l, ds, ts, hl, hds, hts, rfl⟩ := (tokens_pieces r).2 h.2
      refine ⟨(c :: l ++ ds) :: ts, by simp, ?_, by simp⟩
      intro t ht
      rcases List.mem_cons.1 ht with rfl | ht
      · refine ⟨c :: l, ds, ⟨c, (isUpper_iff c).1 h.1, ?_⟩, hds, rfl⟩
        rcases hl with rfl | ⟨d, hd, rfl⟩
        · exact Or.inl rfl
        · exact Or.inr ⟨d, hd, rfl⟩
      · exact hts t ht
  · rintro ⟨ts, h1, h2, rfl⟩
    exact (pieces_tokens ts h2).2.2 h1

theorem tokens_no_newline (s : Str) : ∀ st, tokens st s = true → ∀ c ∈ s, c ≠ '\n' := by
  induction s with
  | nil => simp
  | cons c r ih =>
    intro st h x hx
    have e1 : isUpper '\n' = false := by decide
    have e2 : isLower '\n' = false := by decide
    have e3 : isDig '\n' = false := by decide
    rcases List.mem_cons.1 hx with rfl | hx
    · rintro rfl
      cases st <;> simp [tokens, e1, e2, e3] at h
    · cases st <;> simp only [tokens] at h
      · simp only [Bool.and_eq_true] at h; exact ih _ h.2 x hx
      · split at h
        · exact ih _ h x hx
        · simp only [Bool.and_eq_true] at h; exact ih _ h.2 x hx
      · split at h
        · exact ih _ h x hx
        · simp only [Bool.and_eq_true] at h; exact ih _ h.2 x hx

theorem chomp_of (s : Str) (h : ∀ c ∈ s, c ≠ '\n') : chomp s = s ∧ chomp (s ++ ['\n']) = s := by
  constructor
  · unfold chomp
    rw [if_neg]
    intro e
    have : '\n' ∈ s := List.mem_of_getLast? e
    exact h _ this rfl
  · simp [chomp]

theorem chomp_cases (s : Str) : s = chomp s ∨ s = chomp s ++ ['\n'] := by
  unfold chomp
  split
  · rename_i h
    right
    exact (List.dropLast_append_getLast? _ h).symm
  · left; rfl

/-- The first regular expression recognizes the texts that look like a formula. -/
theorem looksFormula_iff' (s : Str) : looksFormula s = true ↔ FormulaText s := by
  unfold looksFormula
  rw [start_iff]
  constructor
  · rintro ⟨ts, h1, h2, h3⟩
    refine ⟨ts, h1, h2, ?_⟩
    rw [← h3]
    exact chomp_cases s
  · rintro ⟨ts, h1, h2, h3⟩
    have hn := tokens_no_newline _ _ ((start_iff ts.flatten).2 ⟨ts, h1, h2, rfl⟩)
    refine ⟨ts, h1, h2, ?_⟩
    rcases h3 with rfl | rfl
    · exact (chomp_of _ hn).1
    · exact (chomp_of _ hn).2

theorem symbol_ne_newline {e : Str} (h : IsSymbol e) : ∀ c ∈ e, c ≠ '\n' := by
  obtain ⟨c, hc, he⟩ := h
  have h1 : c ≠ '\n' := by rintro rfl; exact absurd hc.1 (by decide)
  rcases he with rfl | ⟨d, hd, rfl⟩
  · simpa using h1
  · have h2 : d ≠ '\n' := by rintro rfl; exact absurd hd.1 (by decide)
    simp [h1, h2]

theorem one_not_lower : isLower '1' = false := by decide

/-- The second regular expression gives the element of a text that stands for a pure element. -/
theorem pureElement_iff' (e s : Str) : pureElement s = some e ↔ PureText e s := by
  constructor
  · intro h
    have key : IsSymbol e ∧ (chomp s = e ∨ chomp s = e ++ ['1']) := by
      unfold pureElement at h
      split at h
      · rename_i a hs
        split at h
        · rename_i ha
          obtain rfl := Option.some.inj h
          exact ⟨⟨a, (isUpper_iff a).1 ha, Or.inl rfl⟩, Or.inl hs⟩
        · simp at h
      · rename_i a b hs
        split at h
        · rename_i ha
          split at h
          · rename_i hb
            obtain rfl := Option.some.inj h
            exact ⟨⟨a, (isUpper_iff a).1 ha, Or.inr ⟨b, (isLower_iff b).1 hb, rfl⟩⟩, Or.inl hs⟩
          · split at h
            · rename_i hb
              obtain rfl := Option.some.inj h
              subst hb
              exact ⟨⟨a, (isUpper_iff a).1 ha, Or.inl rfl⟩, Or.inr hs⟩
            · simp at h
        · simp at h
      · rename_i a b c hs
        split at h
        · rename_i ha
          simp only [Bool.and_eq_true, decide_eq_true_eq] at ha
          obtain rfl := Option.some.inj h
          obtain ⟨⟨ha, hb⟩, rfl⟩ := ha
          exact ⟨⟨a, (isUpper_iff a).1 ha, Or.inr ⟨b, (isLower_iff b).1 hb, rfl⟩⟩, Or.inr hs⟩
        · simp at h
      · simp at h
    refine ⟨key.1, ?_⟩
    rcases chomp_cases s with hs | hs <;> rcases key.2 with h2 | h2 <;> rw [h2] at hs
    · exact Or.inl hs
    · exact Or.inr (Or.inl hs)
    · exact Or.inr (Or.inr (Or.inl hs))
    · exact Or.inr (Or.inr (Or.inr (by simpa using hs)))
  · rintro ⟨he, hs⟩
    have hn := symbol_ne_newline he
    have hn1 : ∀ c ∈ e ++ ['1'], c ≠ '\n' := by
      intro c hc
      rcases List.mem_append.1 hc with hc | hc
      · exact hn c hc
      · obtain rfl : c = '1' := by simpa using hc
        decide
    have hch : chomp s = e ∨ chomp s = e ++ ['1'] := by
      rcases hs with rfl | rfl | rfl | rfl
      · exact Or.inl (chomp_of _ hn).1
      · exact Or.inr (chomp_of _ hn1).1
      · exact Or.inl (chomp_of _ hn).2
      · right
        have := (chomp_of _ hn1).2
        simpa using this
    obtain ⟨c, hc, he⟩ := he
    have hU := (isUpper_iff c).2 hc
    unfold pureElement
    rcases he with rfl | ⟨d, hd, rfl⟩
    · rcases hch with h | h
      · rw [h]; simp [hU]
      · rw [h]; simp [hU, one_not_lower]
    · have hL := (isLower_iff d).2 hd
      rcases hch with h | h
      · rw [h]; simp [hU, hL]
      · rw [h]; simp [hU, hL]

theorem symbol_formulaText {e : Str} (h : IsSymbol e) : FormulaText e :=
  ⟨[e], by simp, fun t ht => by
    obtain rfl : t = e := by simpa using ht
    exact ⟨t, [], h, by simp, by simp⟩, Or.inl (by simp)⟩

theorem pureName_formulaText {e : Str} (h : IsSymbol e) : FormulaText (pureName e) :=
  ⟨[e ++ ['1']], by simp, fun t ht => by
    obtain rfl : t = e ++ ['1'] := by simpa using ht
    refine ⟨e, ['1'], h, ?_, rfl⟩
    intro c hc
    obtain rfl : c = '1' := by simpa using hc
    decide, Or.inl (by simp [pureName])⟩

theorem nameFrom_pymcaName' (n : Str) : nameFrom (pymcaName n) = n := by
  unfold nameFrom pymcaName
  have : materialPrefix.isPrefixOf (materialPrefix ++ n) = true := by
    rw [List.isPrefixOf_iff_prefix]; exact List.prefix_append _ _
  rw [if_pos this]
  simp

theorem isPrefixOf_short {a b : Str} (h : b.length < a.length) : a.isPrefixOf b = false := by
  have : ¬ a.isPrefixOf b = true := by
    rw [List.isPrefixOf_iff_prefix]
    intro h2
    have := h2.length_le
    omega
  exact Bool.eq_false_iff.2 this

theorem nameFrom_pureName {e : Str} (h : IsSymbol e) : nameFrom (pureName e) = pureName e := by
  have hl : (pureName e).length ≤ 3 := by
    obtain ⟨c, _, rfl | ⟨d, _, rfl⟩⟩ := h <;> simp [pureName]
  unfold nameFrom
  have h1 : materialPrefix.length = 9 := by decide
  have h2 : commentPrefix.length = 20 := by decide
  rw [isPrefixOf_short (by omega), isPrefixOf_short (by omega)]
  simp

/-! ## Saving -/

/-- The entry of a material. -/
def entry (P : Params) : Mat → Entry
  | .elem s => ⟨[pureName s], [1], P.rho s⟩
  | .cmpd _ els d => ⟨els.map fun p => pureName p.1, els.map Prod.snd, d⟩
  | .mix n ps => ⟨ps.toList.map fun p => pymcaName p.1.name, ps.toList.map Prod.snd, (Mat.mix n ps).density P⟩

/-- key and value of a material in the configuration -/
def item (P : Params) (m : Mat) : Str × Entry := (pymcaName m.name, entry P m)

theorem update_append (c : Cfg) (a b : List (Str × Entry)) :
    Dict.update c (a ++ b) = Dict.update (Dict.update c a) b := by
  simp [Dict.update, List.foldl_append]

mutual
theorem save_eq (P : Params) : ∀ (m : Mat) (c : Cfg),
    save P m c = (Dict.update c (m.nodes.map (item P)), pymcaName m.name)
  | .elem s, c => by simp [save, Mat.nodes, item, entry, Mat.name, Dict.update]
  | .cmpd n els d, c => by simp [save, Mat.nodes, item, entry, Mat.name, Dict.update]
  | .mix n ps, c => by
    have h := saves_eq P ps c
    simp only [save, Mat.nodes, List.map_append, update_append, h]
    simp [item, entry, Mat.name, Dict.update]
theorem saves_eq (P : Params) : ∀ (ps : Parts) (c : Cfg),
    saves P ps c = (Dict.update c (ps.nodes.map (item P)), ps.toList.map fun p => pymcaName p.1.name)
  | .nil, c => by simp [saves, Parts.nodes, Parts.toList, Dict.update]
  | .cons m w r, c => by
    have h := save_eq P m c
    have h2 := saves_eq P r (Dict.update c (m.nodes.map (item P)))
    simp only [saves, Parts.nodes, List.map_append, update_append, h, h2, Parts.toList, List.map_cons]
end

theorem get?_update (c : Cfg) (l : List (Str × Entry)) (k : Str) (v : Entry)
    (h : (k, v) ∈ l ∨ Dict.get? c k = some v) (hu : ∀ v', (k, v') ∈ l → v' = v) :
    Dict.get? (Dict.update c l) k = some v := by
  induction l generalizing c with
  | nil => simpa [Dict.update] using h
  | cons p l ih =>
    obtain ⟨k', v'⟩ := p
    simp only [Dict.update, List.foldl_cons]
    refine ih (Dict.set c k' v') ?_ (fun v'' hv => hu v'' (by simp [hv]))
    rw [Dict.get?_set]
    by_cases e : k' = k
    · right
      rw [if_pos e, hu v' (by simp [e])]
    · rw [if_neg e]
      rcases h with h | h
      · rcases List.mem_cons.1 h with h | h
        · exact absurd (congrArg Prod.fst h).symm e
        · exact Or.inl h
      · exact Or.inr h

theorem saveAll_eq (P : Params) (ms : List Mat) (c : Cfg) :
    saveAll P ms c = Dict.update c ((ms.flatMap Mat.nodes).map (item P)) := by
  induction ms generalizing c with
  | nil => rfl
  | cons m ms ih =>
    simp only [saveAll, List.foldl_cons] at ih ⊢
    rw [ih, save_eq]
    simp only [List.flatMap_cons, List.map_append, update_append]

theorem pymcaName_inj {a b : Str} (h : pymcaName a = pymcaName b) : a = b := by
  simpa [pymcaName] using h

theorem saveAll_get (P : Params) (ms : List Mat) (c : Cfg) (hc : Consistent (ms.flatMap Mat.nodes))
    (a : Mat) (ha : a ∈ ms.flatMap Mat.nodes) (hn : ¬ FormulaText a.name) :
    Dict.get? (saveAll P ms c) (pymcaName a.name) = some (entry P a) := by
  rw [saveAll_eq]
  refine get?_update _ _ _ _ (Or.inl (List.mem_map.2 ⟨a, ha, rfl⟩)) ?_
  intro v' hv
  obtain ⟨b, hb, e⟩ := List.mem_map.1 hv
  obtain ⟨e1, e2⟩ := Prod.mk.inj e
  have := hc a ha b hb hn (pymcaName_inj e1).symm
  rw [← e2, this]

/-! ## Loading -/
open SC.Compound (Items addTo compose normalize vals bcast newDensity)

theorem addTo_new {α : Type} (key : α → Str) (d : Items α ℚ) (a : α) (n : ℚ) (h : key a ∉ d.map fun p => key p.1) :
    addTo key d a n = d ++ [(a, n)] := by
  induction d with
  | nil => rfl
  | cons q d ih =>
    obtain ⟨b, m⟩ := q
    simp only [List.map_cons, List.mem_cons, not_or] at h
    unfold addTo
    rw [if_neg fun e => h.1 e.symm, ih h.2]
    rfl

theorem compose_distinct {α : Type} (key : α → Str) (l : Items α ℚ) (h : (l.map fun p => key p.1).Nodup) :
    compose key l = l := by
  have : ∀ (l d : Items α ℚ), ((d ++ l).map fun p => key p.1).Nodup →
      l.foldl (fun d p => addTo key d p.1 p.2) d = d ++ l := by
    intro l
    induction l with
    | nil => intro d _; simp
    | cons p l ih =>
      intro d hd
      have hp : key p.1 ∉ d.map fun q => key q.1 := by
        intro hm
        simp only [List.map_append, List.map_cons] at hd
        exact (List.nodup_append.1 hd).2.2 _ hm _ (by simp) rfl
      rw [List.foldl_cons, addTo_new key d p.1 p.2 hp, ih _ (by simpa using hd)]
      simp
  have h2 := this l [] (by simpa using h)
  unfold compose
  rw [h2]
  rfl

theorem gather_distinct {α : Type} (key : α → Str) (l : Items α ℚ) (h : (l.map fun p => key p.1).Nodup)
    (h1 : (l.map Prod.snd).sum = 1) : gather key l = l := by
  unfold gather
  rw [compose_distinct key l h]
  unfold normalize vals
  rw [h1]
  simp

theorem shares_one (l : List ℚ) (h : l.sum = 1) : shares l = l := by simp [shares, h]

theorem bcast_zip {γ δ : Type} (l : List (γ × δ)) : bcast (l.map Prod.fst) (l.map Prod.snd) = some l := by
  unfold bcast
  rw [if_pos (by simp)]
  congr 1
  induction l with
  | nil => rfl
  | cons p l ih => simp [ih]

theorem mapM_some {α β : Type} (f : α → Option β) (l : List α) (g : α → β) (h : ∀ a ∈ l, f a = some (g a)) :
    l.mapM f = some (l.map g) := by
  induction l with
  | nil => rfl
  | cons a l ih =>
    rw [List.mapM_cons, h a (by simp), ih (fun x hx => h x (by simp [hx]))]
    rfl

theorem load_formula (P : Params) (n : Nat) (cfg : Cfg) (s : Str) (d : Option ℚ) (h : FormulaText (nameFrom s)) :
    load P (n + 1) cfg s d = match pureElement (nameFrom s) with
      | some e => if P.known e then some (.elem e) else none
      | none => fromFormula P (nameFrom s) d := by
  have := (looksFormula_iff' (nameFrom s)).2 h
  unfold load
  simp only [this, if_true]
  rfl

theorem load_entry (P : Params) (n : Nat) (cfg : Cfg) (s : Str) (d : Option ℚ) (h : ¬ FormulaText (nameFrom s))
    (e : Entry) (he : Dict.get? cfg s = some e) :
    load P (n + 1) cfg s d =
      match e.comps.mapM fun m => load P n cfg m (some e.density) with
      | none => none
      | some lst => build P (nameFrom s) lst e.fracs e.density := by
  have : ¬ looksFormula (nameFrom s) = true := fun h' => h ((looksFormula_iff' _).1 h')
  rw [load]
  simp only [this, he]
  rfl

theorem load_pure (P : Params) (n : Nat) (cfg : Cfg) (e : Str) (d : Option ℚ) (h : IsSymbol e) (hk : P.known e = true) :
    load P (n + 1) cfg (pureName e) d = some (.elem e) := by
  rw [load_formula P n cfg _ d (by rw [nameFrom_pureName h]; exact pureName_formulaText h), nameFrom_pureName h,
    (pureElement_iff' e (pureName e)).2 ⟨h, Or.inr (Or.inl rfl)⟩]
  simp [hk]

theorem ofList_toList : ∀ ps : Parts, Parts.ofList ps.toList = ps
  | .nil => rfl
  | .cons m w r => by simp [Parts.toList, Parts.ofList, ofList_toList r]

theorem toList_ofList (l : List (Mat × ℚ)) : (Parts.ofList l).toList = l := by
  induction l with
  | nil => rfl
  | cons p l ih => simp [Parts.ofList, Parts.toList, ih]

theorem mapM_length {α β : Type} (f : α → Option β) (l : List α) : ∀ r, l.mapM f = some r → r.length = l.length := by
  induction l with
  | nil =>
    intro r h
    obtain rfl : [] = r := by simpa using h
    rfl
  | cons a l ih =>
    intro r h
    rw [List.mapM_cons] at h
    cases ha : f a with
    | none => rw [ha] at h; simp at h
    | some x =>
      cases hl : l.mapM f with
      | none => rw [ha, hl] at h; simp at h
      | some xs =>
        rw [ha, hl] at h
        obtain rfl : x :: xs = r := by simpa using h
        simp [ih xs hl]

theorem sum_div (l : List ℚ) (c : ℚ) : (l.map fun x => x / c).sum = l.sum / c := by
  induction l with
  | nil => simp
  | cons a l ih => simp [ih, add_div]

mutual
theorem load_fits (P : Params) (cfg : Cfg) : ∀ (m : Mat) (d : Option ℚ), m.Fits P d →
    (∀ a ∈ m.nodes, ¬ FormulaText a.name → Dict.get? cfg (pymcaName a.name) = some (entry P a)) →
    ∀ n, m.depth ≤ n → load P (n + 1) cfg (pymcaName m.name) d = some m
  | .elem s, d, hf, _, n, _ => by
    simp only [Mat.Fits] at hf
    rw [load_formula P n cfg _ d (by rw [nameFrom_pymcaName']; exact symbol_formulaText hf.1), nameFrom_pymcaName',
      Mat.name, (pureElement_iff' s s).2 ⟨hf.1, Or.inl rfl⟩]
    simp [hf.2]
  | .cmpd nm els ρ, d, hf, hget, n, hn => by
    simp only [Mat.Fits] at hf
    rcases hf with ⟨hnf, hels, ⟨hnd, hsum⟩, hρ⟩ | ⟨hform, hpure, hnew⟩
    · have he := hget (.cmpd nm els ρ) (by simp [Mat.nodes]) hnf
      rw [load_entry P n cfg _ d (by rw [nameFrom_pymcaName']; exact hnf) _ he, nameFrom_pymcaName']
      obtain ⟨k, rfl⟩ : ∃ k, n = k + 1 := ⟨n - 1, by simp only [Mat.depth] at hn; omega⟩
      have hm : (entry P (.cmpd nm els ρ)).comps.mapM (fun m => load P (k + 1) cfg m (some (entry P (.cmpd nm els ρ)).density))
          = some (els.map fun p => Mat.elem p.1) := by
        simp only [entry, List.mapM_map]
        exact mapM_some _ els (fun p => Mat.elem p.1) fun p hp => load_pure P k cfg p.1 _ (hels p hp).1 (hels p hp).2
      rw [hm]
      have hnm : (Mat.cmpd nm els ρ).name = nm := rfl
      simp only [entry, build, hnm]
      rw [shares_one _ hsum]
      have hb : bcast (els.map fun p => Mat.elem p.1) (els.map Prod.snd) = some (els.map fun p => (Mat.elem p.1, p.2)) := by
        have := bcast_zip (els.map fun p => (Mat.elem p.1, p.2))
        simpa [Function.comp_def] using this
      rw [hb]
      have hall : (els.map fun p => Mat.elem p.1).all Mat.isElem = true := by simp [Mat.isElem]
      simp only [Option.map_some, hall, if_true, List.map_map]
      have hid : (els.map ((fun p : Mat × ℚ => (p.1.name, p.2)) ∘ fun p => (Mat.elem p.1, p.2))) = els := by
        simp [Function.comp_def, Mat.name]
      rw [hid, gather_distinct id els (by simpa using hnd) hsum]
      simp [newDensity, hρ]
    · rw [load_formula P n cfg _ d (by rw [nameFrom_pymcaName']; exact hform), nameFrom_pymcaName', Mat.name]
      have : pureElement nm = none := by
        cases h : pureElement nm with
        | none => rfl
        | some e => exact absurd ((pureElement_iff' e nm).1 h) (hpure e)
      rw [this]
      exact hnew
  | .mix nm ps, d, hf, hget, n, hn => by
    simp only [Mat.Fits] at hf
    obtain ⟨hnf, hps, ⟨hnd, hsum⟩, hex⟩ := hf
    have he := hget (.mix nm ps) (by simp [Mat.nodes]) hnf
    rw [load_entry P n cfg _ d (by rw [nameFrom_pymcaName']; exact hnf) _ he, nameFrom_pymcaName']
    simp only [Mat.depth] at hn
    obtain ⟨k, rfl⟩ : ∃ k, n = k + 1 := ⟨n - 1, by omega⟩
    have hl := loads_fits P cfg ps ((Mat.mix nm ps).density P) hps
      (fun a ha => hget a (by simp [Mat.nodes, ha])) k (by omega)
    have hm : (entry P (.mix nm ps)).comps.mapM (fun m => load P (k + 1) cfg m (some (entry P (.mix nm ps)).density))
        = some (ps.toList.map Prod.fst) := by
      simp only [entry, List.mapM_map]
      exact mapM_some _ ps.toList Prod.fst fun p hp => hl p hp
    rw [hm]
    simp only [List.map_map] at hsum hnd
    have hnm : (Mat.mix nm ps).name = nm := rfl
    simp only [entry, build, hnm]
    rw [shares_one _ (by simpa [Function.comp_def] using hsum), bcast_zip]
    have hall : ¬ (ps.toList.map Prod.fst).all Mat.isElem = true := by
      obtain ⟨p, hp, h0⟩ := hex
      intro h
      rw [List.all_eq_true] at h
      have := h p.1 (List.mem_map.2 ⟨p, hp, rfl⟩)
      rw [h0] at this
      cases this
    simp only [Option.map_some, hall, if_false]
    rw [gather_distinct Mat.name ps.toList (by simpa [Function.comp_def] using hnd)
      (by simpa [Function.comp_def] using hsum), ofList_toList]
    rfl
theorem loads_fits (P : Params) (cfg : Cfg) : ∀ (ps : Parts) (d : ℚ), ps.Fits P d →
    (∀ a ∈ ps.nodes, ¬ FormulaText a.name → Dict.get? cfg (pymcaName a.name) = some (entry P a)) →
    ∀ n, ps.depth ≤ n → ∀ p ∈ ps.toList, load P (n + 1) cfg (pymcaName p.1.name) (some d) = some p.1
  | .nil, _, _, _, _, _, p, hp => by simp [Parts.toList] at hp
  | .cons m w r, d, hf, hget, n, hn, p, hp => by
    simp only [Parts.Fits] at hf
    simp only [Parts.depth] at hn
    simp only [Parts.toList, List.mem_cons] at hp
    rcases hp with rfl | hp
    · exact load_fits P cfg m (some d) hf.1 (fun a ha => hget a (by simp [Parts.nodes, ha])) n (by omega)
    · exact loads_fits P cfg r d hf.2 (fun a ha => hget a (by simp [Parts.nodes, ha])) n (by omega) p hp
end

end SC.Pymca
