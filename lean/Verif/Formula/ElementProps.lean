import Verif.Formula.Element
import Verif.Formula.Props
/-! # C53: compounds of an element -/
namespace SC.Formula
open SC.Compound (amount total names IsTable Items Cmpd Frac inUnits item)
open SC.Scan (floatOf)

/-- The table of type `typ` has for `el` in state `o` the compound `f` with density `d`. -/
def InDb (typ el : Str) (o : ℚ) (f : Str) (d : ℚ) : Prop :=
  ∃ table states, (typ, table) ∈ db ∧ (el, states) ∈ table ∧ (o, f, d) ∈ states

/-- The partner of the element. -/
def partner (typ : Str) : Str := if typ = "oxide".toList then "O".toList else "S".toList

/-! ## dictionaries -/

theorem find_mem {α β : Type} [DecidableEq α] {d : List (α × β)} {k : α} {v : β} (h : find d k = some v) : (k, v) ∈ d := by
  unfold find at h
  cases hf : d.find? (fun p => decide (p.1 = k)) with
  | none => rw [hf] at h; cases h
  | some p =>
    rw [hf] at h
    cases h
    have h1 := List.mem_of_find?_eq_some hf
    have h2 := List.find?_some hf
    simp at h2
    rw [← h2]; exact h1

theorem find_iff {α β : Type} [DecidableEq α] {d : List (α × β)} (hd : (d.map Prod.fst).Nodup) {k : α} {v : β} :
    find d k = some v ↔ (k, v) ∈ d := by
  refine ⟨find_mem, ?_⟩
  induction d with
  | nil => intro h; cases h
  | cons p d ih =>
    intro h
    simp only [List.map_cons, List.nodup_cons] at hd
    unfold find
    by_cases hp : p.1 = k
    · rw [List.find?_cons_of_pos (by simpa using hp)]
      rcases List.mem_cons.1 h with rfl | h
      · rfl
      · exact absurd (List.mem_map.2 ⟨_, h, hp.symm⟩) hd.1
    · rw [List.find?_cons_of_neg (by simpa using hp)]
      rcases List.mem_cons.1 h with rfl | h
      · exact absurd rfl hp
      · exact ih hd.2 h

theorem find_none {α β : Type} [DecidableEq α] {d : List (α × β)} {k : α} : find d k = none ↔ ∀ v, (k, v) ∉ d := by
  unfold find
  rw [Option.map_eq_none_iff, List.find?_eq_none]
  constructor
  · intro h v hv; exact h _ hv (by simp)
  · rintro h ⟨a, v⟩ hv; simp only [decide_eq_true_eq]; rintro rfl; exact h v hv

/-! ## the tables -/

/-- what is checked of an entry of the table -/
def check (strict : Bool) (el X : Str) (p : ℚ × Str × ℚ) : Bool :=
  match parse strict p.2.1, groupdict p.2.1 with
  | some (.el e n (.el x m .nil), []), some (z, a, y, b) =>
    decide (e = el ∧ x = X ∧ e ≠ x ∧ z = el ∧ y = X ∧ count a = floatOf n ∧ count b = floatOf m ∧
      p.1 * floatOf n = 2 * floatOf m ∧ 0 < floatOf n ∧ 0 < floatOf m ∧ 0 < p.2.2)
  | _, _ => false

theorem check_oxides (strict : Bool) : (oxides.all fun r => r.2.all (check strict r.1 "O".toList)) = true := by
  cases strict <;> decide +kernel
theorem check_sulfides (strict : Bool) : (sulfides.all fun r => r.2.all (check strict r.1 "S".toList)) = true := by
  cases strict <;> decide +kernel

theorem db_types : (db.map Prod.fst).Nodup := by decide +kernel
theorem db_elements : ∀ t ∈ db, (t.2.map Prod.fst).Nodup := by decide +kernel
theorem db_states : ∀ t ∈ db, ∀ r ∈ t.2, (r.2.map Prod.fst).Nodup ∧ r.2 ≠ [] := by decide +kernel

theorem check_db (strict : Bool) {typ el f : Str} {o d : ℚ} (h : InDb typ el o f d) :
    check strict el (partner typ) (o, f, d) = true := by
  obtain ⟨table, states, h1, h2, h3⟩ := h
  simp only [db, List.mem_cons, List.not_mem_nil, or_false, Prod.mk.injEq] at h1
  rcases h1 with ⟨rfl, rfl⟩ | ⟨rfl, rfl⟩
  · have := List.all_eq_true.1 (List.all_eq_true.1 (check_oxides strict) _ h2) _ h3
    exact this
  · have := List.all_eq_true.1 (List.all_eq_true.1 (check_sulfides strict) _ h2) _ h3
    exact this

/-- **C53.**  Every compound of the tables is electrically neutral: its formula is read to the end as
`a` atoms of the element and `b` atoms of oxygen or sulfur, and the oxidation state times `a` is
twice `b`.  The densities are positive. -/
theorem table_neutral (strict : Bool) {typ el f : Str} {o d : ℚ} (h : InDb typ el o f d) :
    ∃ a b, 0 < a ∧ 0 < b ∧ eval strict f = some [(el, a), (partner typ, b)] ∧ (∃ F, parse strict f = some (F, [])) ∧
      o * a = 2 * b ∧ 0 < d ∧ el ≠ partner typ := by
  have hc := check_db strict h
  unfold check at hc
  split at hc
  · rename_i e n x m z a y b hp hg
    simp only [decide_eq_true_eq] at hc
    obtain ⟨rfl, rfl, h3, rfl, -, h6, h7, h8, h9, h10, h11⟩ := hc
    refine ⟨floatOf n, floatOf m, h9, h10, ?_, ⟨_, hp⟩, h8, h11, h3⟩
    obtain ⟨-, t, ht, -⟩ := formula_read strict hp
    simp only [eval, hp, Option.map_some, walk_trees (layout_proper ht), occurrences, one_mul]
    simp [Compound.compose, Compound.addTo, h3]
  · cases hc

/-! ## the choice -/

/-- **C53.**  With an oxidation state the entry of the table is used. -/
theorem choose_state (el typ dflt f : Str) (o d : ℚ) :
    choose el (some o) typ dflt = .ok (f, d, o) ↔ InDb typ el o f d := by
  constructor
  · intro h
    unfold choose at h
    cases h1 : find db typ with
    | none => rw [h1] at h; cases h
    | some table =>
      rw [h1] at h
      simp only at h
      cases h2 : find table el with
      | none => rw [h2] at h; cases h
      | some states =>
        rw [h2] at h
        simp only at h
        cases h3 : find states o with
        | none => rw [h3] at h; cases h
        | some v =>
          obtain ⟨f', d'⟩ := v
          rw [h3] at h
          simp at h
          obtain ⟨rfl, rfl⟩ := h
          exact ⟨table, states, find_mem h1, find_mem h2, find_mem h3⟩
  · rintro ⟨table, states, h1, h2, h3⟩
    have e1 := (find_iff db_types).2 h1
    have e2 := (find_iff (db_elements _ h1)).2 h2
    have e3 := (find_iff (db_states _ h1 _ h2).1).2 h3
    simp only [choose, e1, e2, e3]

/-- **C53.**  An unknown type, element or oxidation state is refused with its own error. -/
theorem choose_refuses (el typ dflt : Str) (o : Option ℚ) :
    ((∀ t, (typ, t) ∉ db) → choose el o typ dflt = .error .typ) ∧
    (∀ t, (typ, t) ∈ db → (∀ s, (el, s) ∉ t) → choose el o typ dflt = .error .element) ∧
    (∀ t s q, (typ, t) ∈ db → (el, s) ∈ t → o = some q → (∀ v, (q, v) ∉ s) → choose el o typ dflt = .error .state) := by
  refine ⟨?_, ?_, ?_⟩
  · intro h
    simp only [choose, find_none.2 h]
  · intro t ht h
    simp only [choose, (find_iff db_types).2 ht, find_none.2 h]
  · rintro t s q ht hs rfl h
    simp only [choose, (find_iff db_types).2 ht, (find_iff (db_elements _ ht)).2 hs, find_none.2 h]

theorem fold_extreme (better : ℚ → ℚ → Bool) (hirr : ∀ a, better a a = false)
    (htr : ∀ a b c, better b a = false → better c b = false → better c a = false)
    (has : ∀ a b, better a b = true → better b a = false) (l : States) (o : ℚ) :
    (l.foldl (fun a p => if better p.1 a then p.1 else a) o = o ∨
      l.foldl (fun a p => if better p.1 a then p.1 else a) o ∈ l.map Prod.fst) ∧
    better o (l.foldl (fun a p => if better p.1 a then p.1 else a) o) = false ∧
    ∀ x ∈ l.map Prod.fst, better x (l.foldl (fun a p => if better p.1 a then p.1 else a) o) = false := by
  induction l generalizing o with
  | nil => exact ⟨.inl rfl, hirr o, by simp⟩
  | cons p l ih =>
    rw [List.foldl_cons]
    by_cases h : better p.1 o = true
    · rw [if_pos h]
      obtain ⟨h1, h2, h3⟩ := ih p.1
      refine ⟨.inr ?_, htr _ _ _ h2 (has _ _ h), ?_⟩
      · rcases h1 with h1 | h1
        · rw [h1]; simp
        · exact List.mem_cons_of_mem _ h1
      · intro x hx
        rcases List.mem_cons.1 hx with rfl | hx
        · exact h2
        · exact h3 x hx
    · have h' : better p.1 o = false := by simpa using h
      rw [if_neg h]
      obtain ⟨h1, h2, h3⟩ := ih o
      refine ⟨?_, h2, ?_⟩
      · rcases h1 with h1 | h1
        · exact .inl h1
        · exact .inr (List.mem_cons_of_mem _ h1)
      · intro x hx
        rcases List.mem_cons.1 hx with rfl | hx
        · exact htr _ _ _ h2 h'
        · exact h3 x hx

theorem extreme_spec (better : ℚ → ℚ → Bool) (hirr : ∀ a, better a a = false)
    (htr : ∀ a b c, better b a = false → better c b = false → better c a = false)
    (has : ∀ a b, better a b = true → better b a = false) (l : States) (hl : l ≠ []) :
    ∃ o, extreme better l = some o ∧ o ∈ l.map Prod.fst ∧ ∀ x ∈ l.map Prod.fst, better x o = false := by
  cases l with
  | nil => exact absurd rfl hl
  | cons p l =>
    obtain ⟨h1, h2, h3⟩ := fold_extreme better hirr htr has l p.1
    refine ⟨_, rfl, ?_, ?_⟩
    · rcases h1 with h1 | h1
      · rw [h1]; simp
      · exact List.mem_cons_of_mem _ h1
    · intro x hx
      rcases List.mem_cons.1 hx with rfl | hx
      · exact h2
      · exact h3 x hx

/-- **C53.**  Without an oxidation state, an element with several states gets the highest or the lowest
one; another default is refused. -/
theorem choose_default (el typ : Str) (t : List (Str × States)) (s : States) (ht : (typ, t) ∈ db) (hs : (el, s) ∈ t)
    (h2 : 1 < s.length) :
    (∃ f d o, choose el none typ "max".toList = .ok (f, d, o) ∧ (o, f, d) ∈ s ∧ ∀ p ∈ s, p.1 ≤ o) ∧
    (∃ f d o, choose el none typ "min".toList = .ok (f, d, o) ∧ (o, f, d) ∈ s ∧ ∀ p ∈ s, o ≤ p.1) ∧
    ∀ dflt, dflt ≠ "max".toList → dflt ≠ "min".toList → choose el none typ dflt = .error .default := by
  have e1 := (find_iff db_types).2 ht
  have e2 := (find_iff (db_elements _ ht)).2 hs
  obtain ⟨hnd, hne⟩ := db_states _ ht _ hs
  have hl : ¬ s.length = 1 := by omega
  refine ⟨?_, ?_, ?_⟩
  · obtain ⟨o, ho, hm, hb⟩ := extreme_spec (fun a b => decide (b < a)) (by simp)
      (by intro a b c h1 h2; simp at *; exact h2.trans h1) (by intro a b h; simp at *; exact h.le) s hne
    obtain ⟨⟨o', f, d⟩, hp, rfl⟩ := List.mem_map.1 hm
    refine ⟨f, d, o', ?_, hp, ?_⟩
    · simp only [choose, e1, e2, if_neg hl, if_true, ho, (find_iff hnd).2 hp]
    · intro p hp'
      have := hb p.1 (List.mem_map_of_mem hp')
      simpa using this
  · obtain ⟨o, ho, hm, hb⟩ := extreme_spec (fun a b => decide (a < b)) (by simp)
      (by intro a b c h1 h2; simp at *; exact h1.trans h2) (by intro a b h; simp at *; exact h.le) s hne
    obtain ⟨⟨o', f, d⟩, hp, rfl⟩ := List.mem_map.1 hm
    refine ⟨f, d, o', ?_, hp, ?_⟩
    · have : ¬ ("min".toList = "max".toList) := by decide
      simp only [choose, e1, e2, if_neg hl, if_neg this, if_true, ho, (find_iff hnd).2 hp]
    · intro p hp'
      have := hb p.1 (List.mem_map_of_mem hp')
      simpa using this
  · intro dflt h3 h4
    simp only [choose, e1, e2, if_neg hl, if_neg h3, if_neg h4]

/-- **C53, violated.**  An element with one oxidation state, where no choice is needed, raises TypeError
when the state is not given (`cmpds.values()[0]`), and a Sulfide object can not be made. -/
theorem choose_single_partial (el typ dflt : Str) (t : List (Str × States)) (s : States) (ht : (typ, t) ∈ db)
    (hs : (el, s) ∈ t) (h1 : s.length = 1) : choose el none typ dflt = .error .subscript ∧
    ∀ strict MM rho o, sulfide strict MM rho el o dflt = .error .super := by
  refine ⟨?_, fun _ _ _ _ => rfl⟩
  simp only [choose, (find_iff db_types).2 ht, (find_iff (db_elements _ ht)).2 hs, if_pos h1]

theorem choose_inDb {el typ dflt f : Str} {q : Option ℚ} {o d : ℚ} (h : choose el q typ dflt = .ok (f, d, o)) :
    InDb typ el o f d := by
  cases q with
  | some q =>
    have : q = o := by
      unfold choose at h
      cases h1 : find db typ with
      | none => rw [h1] at h; cases h
      | some table =>
        rw [h1] at h; simp only at h
        cases h2 : find table el with
        | none => rw [h2] at h; cases h
        | some states =>
          rw [h2] at h; simp only at h
          cases h3 : find states q with
          | none => rw [h3] at h; cases h
          | some v => rw [h3] at h; simp at h; exact h.2.2
    subst this
    exact (choose_state _ _ _ _ _ _).1 h
  | none =>
    cases h1 : find db typ with
    | none => simp only [choose, h1] at h; cases h
    | some t =>
      cases h2 : find t el with
      | none => simp only [choose, h1, h2] at h; cases h
      | some s =>
        have m1 := find_mem h1
        have m2 := find_mem h2
        by_cases hl : s.length = 1
        · simp only [choose, h1, h2, if_pos hl] at h; cases h
        · have hne := (db_states _ m1 _ m2).2
          have hl' : 1 < s.length := by
            have : 0 < s.length := List.length_pos_iff.2 hne
            omega
          obtain ⟨⟨f1, d1, o1, a1, b1, -⟩, ⟨f2, d2, o2, a2, b2, -⟩, h3⟩ := choose_default el typ t s m1 m2 hl'
          by_cases hx : dflt = "max".toList
          · subst hx
            rw [a1] at h
            simp at h
            obtain ⟨rfl, rfl, rfl⟩ := h
            exact ⟨t, s, m1, m2, b1⟩
          · by_cases hn : dflt = "min".toList
            · subst hn
              rw [a2] at h
              simp at h
              obtain ⟨rfl, rfl, rfl⟩ := h
              exact ⟨t, s, m1, m2, b2⟩
            · rw [h3 dflt hx hn] at h; cases h

/-- **C53.**  The compound of an element: it is made whenever an entry is chosen, it consists of the
element and its partner in the numbers `a` and `b` that balance the charge, and the conversions
between the mass fraction of the element and of the compound use the mass fraction of the element
in the compound; they undo each other. -/
theorem element_compound (strict : Bool) (MM rho : Str → ℚ) (hM : ∀ e, 0 < MM e) {el typ dflt f : Str} {q : Option ℚ}
    {o d : ℚ} (h : choose el q typ dflt = .ok (f, d, o)) :
    ∃ c share, fromElement strict MM rho el q typ dflt = .ok (some c) ∧ c.oxidationstate = o ∧ c.Z = el ∧
      c.X = partner typ ∧ 0 < c.a ∧ 0 < c.b ∧ o * c.a = 2 * c.b ∧ c.cmpd.density = d ∧ c.cmpd.Valid ∧
      share = c.a * MM el / (c.a * MM el + c.b * MM (partner typ)) ∧
      (∃ w, c.cmpd.fractions MM .mass = some w ∧ item id w el = some share ∧ item id w (partner typ) = some (1 - share)) ∧
      (∀ x, c.toElement MM x = x * share) ∧ (∀ x, c.toElement MM (c.toCompound MM x) = x) ∧
      ∀ x, c.toCompound MM (c.toElement MM x) = x := by
  have hdb := choose_inDb h
  have hc := check_db strict hdb
  unfold check at hc
  split at hc
  · rename_i e n x m z a y b hp hg
    simp only [decide_eq_true_eq] at hc
    obtain ⟨rfl, rfl, h3, rfl, h5, h6, h7, h8, h9, h10, h11⟩ := hc
    subst h5
    obtain ⟨-, t, ht, -⟩ := formula_read strict hp
    have hv := values_floatOf (layout_proper ht)
    have hocc : occurrences floatOf (.el z n (.el (partner typ) m .nil)) 1 =
        [(z, floatOf n), (partner typ, floatOf m)] := by simp [occurrences]
    have htot : 0 < total (occurrences floatOf (.el z n (.el (partner typ) m .nil)) 1) := by
      rw [hocc]; simp [total]; linarith
    obtain ⟨c, xm, w, k1, k2, k3, k4, k5, k6, k7, k8, k9⟩ := formula_compound strict (fun _ => true) MM rho hM hp floatOf hv
      (fun _ _ => rfl) htot (some d) none
    have h3' : partner typ ≠ z := Ne.symm h3
    have hmm : c.molarmass MM = floatOf n * MM z + floatOf m * MM (partner typ) := by
      rw [k9, hocc]; simp [total, inUnits]
    have p1 : 0 < floatOf n * MM z := mul_pos h9 (hM _)
    have p2 : 0 < floatOf m * MM (partner typ) := mul_pos h10 (hM _)
    have hpos : 0 < floatOf n * MM z + floatOf m * MM (partner typ) := by linarith
    rw [hocc] at k8
    have hin : total (inUnits MM [(z, floatOf n), (partner typ, floatOf m)]) =
        floatOf n * MM z + floatOf m * MM (partner typ) := by simp [total, inUnits]
    refine ⟨⟨c, o, z, floatOf n, partner typ, floatOf m⟩,
      floatOf n * MM z / (floatOf n * MM z + floatOf m * MM (partner typ)), ?_, rfl, rfl, rfl, h9, h10, h8,
      k4 d rfl h11.ne', k2, rfl, ⟨w, k6, ?_, ?_⟩, ?_, ?_, ?_⟩
    · simp only [fromElement, h, k1, hg, h6, h7]
    · rw [k8.known z (by simp [names]), hin]
      simp [amount, h3']
    · rw [k8.known (partner typ) (by simp [names]), hin]
      simp only [amount, id]
      simp [h3]
      field_simp
      ring
    · intro x
      simp only [FromElement.toElement, FromElement.conv, hmm]
      field_simp
    · intro x
      simp only [FromElement.toElement, FromElement.toCompound, FromElement.conv, hmm]
      exact mul_div_cancel_right₀ x (div_pos hpos p1).ne'
    · intro x
      simp only [FromElement.toElement, FromElement.toCompound, FromElement.conv, hmm]
      exact div_mul_cancel₀ x (div_pos hpos p1).ne'
  · cases hc

/-- **C53.**  The regular expression takes apart every formula of two symbols with numbers of at most one
digit. -/
theorem groupdict_spec {z x a b : Str} (hz : IsSymbol z) (hx : IsSymbol x) (ha : a = [] ∨ ∃ c, c.isDigit = true ∧ a = [c])
    (hb : b = [] ∨ ∃ c, c.isDigit = true ∧ b = [c]) : groupdict (z ++ (a ++ (x ++ b))) = some (z, a, x, b) := by
  have sym : ∀ {e s : Str}, IsSymbol e → (∀ c ∈ s.head?, isLower c = false) → symbol (e ++ s) = some (e, s) := by
    rintro e s ⟨c, hc, rfl | ⟨d, hd, rfl⟩⟩ hs
    · have hu : isUpper c = true := by simpa [isUpper] using hc
      cases s with
      | nil => simp [symbol, hu]
      | cons y s => have := hs y (by simp); simp [symbol, hu, this]
    · have hu : isUpper c = true := by simpa [isUpper] using hc
      have hl : isLower d = true := by simpa [isLower] using hd
      simp [symbol, hu, hl]
  have dig : ∀ {a s : Str}, (a = [] ∨ ∃ c, c.isDigit = true ∧ a = [c]) → (∀ c ∈ s.head?, c.isDigit = false) →
      digit1 (a ++ s) = (a, s) := by
    rintro a s (rfl | ⟨c, hc, rfl⟩) hs
    · cases s with
      | nil => rfl
      | cons y s => have := hs y (by simp); simp [digit1, this]
    · simp [digit1, hc]
  have low : ∀ {a s : Str}, (a = [] ∨ ∃ c, c.isDigit = true ∧ a = [c]) → (∀ c ∈ s.head?, isLower c = false) →
      ∀ c ∈ (a ++ s).head?, isLower c = false := by
    rintro a s (rfl | ⟨c, hc, rfl⟩) hs
    · exact hs
    · intro y hy; simp at hy; subst hy; exact digit_not_lower hc
  obtain ⟨c, r, rfl, hc⟩ := symbol_head hx
  have hxl : ∀ y ∈ (c :: r ++ b).head?, isLower y = false := by
    intro y hy; simp at hy; subst hy; exact upper_not_lower hc
  have hxd : ∀ y ∈ (c :: r ++ b).head?, y.isDigit = false := by
    intro y hy; simp at hy; subst hy; exact upper_not_digit hc
  have hb' := dig (s := []) hb (by simp)
  rw [List.append_nil] at hb'
  have hbl := low (s := []) hb (by simp)
  rw [List.append_nil] at hbl
  simp only [groupdict, sym hz (low ha hxl), dig ha hxd, sym hx hbl, hb', true_or, if_true]

/-! ## cases -/

example : choose "Fe".toList none "oxide".toList "max".toList = .ok ("Fe2O3".toList, 524/100, 3) := by decide +kernel
example : choose "Mn".toList (some (8/3)) "oxide".toList "max".toList = .ok ("Mn3O4".toList, 486/100, 8/3) := by decide +kernel
example : choose "Al".toList none "oxide".toList "max".toList = .error .subscript := by decide +kernel
example : choose "Al".toList (some 2) "oxide".toList "max".toList = .error .state ∧
    choose "Fe".toList none "oxide".toList "mean".toList = .error .default ∧
    choose "He".toList none "oxide".toList "max".toList = .error .element ∧
    choose "Fe".toList none "nitride".toList "max".toList = .error .typ := by decide +kernel
example : InDb "sulfide".toList "As".toList 3 "As2S3".toList (343/100) := by
  refine ⟨_, [(2, "AsS".toList, 89/25), (3, "As2S3".toList, 343/100)], .tail _ (.head _), ?_, .tail _ (.head _)⟩
  decide +kernel
example : groupdict "Fe2O3".toList = some ("Fe".toList, "2".toList, "O".toList, "3".toList) := by decide +kernel

end SC.Formula
