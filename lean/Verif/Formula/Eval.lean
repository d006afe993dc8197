import Verif.Formula.Lemmas
/-! # C53: lemmas about the result -/
namespace SC.Formula
open SC.Scan (floatOf natVal)
open SC.Compound (addTo addAll compose amount total names Items)

theorem isAlpha_decimal {t : Str} {q : ℚ} (h : IsDecimal t q) : isAlpha t = false ∧ ∀ c ∈ t.getLast?, alpha c = false := by
  have hall : ∀ c ∈ t, alpha c = false := by
    obtain ⟨w, f, hw, hf, ht, -⟩ := h
    have hd : ∀ c : Char, c.isDigit = true → alpha c = false := by
      intro c hc
      simp [alpha, digit_not_upper hc, digit_not_lower hc]
    rcases ht with ⟨rfl, hne, rfl⟩ | ⟨hne, rfl⟩
    · exact fun c hc => hd c (hw c hc)
    · intro c hc
      simp only [List.mem_append, List.mem_cons] at hc
      rcases hc with hc | rfl | hc
      · exact hd c (hw c hc)
      · decide
      · exact hd c (hf c hc)
  refine ⟨?_, fun c hc => hall c (List.mem_of_getLast? hc)⟩
  cases t with
  | nil => rfl
  | cons a t => simp [isAlpha, hall a (by simp)]

theorem leaf_symbol {e : Str} (h : IsSymbol e) (m : ℚ) (d : Items Str ℚ) : leaf e m d = addTo id d e m := by
  obtain ⟨c, hc, rfl | ⟨x, hx, rfl⟩⟩ := h
  · have : isUpper c = true := by simpa [isUpper] using hc
    simp [leaf, alpha, this]
  · have : isLower x = true := by simpa [isLower] using hx
    simp [leaf, alpha, this]

theorem leaf_decimal {t : Str} {q : ℚ} (h : IsDecimal t q) (m : ℚ) (d : Items Str ℚ) : leaf t m d = d := by
  unfold leaf
  cases hl : t.getLast? with
  | none => rfl
  | some c => simp [(isAlpha_decimal h).2 c (by rw [hl]; rfl)]

theorem multiplier_text {t : Str} {q : ℚ} (h : IsDecimal t q) (a : Tree) (m : ℚ) :
    multiplier [a, .text t] m = m * floatOf t := by
  simp [multiplier, (isAlpha_decimal h).1]

/-- symbols and numbers are where they belong -/
def Proper : F → Prop
  | .nil => True
  | .el e n r => IsSymbol e ∧ (∃ q, IsDecimal n q) ∧ Proper r
  | .par i n r => i ≠ .nil ∧ Proper i ∧ (∃ q, IsDecimal n q) ∧ Proper r

theorem one_decimal : IsDecimal ['1'] 1 :=
  ⟨['1'], [], by decide, by simp, .inl ⟨rfl, by simp, rfl⟩, by decide +kernel⟩

theorem multiplier_decimal {num t : Str} (h : Multiplier num t) : ∃ q, IsDecimal num q := by
  rcases h with ⟨-, rfl⟩ | ⟨w, q, -, h, -⟩
  · exact ⟨1, one_decimal⟩
  · exact ⟨q, h⟩

theorem layout_proper {f : F} {t : Str} (h : Layout f t) : Proper f := by
  induction h with
  | nil => trivial
  | el _ he hm _ ih => exact ⟨he, multiplier_decimal hm, ih⟩
  | par _ hi _ _ hm _ ih1 ih2 => exact ⟨hi, ih1, multiplier_decimal hm, ih2⟩

theorem multiplier_trees {f : F} (m : ℚ) : multiplier f.trees m = m := by
  have : ∀ (g : F) (x : Tree), g.trees.getLast? = some x → ∃ l, x = .node l := by
    intro g
    induction g with
    | nil => intro x h; simp [F.trees] at h
    | el e n r ih =>
      intro x h
      simp only [F.trees, List.getLast?_cons] at h
      cases hr : r.trees.getLast? with
      | none => rw [hr] at h; simp at h; exact ⟨_, h.symm⟩
      | some y => rw [hr] at h; simp at h; subst h; exact ih _ hr
    | par i n r _ ih =>
      intro x h
      simp only [F.trees, List.getLast?_cons] at h
      cases hr : r.trees.getLast? with
      | none => rw [hr] at h; simp at h; exact ⟨_, h.symm⟩
      | some y => rw [hr] at h; simp at h; subst h; exact ih _ hr
  unfold multiplier
  cases h : f.trees.getLast? with
  | none => rfl
  | some x => obtain ⟨l, rfl⟩ := this f x h; rfl

theorem walks_trees {f : F} (hf : Proper f) : ∀ (m : ℚ) (d : Items Str ℚ),
    walks f.trees m d = addAll id d (occurrences floatOf f m) := by
  induction f with
  | nil => intro m d; rfl
  | el e n r ih =>
    intro m d
    obtain ⟨he, ⟨q, hn⟩, hr⟩ := hf
    simp only [F.trees, walks, walk, multiplier_text hn, leaf_symbol he, leaf_decimal hn, occurrences]
    rw [ih hr]; rfl
  | par i n r ih1 ih2 =>
    intro m d
    obtain ⟨-, hi, ⟨q, hn⟩, hr⟩ := hf
    simp only [F.trees, walks, walk, multiplier_text hn, multiplier_trees, leaf_decimal hn, occurrences]
    rw [ih1 hi, ih2 hr, addAll, addAll, addAll, List.foldl_append]

theorem walk_trees {f : F} (hf : Proper f) : walk (.node f.trees) 1 [] = compose id (occurrences floatOf f 1) := by
  rw [walk, multiplier_trees, walks_trees hf]; rfl

/-- `floatOf` is the value of an unsigned decimal. -/
theorem floatOf_decimal {t : Str} {q : ℚ} (h : IsDecimal t q) : floatOf t = q := by
  obtain ⟨w, f, hw, hf, ht, rfl⟩ := h
  have key : ∀ r : Str, (r = [] ∨ ∃ f, r = '.' :: f) → f = r.drop 1 → w ++ r ≠ [] → t = w ++ r →
      floatOf t = (natVal w : ℚ) + (natVal f : ℚ) / (10 : ℚ) ^ f.length := by
    intro r hr hfr hne htr
    have hu : ∀ c ∈ (w ++ r).head?, SC.Scan.isSign c = false := by
      intro c hc
      cases w with
      | nil =>
        rcases hr with rfl | ⟨f', rfl⟩
        · simp at hc
        · simp at hc; subst hc; decide
      | cons a w => simp at hc; subst hc; exact SC.Scan.digit_not_sign (hw a (by simp))
    have h1 := SC.Scan.unsigned_eq [] (w ++ r) (.inl rfl) hu
    have h2 := SC.Scan.head_minus [] (w ++ r) (.inl rfl) hu
    simp only [List.nil_append] at h1 h2
    have h3 : ¬ ((w ++ r).head? = some '-') := by rw [h2]; simp
    subst htr
    simp only [floatOf, h1, SC.Scan.whole_eq w r hw hr, SC.Scan.behind_eq w r hw hr, ← hfr, SC.Scan.natOf_eq, SC.Scan.natVal_append]
    rw [if_neg h3]
    have h10 : ((10 : ℚ) ^ f.length) ≠ 0 := pow_ne_zero _ (by norm_num)
    push_cast
    field_simp
  rcases ht with ⟨hf0, hne, ht⟩ | ⟨hne, ht⟩
  · exact key [] (.inl rfl) (by simpa using hf0) (by simpa using hne) (by simpa using ht)
  · exact key ('.' :: f) (.inr ⟨f, rfl⟩) rfl (by simp) ht

theorem occurrences_congr {v v' : Str → ℚ} {f : F} (h : Values v f) (h' : Values v' f) (m : ℚ) :
    occurrences v f m = occurrences v' f m := by
  have hv : ∀ n, IsDecimal n (v n) → IsDecimal n (v' n) → v n = v' n := fun n h1 h2 =>
    (floatOf_decimal h1).symm.trans (floatOf_decimal h2)
  induction f generalizing m with
  | nil => rfl
  | el e n r ih => simp only [occurrences, hv n h.1 h'.1, ih h.2 h'.2]
  | par i n r ih1 ih2 => simp only [occurrences, hv n h.1 h'.1, ih1 h.2.1 h'.2.1, ih2 h.2.2 h'.2.2]

theorem values_floatOf {f : F} (h : Proper f) : Values floatOf f := by
  have hv : ∀ n, (∃ q, IsDecimal n q) → IsDecimal n (floatOf n) := by
    rintro n ⟨q, hq⟩; rw [floatOf_decimal hq]; exact hq
  induction f with
  | nil => trivial
  | el e n r ih => exact ⟨hv n h.2.1, ih h.2.2⟩
  | par i n r ih1 ih2 => exact ⟨hv n h.2.2.1, ih1 h.2.1, ih2 h.2.2.2⟩

theorem IsDecimal.nonneg {t : Str} {q : ℚ} (h : IsDecimal t q) : 0 ≤ q := by
  obtain ⟨w, f, -, -, -, rfl⟩ := h
  positivity

theorem occurrences_nonneg {v : Str → ℚ} {f : F} (h : Values v f) (m : ℚ) (hm : 0 ≤ m) :
    ∀ p ∈ occurrences v f m, 0 ≤ p.2 := by
  induction f generalizing m with
  | nil => intro p hp; cases hp
  | el e n r ih =>
    intro p hp
    rcases List.mem_cons.1 hp with rfl | hp
    · exact mul_nonneg hm h.1.nonneg
    · exact ih h.2 m hm p hp
  | par i n r ih1 ih2 =>
    intro p hp
    rcases List.mem_append.1 hp with hp | hp
    · exact ih1 h.2.1 _ (mul_nonneg hm h.1.nonneg) p hp
    · exact ih2 h.2.2 m hm p hp

theorem names_addAll (l d : Items Str ℚ) : names id (addAll id d l) =
    names id d ++ (firsts (names id l)).filter (fun b => decide (b ∉ names id d)) := by
  induction l generalizing d with
  | nil => simp [addAll, firsts, names]
  | cons p l ih =>
    obtain ⟨a, n⟩ := p
    have hstep : addAll id d ((a, n) :: l) = addAll id (addTo id d a n) l := rfl
    rw [hstep, ih, Compound.names_addTo, Compound.names_cons, firsts]
    simp only [id]
    by_cases h : a ∈ names id d
    · rw [if_pos h, List.filter_cons, if_neg (by simpa using h), List.filter_filter]
      congr 1
      apply List.filter_congr
      intro b _
      by_cases hb : b = a
      · subst hb; simp [h]
      · simp [hb]
    · rw [if_neg h, List.filter_cons, if_pos (by simpa using h), List.filter_filter, List.append_assoc,
        List.singleton_append]
      congr 2
      apply List.filter_congr
      intro b _
      simp only [List.mem_append, List.mem_singleton]
      by_cases hb : b = a
      · subst hb; simp
      · simp [hb]

theorem names_compose (l : Items Str ℚ) : names id (compose id l) = firsts (names id l) := by
  rw [Compound.compose_eq, names_addAll]
  simp [names]

end SC.Formula
