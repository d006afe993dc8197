import Verif.Formula.Eval
/-! # C53: the parser takes the longest formula -/
namespace SC.Formula
open SC.Scan (takeWhile_stop)

theorem noPair_apply {s : Str} (h : NoPair s) (p : Str) (a b : Char) (q : Str) (e : s = p ++ a :: b :: q)
    (ha : isLower a = true) : isLower b = false := by
  cases hb : isLower b with
  | false => rfl
  | true => exact absurd (by simpa [isLower] using hb) (h p a b q e (by simpa [isLower] using ha))

theorem NoPair.suffix {p s : Str} (h : NoPair (p ++ s)) : NoPair s := by
  intro a x y q e hx
  exact h (p ++ a) x y q (by rw [e]; simp) hx

/-- An element takes a symbol, or one letter more than what was asked. -/
theorem element_longest (strict : Bool) {w e x : Str} (hw : Blank w) (he : IsSymbol e)
    (hp : strict = true → NoPair (w ++ (e ++ x))) :
    (element strict (w ++ (e ++ x)) = some (e, x)) ∨
    ∃ e' d r, x = d :: r ∧ isLower d = true ∧
      (element strict (w ++ (e ++ x)) = some (e', r) ∨ element strict (w ++ (e ++ x)) = some (e, x)) := by
  cases x with
  | nil => exact .inl (element_symbol strict hw he (by simp))
  | cons d r =>
    cases hd : isLower d with
    | false => exact .inl (element_symbol strict hw he (by intro c hc; simp at hc; subst hc; exact hd))
    | true =>
      right
      obtain ⟨c, hc, rfl | ⟨a, ha, rfl⟩⟩ := he
      · have hu : isUpper c = true := by simpa [isUpper] using hc
        have hn : strict = true → ∀ b ∈ r.head?, isLower b = false := by
          intro h b hb
          cases r with
          | nil => simp at hb
          | cons y r =>
            simp at hb; subst hb
            exact noPair_apply (hp h) (w ++ [c]) d y r (by simp) hd
        refine ⟨[c, d], d, r, rfl, hd, .inl ?_⟩
        have l1 : lower1 strict (d :: r) = some (d, r) := by
          cases r with
          | nil => simp [lower1, hd]
          | cons y r =>
            cases strict with
            | false => simp [lower1, hd]
            | true =>
              have := hn rfl y (by simp)
              simp [lower1, hd, this]
        simp only [element, skip_blank _ _ hw, List.cons_append, List.nil_append, skip_cons _ (upper_not_blank hu), hu,
          if_true, l1]
      · have hu : isUpper c = true := by simpa [isUpper] using hc
        have hl : isLower a = true := by simpa [isLower] using ha
        refine ⟨[c, a], d, r, rfl, hd, .inr ?_⟩
        have l1 : lower1 strict (a :: d :: r) = some (a, d :: r) := by
          cases hs : strict with
          | false => simp [lower1, hl]
          | true =>
            have := noPair_apply (hp hs) (w ++ [c]) a d r (by simp) hl
            rw [hd] at this; cases this
        simp only [element, skip_blank _ _ hw, List.cons_append, List.nil_append, skip_cons _ (upper_not_blank hu), hu,
          if_true, l1]

theorem takeWhile_all (p : Char → Bool) (t r : Str) (ht : ∀ c ∈ t, p c = true) :
    (t ++ r).takeWhile p = t ++ r.takeWhile p ∧ (t ++ r).dropWhile p = r.dropWhile p := by
  induction t with
  | nil => exact ⟨rfl, rfl⟩
  | cons a t ih =>
    have ha := ht a (by simp)
    have := ih fun c hc => ht c (by simp [hc])
    simp only [List.cons_append, List.takeWhile_cons, List.dropWhile_cons, ha, if_true, this.1, this.2, and_self]

theorem dropWhile_length (p : Char → Bool) (r : Str) : (r.dropWhile p).length ≤ r.length := by
  have := congrArg List.length (List.takeWhile_append_dropWhile (p := p) (l := r))
  rw [List.length_append] at this; omega

/-- A number takes at least what was asked. -/
theorem number_longest {num t x : Str} (ht : Multiplier num t) :
    number (t ++ x) = (num, x) ∨ ((number (t ++ x)).2.length ≤ x.length ∧
      ∃ c ∈ (skip x).head?, c.isDigit = true ∨ c = '.') := by
  by_cases hx : ∀ c ∈ (skip x).head?, c.isDigit = false ∧ c ≠ '.'
  · left
    rcases ht with ⟨rfl, rfl⟩ | ⟨w, q, hw, hd, rfl⟩
    · simp only [number, List.nil_append, fnumber_none hx]
    · have hh : ∀ c ∈ x.head?, c.isDigit = false ∧ c ≠ '.' := by
        intro c hc
        cases x with
        | nil => simp at hc
        | cons a x =>
          simp at hc; subst hc
          cases hb : isBlank a with
          | true => exact ⟨blank_not_digit hb, by rintro rfl; revert hb; decide⟩
          | false => exact hx a (by rw [skip_cons x hb]; simp)
      simp only [number, List.append_assoc, fnumber_decimal hw hd hh]
  · right
    refine ⟨?_, ?_⟩
    · rcases ht with ⟨rfl, rfl⟩ | ⟨w, q, hw, ⟨a, b, ha, hb, hd, -⟩, rfl⟩
      · obtain ⟨t, -, h⟩ := number_sound ([] ++ x)
        have := congrArg List.length h
        simp only [List.nil_append, List.length_append] at this ⊢
        omega
      · rcases hd with ⟨rfl, hne, rfl⟩ | ⟨hne, rfl⟩
        · have hsk : skip (num ++ x) = num ++ x := by
            cases num with
            | nil => exact absurd rfl hne
            | cons c t => exact skip_cons _ (digit_not_blank (ha c (by simp)))
          have h1 := takeWhile_all Char.isDigit num x ha
          have h2 : num ++ x.takeWhile Char.isDigit ≠ [] := by simp [hne]
          have h3 := dropWhile_length Char.isDigit x
          simp only [number, fnumber, List.append_assoc, skip_blank _ _ hw, hsk, h1]
          generalize hy : x.dropWhile Char.isDigit = y at h3 ⊢
          split
          · rename_i o p ho
            split at ho
            · rename_i y'
              rw [if_neg (fun h => h2 h.1)] at ho
              cases ho
              have := dropWhile_length Char.isDigit y'
              simp only [List.length_cons] at h3
              show (y'.dropWhile Char.isDigit).length ≤ _
              omega
            · rw [if_neg h2] at ho
              cases ho; exact h3
          · rename_i ho
            split at ho
            · rw [if_neg (fun h => h2 h.1)] at ho; cases ho
            · rw [if_neg h2] at ho; cases ho
        · have hdot : ∀ c ∈ ('.' :: (b ++ x)).head?, c.isDigit = false := by
            intro c hc; simp at hc; subst hc; decide
          have hsk : skip (a ++ ('.' :: (b ++ x))) = a ++ ('.' :: (b ++ x)) := by
            cases a with
            | nil => exact skip_cons _ (by decide)
            | cons c a => exact skip_cons _ (digit_not_blank (ha c (by simp)))
          have e1 : w ++ (a ++ '.' :: b) ++ x = w ++ (a ++ ('.' :: (b ++ x))) := by simp
          have h1 := takeWhile_all Char.isDigit b x hb
          rw [e1]
          simp only [number, fnumber, skip_blank _ _ hw, hsk, takeWhile_stop _ a _ ha hdot, dropWhile_stop _ a _ ha hdot, h1]
          rw [if_neg]
          · exact dropWhile_length _ _
          · rintro ⟨h1, h2⟩
            rcases hne with h | h
            · exact h h1
            · exact h (List.append_eq_nil_iff.1 h2).1
    · by_contra hno
      apply hx
      intro c hc
      constructor
      · cases h : c.isDigit with
        | false => rfl
        | true => exact absurd ⟨c, hc, .inl h⟩ hno
      · intro h; exact hno ⟨c, hc, .inr h⟩

theorem groups_length (strict : Bool) (n : Nat) (s : Str) : (groups strict n s).2.length ≤ s.length := by
  obtain ⟨t, -, h⟩ := groups_sound strict n s
  have := congrArg List.length h
  rw [List.length_append] at this; omega

/-- A formula that is not empty starts with a capital letter or a parenthesis. -/
theorem layout_start {f : F} {u : Str} (h : Layout f u) : u = [] ∨ ∀ x, ∃ c, c ∈ (skip (u ++ x)).head? ∧
    (isUpper c = true ∨ c = '(') := by
  cases h with
  | nil => exact .inl rfl
  | el hw he hm hl =>
    right; intro x
    obtain ⟨c, q, rfl, hc⟩ := symbol_head he
    refine ⟨c, ?_, .inl hc⟩
    rw [List.append_assoc, skip_blank _ _ hw]
    simp only [List.cons_append]
    rw [skip_cons _ (upper_not_blank hc)]; simp
  | par hw _ _ _ _ _ =>
    right; intro x
    refine ⟨'(', ?_, .inr rfl⟩
    rw [List.append_assoc, skip_blank _ _ hw]
    simp only [List.cons_append]
    rw [skip_cons _ (by decide)]; simp

/-- After a multiplier: the rest of the formula is found, or something longer. -/
theorem rest_longest (strict : Bool) (k : Nat) {f : F} {num t u z : Str} (hm : Multiplier num t) (hl : Layout f u)
    (ih : ∀ z, (strict = true → NoPair (u ++ z)) → (groups strict k (u ++ z)).2.length ≤ z.length)
    (hp : strict = true → NoPair (u ++ z)) :
    (groups strict k (number (t ++ (u ++ z))).2).2.length ≤ z.length := by
  rcases number_longest (x := u ++ z) hm with h | ⟨h, c, hc, hcd⟩
  · rw [h]; exact ih z hp
  · rcases layout_start hl with rfl | hu
    · have := groups_length strict k (number (t ++ ([] ++ z))).2
      simp only [List.nil_append] at h this ⊢
      omega
    · obtain ⟨c', hc', hcu⟩ := hu z
      rw [Option.mem_def] at hc hc'
      rw [hc] at hc'; cases hc'
      rcases hcu with h1 | rfl
      · rcases hcd with h2 | rfl
        · rw [upper_not_digit h1] at h2; cases h2
        · exact absurd h1 (by decide)
      · rcases hcd with h2 | h2
        · exact absurd h2 (by decide)
        · exact absurd h2 (by decide)

/-- No formula at the beginning of the text is longer than what is found. -/
theorem groups_longest (strict : Bool) {f : F} {t : Str} (h : Layout f t) : ∀ n z, t.length ≤ n →
    (strict = true → NoPair (t ++ z)) → (groups strict n (t ++ z)).2.length ≤ z.length := by
  induction h with
  | nil => intro n z _ _; exact groups_length strict n _
  | @el e num r w t u hw he hm hl ih =>
    intro n z hn hp
    obtain ⟨c, q, hq, -⟩ := symbol_head he
    have hlen : 1 + u.length ≤ n := by
      simp only [List.length_append, hq, List.length_cons] at hn; omega
    obtain ⟨k, rfl⟩ : ∃ k, n = k + 1 := ⟨n - 1, by omega⟩
    have e1 : w ++ (e ++ (t ++ u)) ++ z = w ++ (e ++ (t ++ (u ++ z))) := by simp
    rw [e1] at hp ⊢
    have hp' : strict = true → NoPair (u ++ z) := by
      intro h
      have := hp h
      rw [show w ++ (e ++ (t ++ (u ++ z))) = (w ++ (e ++ t)) ++ (u ++ z) by simp] at this
      exact this.suffix
    have fin := rest_longest strict k hm hl (fun z hz => ih k z (by omega) hz) hp'
    rcases element_longest strict hw he hp with h1 | ⟨e', d, s, hx, hd, h1 | h1⟩
    · simp only [groups, h1]; exact fin
    · simp only [groups, h1]
      -- the letter `d` can only belong to what follows the formula
      have ht : t = [] ∧ u = [] := by
        have hdig : ∀ c : Char, isLower c = true → c.isDigit = false := by
          intro c hc
          cases h : c.isDigit with
          | false => rfl
          | true => rw [digit_not_lower h] at hc; cases hc
        have ht : t = [] := by
          cases t with
          | nil => rfl
          | cons a t =>
            simp at hx
            have := multiplier_head hm (s := []) ⟨by simp [skip], by simp⟩ a (by simp)
            rw [hx.1, hd] at this; cases this
        subst ht
        refine ⟨rfl, ?_⟩
        rcases layout_start hl with h | h
        · exact h
        · obtain ⟨c, hc, hcu⟩ := h z
          rw [List.nil_append] at hx
          rw [hx, skip_cons _ (lower_not_blank hd)] at hc
          simp at hc; subst hc
          rcases hcu with h | rfl
          · rw [upper_not_lower h] at hd; cases hd
          · exact absurd hd (by decide)
      obtain ⟨rfl, rfl⟩ := ht
      simp only [List.nil_append] at hx
      have h2 := groups_length strict k (number s).2
      obtain ⟨t', -, h3⟩ := number_sound s
      have := congrArg List.length h3
      rw [List.length_append] at this
      rw [hx, List.length_cons]
      omega
    · simp only [groups, h1]; exact fin
  | @par i num r w t u v b hw hi hv hb hm hl ih1 ih2 =>
    intro n z hn hp
    have hlen : 2 + v.length + u.length ≤ n := by
      simp only [List.length_append, List.length_cons] at hn; omega
    obtain ⟨k, rfl⟩ : ∃ k, n = k + 1 := ⟨n - 1, by omega⟩
    have e1 : w ++ ('(' :: (v ++ (b ++ (')' :: (t ++ u))))) ++ z =
        w ++ ('(' :: (v ++ (b ++ (')' :: (t ++ (u ++ z)))))) := by simp
    rw [e1] at hp ⊢
    have hp' : strict = true → NoPair (u ++ z) := by
      intro h
      have := hp h
      rw [show w ++ ('(' :: (v ++ (b ++ (')' :: (t ++ (u ++ z)))))) = (w ++ ('(' :: (v ++ (b ++ (')' :: t))))) ++ (u ++ z) by simp] at this
      exact this.suffix
    have hsk : skip (w ++ ('(' :: (v ++ (b ++ (')' :: (t ++ (u ++ z))))))) =
        '(' :: (v ++ (b ++ (')' :: (t ++ (u ++ z))))) := by
      rw [skip_blank _ _ hw, skip_cons _ (by decide)]
    have h0 : element strict (w ++ ('(' :: (v ++ (b ++ (')' :: (t ++ (u ++ z))))))) = none := by
      unfold element; rw [hsk]; simp only; rw [if_neg (by decide)]
    have h1 := groups_layout strict hv k (b ++ (')' :: (t ++ (u ++ z)))) (by omega) (stop_close hb)
    have h2 : skip (b ++ (')' :: (t ++ (u ++ z)))) = ')' :: (t ++ (u ++ z)) := by
      rw [skip_blank _ _ hb, skip_cons _ (by decide)]
    simp only [groups, h0, hsk, h1, if_neg hi, h2]
    exact rest_longest strict k hm hl (fun z hz => ih2 k z (by omega) hz) hp'

/-- Some formula is found where there is one. -/
theorem groups_some (strict : Bool) {f : F} {t : Str} (h : Layout f t) (hf : f ≠ .nil) (n : Nat) (z : Str)
    (hn : t.length ≤ n) : (groups strict n (t ++ z)).1 ≠ .nil := by
  cases h with
  | nil => exact absurd rfl hf
  | @el e num r w t u hw he hm hl =>
    obtain ⟨c, q, rfl, hc⟩ := symbol_head he
    obtain ⟨k, rfl⟩ : ∃ k, n = k + 1 := ⟨n - 1, by simp only [List.length_append, List.length_cons] at hn; omega⟩
    have : ∃ y, element strict (w ++ (c :: q ++ (t ++ u)) ++ z) = some y := by
      rw [List.append_assoc]
      unfold element
      rw [skip_blank _ _ hw]
      simp only [List.cons_append, List.append_assoc]
      rw [skip_cons _ (upper_not_blank hc)]
      simp only [hc, if_true]
      split <;> exact ⟨_, rfl⟩
    obtain ⟨y, hy⟩ := this
    simp only [groups, hy]
    simp
  | @par i num r w t u v b hw hi hv hb hm hl =>
    obtain ⟨k, rfl⟩ : ∃ k, n = k + 1 := ⟨n - 1, by simp only [List.length_append, List.length_cons] at hn; omega⟩
    have hlen : v.length ≤ k := by
      simp only [List.length_append, List.length_cons] at hn; omega
    have e1 : w ++ ('(' :: (v ++ (b ++ (')' :: (t ++ u))))) ++ z =
        w ++ ('(' :: (v ++ (b ++ (')' :: (t ++ (u ++ z)))))) := by simp
    rw [e1]
    have hsk : skip (w ++ ('(' :: (v ++ (b ++ (')' :: (t ++ (u ++ z))))))) =
        '(' :: (v ++ (b ++ (')' :: (t ++ (u ++ z))))) := by
      rw [skip_blank _ _ hw, skip_cons _ (by decide)]
    have h0 : element strict (w ++ ('(' :: (v ++ (b ++ (')' :: (t ++ (u ++ z))))))) = none := by
      unfold element; rw [hsk]; simp only; rw [if_neg (by decide)]
    have h1 := groups_layout strict hv k (b ++ (')' :: (t ++ (u ++ z)))) hlen (stop_close hb)
    have h2 : skip (b ++ (')' :: (t ++ (u ++ z)))) = ')' :: (t ++ (u ++ z)) := by
      rw [skip_blank _ _ hb, skip_cons _ (by decide)]
    simp only [groups, h0, hsk, h1, if_neg hi, h2]
    simp

end SC.Formula
