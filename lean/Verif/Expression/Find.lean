import Verif.Expression.Model
/-! # Placeholders in any text (C33) -/

namespace SC.Expression

/-- The text begins with a placeholder of this name, followed by `r`. -/
def Begins (s n r : Str) : Prop := s = '{' :: (n ++ '}' :: r) ∧ '}' ∉ n ∧ '\n' ∉ n

/-- The names of the placeholders of a text from left to right, without overlap. -/
inductive Found : Str → List Str → Prop where
  | none {s} (h : ∀ a b n r, s = a ++ b → ¬ Begins b n r) : Found s []
  | some {a b n r l} (hn : Begins b n r) (h : ∀ a1 a2 m q, a = a1 ++ a2 → a2 ≠ [] → ¬ Begins (a2 ++ b) m q)
      (hr : Found r l) : Found (a ++ b) (n :: l)

theorem closing_some {s n r : Str} (h : closing s = some (n, r)) : s = n ++ '}' :: r ∧ '}' ∉ n ∧ '\n' ∉ n := by
  induction s generalizing n with
  | nil => simp [closing] at h
  | cons c s ih =>
    unfold closing at h
    split at h
    · simp only [Option.some.injEq, Prod.mk.injEq] at h
      obtain ⟨rfl, rfl⟩ := h
      simp_all
    · split at h
      · simp at h
      · simp only [Option.map_eq_some_iff, Prod.mk.injEq] at h
        obtain ⟨⟨m, q⟩, h1, rfl, rfl⟩ := h
        obtain ⟨rfl, h2, h3⟩ := ih h1
        refine ⟨rfl, ?_, ?_⟩
        · simp only [List.mem_cons, not_or]; exact ⟨fun h => absurd h.symm (by assumption), h2⟩
        · simp only [List.mem_cons, not_or]; exact ⟨fun h => absurd h.symm (by assumption), h3⟩

theorem closing_of {n r : Str} (h1 : '}' ∉ n) (h2 : '\n' ∉ n) : closing (n ++ '}' :: r) = some (n, r) := by
  induction n with
  | nil => simp [closing]
  | cons c n ih =>
    simp only [List.mem_cons, not_or] at h1 h2
    simp only [List.cons_append, closing, if_neg (Ne.symm h1.1), if_neg (Ne.symm h2.1), ih h1.2 h2.2, Option.map_some]

theorem begins_iff {c : Char} {s n r : Str} : Begins (c :: s) n r ↔ c = '{' ∧ closing s = some (n, r) := by
  constructor
  · rintro ⟨h, h1, h2⟩
    simp only [List.cons.injEq] at h
    exact ⟨h.1, by rw [h.2]; exact closing_of h1 h2⟩
  · rintro ⟨rfl, h⟩
    obtain ⟨rfl, h1, h2⟩ := closing_some h
    exact ⟨rfl, h1, h2⟩

theorem found_skip {c : Char} {s : Str} {l : List Str} (hc : ∀ n r, ¬ Begins (c :: s) n r) (h : Found s l) :
    Found (c :: s) l := by
  cases h with
  | none h =>
    refine .none fun a b n r he hb => ?_
    rcases a with _ | ⟨d, a⟩
    · simp only [List.nil_append] at he
      subst he
      exact hc n r hb
    · simp only [List.cons_append, List.cons.injEq] at he
      exact h a b n r he.2 hb
  | @some a b n r l hn h hr =>
    rw [← List.cons_append]
    refine .some hn (fun a1 a2 m q he ha hb => ?_) hr
    rcases a1 with _ | ⟨d, a1⟩
    · simp only [List.nil_append] at he
      subst he
      exact hc m q (by simpa using hb)
    · simp only [List.cons_append, List.cons.injEq] at he
      exact h a1 a2 m q he.2 ha hb

/-- C33: in any text exactly the placeholders are found, from left to right. -/
theorem findall_found (s : Str) : Found s (findall s) := by
  have : ∀ n s, s.length ≤ n → Found s (findallN n s) := by
    intro n
    induction n with
    | zero =>
      intro s hs
      rw [List.length_eq_zero_iff.1 (Nat.le_zero.1 hs)]
      refine .none fun a b n r he hb => ?_
      obtain ⟨rfl, -, -⟩ := hb
      simp at he
    | succ k ih =>
      intro s hs
      rcases s with _ | ⟨c, s⟩
      · refine .none fun a b n r he hb => ?_
        obtain ⟨rfl, -, -⟩ := hb
        simp at he
      · simp only [List.length_cons] at hs
        unfold findallN
        split
        · rename_i hc
          subst hc
          split
          · rename_i m r hm
            obtain ⟨rfl, h1, h2⟩ := closing_some hm
            exact Found.some (a := []) ⟨rfl, h1, h2⟩
              (fun a1 a2 m q he ha _ => ha (by simpa using (List.append_eq_nil_iff.1 he.symm).2))
              (ih _ (by simp at hs; omega))
          · rename_i hm
            exact found_skip (fun n r h => by simp [begins_iff, hm] at h) (ih _ (by omega))
        · rename_i hc
          exact found_skip (fun n r h => hc (begins_iff.1 h).1) (ih _ (by omega))
  exact this _ s (Nat.le_refl _)

/-- A case: a brace that is not closed on its line. -/
example : findall ['{', 'a', '\n', '{', 'x', '}', '{', '}'] = [['x'], []] := by decide

end SC.Expression
