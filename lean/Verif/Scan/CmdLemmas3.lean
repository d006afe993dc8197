import Verif.Scan.CmdLemmas2
import Mathlib.Algebra.Order.Ring.Rat
import Mathlib.Data.List.Induction
/-! # Lemmas for C51: numbers, exclusive patterns, dispatch -/
namespace SC.Scan
open SC.Py.Regex

theorem natOf_concat (t : Str) (c : Char) : natOf (t ++ [c]) = 10 * natOf t + (c.toNat - '0'.toNat) := by
  simp only [natOf, List.foldl_append, List.foldl_cons, List.foldl_nil]

theorem natVal_concat (t : Str) (c : Char) : natVal (t ++ [c]) = digitVal c + 10 * natVal t := by
  simp only [natVal, List.reverse_append, List.reverse_singleton, List.singleton_append, List.map_cons,
    Nat.ofDigits_cons]

theorem natOf_eq (t : Str) : natOf t = natVal t := by
  induction t using List.reverseRecOn with
  | nil => rfl
  | append_singleton t c ih =>
    rw [natOf_concat, natVal_concat, ih]
    simp only [digitVal]
    have : '0'.toNat = 48 := rfl
    rw [this]; omega

theorem natVal_append (w f : Str) : natVal (w ++ f) = natVal w * 10 ^ f.length + natVal f := by
  induction f using List.reverseRecOn with
  | nil => simp [natVal]
  | append_singleton f c ih =>
    rw [← List.append_assoc, natVal_concat, natVal_concat, ih, List.length_append, List.length_singleton, Nat.pow_succ]
    ring

theorem digit_ne {c d : Char} (h : c.isDigit = true) (hd : d.isDigit = false) : c ≠ d := by
  rintro rfl
  rw [h] at hd
  cases hd

theorem takeWhile_dot (w r : Str) (hw : ∀ c ∈ w, c.isDigit = true) (hr : r = [] ∨ ∃ f, r = '.' :: f) :
    (w ++ r).takeWhile (fun c => c != '.') = w := by
  apply takeWhile_stop
  · intro c hc
    simpa using digit_ne (hw c hc) (by decide : '.'.isDigit = false)
  · rcases hr with rfl | ⟨f, rfl⟩ <;> simp

theorem whole_eq (w r : Str) (hw : ∀ c ∈ w, c.isDigit = true) (hr : r = [] ∨ ∃ f, r = '.' :: f) : whole (w ++ r) = w :=
  takeWhile_dot w r hw hr

theorem behind_eq (w r : Str) (hw : ∀ c ∈ w, c.isDigit = true) (hr : r = [] ∨ ∃ f, r = '.' :: f) :
    behind (w ++ r) = r.drop 1 := by
  have h1 := List.takeWhile_append_dropWhile (p := fun c => c != '.') (l := w ++ r)
  rw [takeWhile_dot w r hw hr] at h1
  have := List.append_cancel_left h1
  simp only [behind, this]

theorem unsigned_eq (sg u : Str) (hs : IsSign sg) (hu : ∀ c ∈ u.head?, isSign c = false) : unsigned (sg ++ u) = u := by
  rcases hs with rfl | rfl | rfl
  · cases u with
    | nil => rfl
    | cons a u =>
      have := hu a (by simp)
      simp only [isSign, Bool.or_eq_false_iff, decide_eq_false_iff_not] at this
      simp only [List.nil_append, unsigned]
      split
      · rename_i e; cases e; exact absurd rfl this.1
      · rename_i e; cases e; exact absurd rfl this.2
      · rfl
  · rfl
  · rfl

theorem head_minus (sg u : Str) (hs : IsSign sg) (hu : ∀ c ∈ u.head?, isSign c = false) :
    ((sg ++ u).head? = some '-') ↔ sg = ['-'] := by
  rcases hs with rfl | rfl | rfl
  · constructor
    · intro h
      have := hu '-' h
      simp [isSign] at this
    · intro h; cases h
  · simp
  · simp

/-- The value of a number is what its notation says. -/
theorem floatOf_eq {t : Str} {q : Rat} (h : IsNumber t q) : floatOf t = q := by
  obtain ⟨sg, w, f, hs, hw, hf, ht, rfl⟩ := h
  have key : ∀ r : Str, (r = [] ∨ ∃ f, r = '.' :: f) → w ++ r ≠ [] → f = r.drop 1 → t = sg ++ (w ++ r) →
      floatOf t = (if sg = ['-'] then -1 else 1) * ((natVal w : Rat) + (natVal f : Rat) / (10 : Rat) ^ f.length) := by
    intro r hr hne hfr htr
    have hu : ∀ c ∈ (w ++ r).head?, isSign c = false := by
      intro c hc
      cases w with
      | nil =>
        rcases hr with rfl | ⟨f', rfl⟩
        · simp at hc
        · simp at hc; subst hc; decide
      | cons a w => simp at hc; subst hc; exact digit_not_sign (hw a (by simp))
    subst htr
    simp only [floatOf, unsigned_eq sg _ hs hu, whole_eq w r hw hr, behind_eq w r hw hr, ← hfr, head_minus sg _ hs hu,
      natOf_eq, natVal_append]
    have h10 : ((10 : Rat) ^ f.length) ≠ 0 := pow_ne_zero _ (by norm_num)
    split
    · push_cast
      field_simp
    · push_cast
      field_simp
  rcases ht with ⟨rfl, hne, rfl⟩ | ⟨hne, rfl⟩
  · exact key [] (.inl rfl) (by simpa using hne) rfl (by simp)
  · exact key ('.' :: f) (.inr ⟨f, rfl⟩) (by simp) rfl (by simp)

theorem isNat_number {t : Str} (h : IsNat t) : IsNumber t (natVal t) :=
  ⟨[], t, [], .inl rfl, h.2, by simp, .inl ⟨rfl, h.1, rfl⟩, by simp [natVal]⟩

/-! ## The beginning of a command -/

theorem layout_cons {k k2 : Kind} {ks : List Kind} {ts : List Str} {s : Str} (h : Layout (k :: k2 :: ks) ts s)
    (hk : k.Good) (hg : ∀ k ∈ k2 :: ks, k.Good) :
    ∃ t ts', ts = t :: ts' ∧ k.Ok t ∧ s.takeWhile (fun c => !isBlank c) = t ∧
      Layout (k2 :: ks) ts' ((s.dropWhile (fun c => !isBlank c)).dropWhile isBlank) := by
  cases h with
  | @next _ t _ ts' gap s' hok hgap hrest =>
    have hnb := ok_nonblank hk hok
    have h1 : (t ++ gap ++ s').takeWhile (fun c => !isBlank c) = t := by
      rw [List.append_assoc]
      apply takeWhile_stop
      · intro c hc; simp [hnb.2 c hc]
      · intro c hc; simp [gap_head hgap c hc]
    have h2 : (t ++ gap ++ s').dropWhile (fun c => !isBlank c) = gap ++ s' := by
      have e := List.takeWhile_append_dropWhile (p := fun c => !isBlank c) (l := t ++ gap ++ s')
      rw [h1, List.append_assoc] at e
      rw [List.append_assoc]
      exact List.append_cancel_left e
    have h3 : (gap ++ s').dropWhile isBlank = s' := by
      have e := List.takeWhile_append_dropWhile (p := isBlank) (l := gap ++ s')
      rw [takeWhile_stop isBlank gap s' hgap.2 (layout_head hrest hg)] at e
      exact List.append_cancel_left e
    exact ⟨t, ts', rfl, hok, h1, by rw [h2, h3]; exact hrest⟩

theorem layout_last {k : Kind} {ts : List Str} {s : Str} (h : Layout [k] ts s) : ∃ t, ts = [t] ∧ k.Ok t := by
  cases h with
  | last hok _ => exact ⟨_, rfl, hok⟩
  | next _ _ h => exact absurd rfl (layout_ne h)

/-- Two forms that agree on the first fields and have different fields then. -/
theorem layout_conflict : ∀ (pre : List Kind) {k1 k1' k2 k2' : Kind} {ks1 ks2 : List Kind} {ts1 ts2 : List Str} {s : Str},
    (∀ k ∈ pre, k.Good) → (∀ k ∈ k1 :: k1' :: ks1, k.Good) → (∀ k ∈ k2 :: k2' :: ks2, k.Good) →
    (∀ t, k1.Ok t → k2.Ok t → False) →
    Layout (pre ++ k1 :: k1' :: ks1) ts1 s → Layout (pre ++ k2 :: k2' :: ks2) ts2 s → False
  | [], k1, k1', k2, k2', ks1, ks2, ts1, ts2, s, _, hg1, hg2, hx, h1, h2 => by
    obtain ⟨t, _, _, ho1, e1, _⟩ := layout_cons h1 (hg1 k1 (by simp)) (fun k hk => hg1 k (by simp [List.mem_cons.mp hk]))
    obtain ⟨t', _, _, ho2, e2, _⟩ := layout_cons h2 (hg2 k2 (by simp)) (fun k hk => hg2 k (by simp [List.mem_cons.mp hk]))
    have : t = t' := e1.symm.trans e2
    subst this
    exact hx t ho1 ho2
  | [a], k1, k1', k2, k2', ks1, ks2, ts1, ts2, s, hp, hg1, hg2, hx, h1, h2 => by
    obtain ⟨t, _, _, _, _, h1'⟩ := layout_cons h1 (hp a (by simp)) hg1
    obtain ⟨t', _, _, _, _, h2'⟩ := layout_cons h2 (hp a (by simp)) hg2
    exact layout_conflict [] (by simp) hg1 hg2 hx h1' h2'
  | a :: b :: pre, k1, k1', k2, k2', ks1, ks2, ts1, ts2, s, hp, hg1, hg2, hx, h1, h2 => by
    have hg : ∀ {k k' : Kind} {ks : List Kind}, (∀ x ∈ k :: k' :: ks, Kind.Good x) →
        ∀ x ∈ b :: (pre ++ k :: k' :: ks), Kind.Good x := by
      intro k k' ks hh x hx
      rcases List.mem_cons.mp hx with rfl | hx
      · exact hp x (by simp)
      · rcases List.mem_append.mp hx with hx | hx
        · exact hp x (by simp [hx])
        · exact hh x hx
    obtain ⟨t, _, _, _, _, h1'⟩ := layout_cons h1 (hp a (by simp)) (hg hg1)
    obtain ⟨t', _, _, _, _, h2'⟩ := layout_cons h2 (hp a (by simp)) (hg hg2)
    exact layout_conflict (b :: pre) (fun k hk => hp k (List.mem_cons_of_mem _ hk)) hg1 hg2 hx h1' h2'

theorem firstWord_eq (n s : Str) (hn : ∀ c ∈ n, isBlank c = false) : firstWord (n ++ ' ' :: s) = n := by
  unfold firstWord
  apply takeWhile_stop
  · intro c hc
    have := hn c hc
    simp only [bne_iff_ne, ne_eq]
    rintro rfl
    simp [isBlank] at this
  · simp

theorem firstWord_blank {n : Str} {k : Kind} {ks : List Kind} {ts : List Str} {s : Str} (h : Layout (.word n :: k :: ks) ts s)
    (hf : firstWord s = n) : ∃ s', s = n ++ ' ' :: s' := by
  cases h with
  | @next _ t _ ts' gap s' hok hgap hrest =>
    simp only [Kind.Ok] at hok
    subst hok
    obtain ⟨h1, h2⟩ := hgap
    cases gap with
    | nil => exact absurd rfl h1
    | cons a gap =>
      rcases Decidable.em (a = ' ') with rfl | ha
      · exact ⟨gap ++ s', by simp⟩
      · exfalso
        have e := List.takeWhile_append_dropWhile (p := fun c => c != ' ') (l := t ++ (a :: gap) ++ s')
        unfold firstWord at hf
        rw [hf, List.append_assoc] at e
        have e2 := List.append_cancel_left e
        have : ∀ (l : Str), (l.dropWhile (fun c => c != ' ')).head? = some a → False := by
          intro l
          induction l with
          | nil => simp
          | cons b l ih =>
            rw [List.dropWhile_cons]
            split
            · exact ih
            · rename_i hb
              simp only [List.head?_cons, Option.some.injEq]
              rintro rfl
              simp at hb
              exact ha hb
        apply this (t ++ (a :: gap) ++ s')
        rw [List.append_assoc, e2]
        rfl

end SC.Scan
