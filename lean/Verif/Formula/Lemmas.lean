import Verif.Formula.Spec
import Verif.Scan.CmdLemmas3
import Verif.Compound.Lemmas2
import Mathlib.Tactic.FieldSimp
import Mathlib.Tactic.Ring
/-! # C53: lemmas -/
namespace SC.Formula
open SC.Scan (floatOf natVal takeWhile_stop)

/-! ## characters -/

theorem isBlank_iff (c : Char) : isBlank c = true ↔ c = ' ' ∨ c = '\n' ∨ c = '\t' ∨ c = '\r' := by
  simp [isBlank, or_assoc]

theorem blank_cases {c : Char} (h : isBlank c = true) : c = ' ' ∨ c = '\n' ∨ c = '\t' ∨ c = '\r' := (isBlank_iff c).1 h

theorem upper_not_blank {c : Char} (h : isUpper c = true) : isBlank c = false := by
  cases hb : isBlank c with
  | false => rfl
  | true => rcases blank_cases hb with rfl | rfl | rfl | rfl <;> revert h <;> decide
theorem lower_not_blank {c : Char} (h : isLower c = true) : isBlank c = false := by
  cases hb : isBlank c with
  | false => rfl
  | true => rcases blank_cases hb with rfl | rfl | rfl | rfl <;> revert h <;> decide
theorem digit_not_blank {c : Char} (h : c.isDigit = true) : isBlank c = false := by
  cases hb : isBlank c with
  | false => rfl
  | true => rcases blank_cases hb with rfl | rfl | rfl | rfl <;> revert h <;> decide
theorem blank_not_digit {c : Char} (h : isBlank c = true) : c.isDigit = false := by
  rcases blank_cases h with rfl | rfl | rfl | rfl <;> decide
theorem blank_not_lower {c : Char} (h : isBlank c = true) : isLower c = false := by
  rcases blank_cases h with rfl | rfl | rfl | rfl <;> decide

theorem digit_val {c : Char} (h : c.isDigit = true) : 48 ≤ c.toNat ∧ c.toNat ≤ 57 := by
  simp only [Char.isDigit, Bool.and_eq_true, decide_eq_true_eq] at h
  exact ⟨h.1, h.2⟩
theorem upper_val {c : Char} : isUpper c = true ↔ 65 ≤ c.toNat ∧ c.toNat ≤ 90 := by
  simp only [isUpper, decide_eq_true_eq]; rfl
theorem lower_val {c : Char} : isLower c = true ↔ 97 ≤ c.toNat ∧ c.toNat ≤ 122 := by
  simp only [isLower, decide_eq_true_eq]; rfl

theorem upper_not_lower {c : Char} (h : isUpper c = true) : isLower c = false := by
  cases hb : isLower c with
  | false => rfl
  | true => rw [upper_val] at h; rw [lower_val] at hb; omega
theorem digit_not_lower {c : Char} (h : c.isDigit = true) : isLower c = false := by
  cases hb : isLower c with
  | false => rfl
  | true => have := digit_val h; rw [lower_val] at hb; omega
theorem digit_not_upper {c : Char} (h : c.isDigit = true) : isUpper c = false := by
  cases hb : isUpper c with
  | false => rfl
  | true => have := digit_val h; rw [upper_val] at hb; omega
theorem upper_not_digit {c : Char} (h : isUpper c = true) : c.isDigit = false := by
  cases hb : c.isDigit with
  | false => rfl
  | true => have := digit_val hb; rw [upper_val] at h; omega
theorem ne_of_upper {c d : Char} (h : isUpper c = true) (hd : isUpper d = false) : c ≠ d := by
  rintro rfl; rw [h] at hd; cases hd

/-! ## white space -/

theorem skip_blank (w s : Str) (hw : Blank w) : skip (w ++ s) = skip s := by
  induction w with
  | nil => rfl
  | cons c w ih =>
    have hc : isBlank c = true := (isBlank_iff c).2 (hw c (by simp))
    simp only [skip, List.cons_append, List.dropWhile_cons, hc, if_true]
    exact ih fun d hd => hw d (by simp [hd])

theorem skip_cons {c : Char} (s : Str) (h : isBlank c = false) : skip (c :: s) = c :: s := by
  simp [skip, h]

theorem mem_takeWhile (p : Char → Bool) (s : Str) {c : Char} (h : c ∈ s.takeWhile p) : p c = true := by
  induction s with
  | nil => simp at h
  | cons a s ih =>
    rw [List.takeWhile_cons] at h
    split at h
    · rename_i ha
      rcases List.mem_cons.1 h with rfl | h
      · exact ha
      · exact ih h
    · simp at h

theorem skip_split (s : Str) : ∃ w, Blank w ∧ s = w ++ skip s := by
  refine ⟨s.takeWhile isBlank, fun c hc => (isBlank_iff c).1 (mem_takeWhile _ _ hc), ?_⟩
  exact (List.takeWhile_append_dropWhile (p := isBlank) (l := s)).symm

theorem skip_head (s : Str) : ∀ c ∈ (skip s).head?, isBlank c = false := by
  intro c hc
  induction s with
  | nil => simp [skip] at hc
  | cons a s ih =>
    by_cases h : isBlank a = true
    · simp only [skip, List.dropWhile_cons, h, if_true] at hc; exact ih hc
    · have h' : isBlank a = false := by simpa using h
      rw [skip_cons s h'] at hc
      simp at hc; rw [← hc]; exact h'

/-- Blank or empty text followed by something: the first character. -/
theorem head_blank (w s : Str) (hw : Blank w) : ∀ c ∈ (w ++ s).head?, isBlank c = true ∨ c ∈ s.head? := by
  cases w with
  | nil => intro c hc; exact .inr hc
  | cons a w => intro c hc; simp at hc; subst hc; exact .inl ((isBlank_iff a).2 (hw a (by simp)))

/-! ## what may follow -/

/-- `s` does not continue an element or a number. -/
def Next (s : Str) : Prop := (∀ c ∈ (skip s).head?, c.isDigit = false ∧ c ≠ '.') ∧ ∀ c ∈ s.head?, isLower c = false

/-- `s` does not continue a formula. -/
def Stop (s : Str) : Prop :=
  (∀ c ∈ (skip s).head?, c.isDigit = false ∧ c ≠ '.' ∧ isUpper c = false ∧ c ≠ '(') ∧ ∀ c ∈ s.head?, isLower c = false

theorem Stop.next {s : Str} (h : Stop s) : Next s :=
  ⟨fun c hc => ⟨(h.1 c hc).1, (h.1 c hc).2.1⟩, h.2⟩

theorem Next.head {s : Str} (h : Next s) : ∀ c ∈ s.head?, c.isDigit = false ∧ c ≠ '.' := by
  intro c hc
  cases s with
  | nil => simp at hc
  | cons a s =>
    simp at hc; subst hc
    cases hb : isBlank a with
    | true =>
      refine ⟨blank_not_digit hb, ?_⟩
      rintro rfl; revert hb; decide
    | false => exact h.1 a (by rw [skip_cons s hb]; simp)

theorem symbol_head {e : Str} (h : IsSymbol e) : ∃ c r, e = c :: r ∧ isUpper c = true := by
  obtain ⟨c, hc, rfl | ⟨d, hd, rfl⟩⟩ := h
  · exact ⟨c, _, rfl, by simpa [isUpper] using hc⟩
  · exact ⟨c, _, rfl, by simpa [isUpper] using hc⟩

theorem next_layout {f : F} {u z : Str} (h : Layout f u) (hz : Stop z) : Next (u ++ z) := by
  cases h with
  | nil => exact hz.next
  | el hw he hm hl =>
    rename_i e num r w t u
    obtain ⟨c, q, rfl, hc⟩ := symbol_head he
    have hb := upper_not_blank hc
    constructor
    · intro a ha
      rw [List.append_assoc, skip_blank _ _ hw] at ha
      simp only [List.cons_append] at ha
      rw [skip_cons _ hb] at ha
      simp at ha; subst ha
      exact ⟨upper_not_digit hc, ne_of_upper hc (by decide)⟩
    · intro a ha
      rw [List.append_assoc] at ha
      rcases head_blank _ _ hw a ha with h | h
      · exact blank_not_lower h
      · simp at h; subst h; exact upper_not_lower hc
  | par hw _ _ _ _ _ =>
    constructor
    · intro a ha
      rw [List.append_assoc, skip_blank _ _ hw] at ha
      simp only [List.cons_append] at ha
      rw [skip_cons _ (by decide)] at ha
      simp at ha; subst ha
      exact ⟨by decide, by decide⟩
    · intro a ha
      rw [List.append_assoc] at ha
      rcases head_blank _ _ hw a ha with h | h
      · exact blank_not_lower h
      · simp at h; subst h; decide

/-! ## tokens -/

theorem element_symbol (strict : Bool) {w e s : Str} (hw : Blank w) (he : IsSymbol e)
    (hs : ∀ c ∈ s.head?, isLower c = false) : element strict (w ++ (e ++ s)) = some (e, s) := by
  have l1 : ∀ d, isLower d = true → lower1 strict (d :: s) = some (d, s) := by
    intro d hd
    cases s with
    | nil => simp [lower1, hd]
    | cons a s =>
      have := hs a (by simp)
      simp [lower1, hd, this]
  have l0 : lower1 strict s = none := by
    cases s with
    | nil => rfl
    | cons a s =>
      have := hs a (by simp)
      simp [lower1, this]
  obtain ⟨c, hc, rfl | ⟨d, hd, rfl⟩⟩ := he
  · have hu : isUpper c = true := by simpa [isUpper] using hc
    simp only [element, skip_blank _ _ hw, List.cons_append, List.nil_append, skip_cons _ (upper_not_blank hu), hu, if_true, l0]
  · have hu : isUpper c = true := by simpa [isUpper] using hc
    have hl : isLower d = true := by simpa [isLower] using hd
    simp only [element, skip_blank _ _ hw, List.cons_append, List.nil_append, skip_cons _ (upper_not_blank hu), hu, if_true, l1 d hl]

theorem element_sound {strict : Bool} {s e r : Str} (h : element strict s = some (e, r)) :
    IsSymbol e ∧ ∃ w, Blank w ∧ s = w ++ (e ++ r) := by
  obtain ⟨w, hw, hs⟩ := skip_split s
  unfold element at h
  cases hk : skip s with
  | nil => rw [hk] at h; simp at h
  | cons c q =>
    rw [hk] at h hs
    simp only at h
    by_cases hu : isUpper c = true
    · rw [if_pos hu] at h
      have hc : 'A' ≤ c ∧ c ≤ 'Z' := by simpa [isUpper] using hu
      cases hl : lower1 strict q with
      | none =>
        rw [hl] at h; simp at h
        obtain ⟨rfl, rfl⟩ := h
        exact ⟨⟨c, hc, .inl rfl⟩, w, hw, hs⟩
      | some x =>
        obtain ⟨d, q'⟩ := x
        rw [hl] at h; simp at h
        obtain ⟨rfl, rfl⟩ := h
        have : q = d :: q' ∧ isLower d = true := by
          cases q with
          | nil => simp [lower1] at hl
          | cons a q =>
            simp only [lower1] at hl
            by_cases ha : isLower a = true
            · rw [if_pos ha] at hl
              cases q with
              | nil => simp at hl; rw [← hl.1, ← hl.2]; exact ⟨rfl, ha⟩
              | cons b q =>
                simp only at hl
                split at hl
                · cases hl
                · simp at hl; rw [← hl.1, ← hl.2]; exact ⟨rfl, ha⟩
            · rw [if_neg ha] at hl; cases hl
        obtain ⟨rfl, hd⟩ := this
        exact ⟨⟨c, hc, .inr ⟨d, by simpa [isLower] using hd, rfl⟩⟩, w, hw, hs⟩
    · rw [if_neg hu] at h; cases h

theorem dropWhile_stop (p : Char → Bool) (t r : Str) (ht : ∀ c ∈ t, p c = true) (hr : ∀ c ∈ r.head?, p c = false) :
    (t ++ r).dropWhile p = r := by
  have h := List.takeWhile_append_dropWhile (p := p) (l := t ++ r)
  rw [takeWhile_stop p t r ht hr] at h
  exact List.append_cancel_left h

theorem fnumber_decimal {w t s : Str} {q : ℚ} (hw : Blank w) (ht : IsDecimal t q)
    (hs : ∀ c ∈ s.head?, c.isDigit = false ∧ c ≠ '.') : fnumber (w ++ (t ++ s)) = some (t, s) := by
  obtain ⟨a, b, ha, hb, ht, -⟩ := ht
  have hs' : ∀ c ∈ s.head?, c.isDigit = false := fun c hc => (hs c hc).1
  rcases ht with ⟨rfl, hne, rfl⟩ | ⟨hne, rfl⟩
  · have hsk : skip (t ++ s) = t ++ s := by
      cases t with
      | nil => exact absurd rfl hne
      | cons c t => exact skip_cons _ (digit_not_blank (ha c (by simp)))
    simp only [fnumber, skip_blank _ _ hw, hsk, takeWhile_stop _ t s ha hs', dropWhile_stop _ t s ha hs']
    cases s with
    | nil => simp [hne]
    | cons c s =>
      have := (hs c (by simp)).2
      split
      · rename_i e; cases e; exact absurd rfl this
      · simp [hne]
  · have hdot : ∀ c ∈ ('.' :: (b ++ s)).head?, c.isDigit = false := by
      intro c hc; simp at hc; subst hc; decide
    have hsk : skip (a ++ ('.' :: (b ++ s))) = a ++ ('.' :: (b ++ s)) := by
      cases a with
      | nil => exact skip_cons _ (by decide)
      | cons c a => exact skip_cons _ (digit_not_blank (ha c (by simp)))
    have e1 : (a ++ '.' :: b) ++ s = a ++ ('.' :: (b ++ s)) := by simp
    simp only [fnumber, skip_blank _ _ hw, e1, hsk, takeWhile_stop _ a _ ha hdot, dropWhile_stop _ a _ ha hdot,
      takeWhile_stop _ b s hb hs', dropWhile_stop _ b s hb hs']
    rw [if_neg]
    rintro ⟨h1, h2⟩
    rcases hne with h | h
    · exact h h1
    · exact h h2

theorem fnumber_none {s : Str} (h : ∀ c ∈ (skip s).head?, c.isDigit = false ∧ c ≠ '.') : fnumber s = none := by
  unfold fnumber
  cases hk : skip s with
  | nil => rfl
  | cons c r =>
    rw [hk] at h
    have hc := h c (by simp)
    simp only [List.takeWhile_cons, List.dropWhile_cons, hc.1, Bool.false_eq_true, if_false]
    split
    · rename_i e; cases e; exact absurd rfl hc.2
    · rfl

theorem number_multiplier {num t s : Str} (ht : Multiplier num t) (hs : Next s) : number (t ++ s) = (num, s) := by
  rcases ht with ⟨rfl, rfl⟩ | ⟨w, q, hw, hd, rfl⟩
  · simp only [number, List.nil_append, fnumber_none hs.1]
  · simp only [number, List.append_assoc, fnumber_decimal hw hd hs.head]

theorem fnumber_sound {s t r : Str} (h : fnumber s = some (t, r)) :
    (∃ q, IsDecimal t q) ∧ ∃ w, Blank w ∧ s = w ++ (t ++ r) := by
  obtain ⟨w, hw, hs⟩ := skip_split s
  unfold fnumber at h
  have hsp := List.takeWhile_append_dropWhile (p := Char.isDigit) (l := skip s)
  have hd : ∀ c ∈ (skip s).takeWhile Char.isDigit, c.isDigit = true := fun c hc => mem_takeWhile _ _ hc
  simp only at h
  generalize (skip s).takeWhile Char.isDigit = a at h hsp hd
  generalize (skip s).dropWhile Char.isDigit = b at h hsp
  split at h
  · rename_i b'
    have hsp' := List.takeWhile_append_dropWhile (p := Char.isDigit) (l := b')
    have hd' : ∀ c ∈ b'.takeWhile Char.isDigit, c.isDigit = true := fun c hc => mem_takeWhile _ _ hc
    generalize b'.takeWhile Char.isDigit = f at h hsp' hd'
    generalize b'.dropWhile Char.isDigit = g at h hsp'
    split at h
    · cases h
    · rename_i hne
      simp at h
      obtain ⟨rfl, rfl⟩ := h
      refine ⟨⟨_, a, f, hd, hd', .inr ⟨?_, rfl⟩, rfl⟩, w, hw, ?_⟩
      · by_cases h1 : a = []
        · exact .inr fun h2 => hne ⟨h1, h2⟩
        · exact .inl h1
      · rw [hs, ← hsp, ← hsp']; simp
  · split at h
    · cases h
    · rename_i hne
      simp at h
      obtain ⟨rfl, rfl⟩ := h
      exact ⟨⟨_, a, [], hd, by simp, .inl ⟨rfl, hne, rfl⟩, rfl⟩, w, hw, by rw [hs, ← hsp]⟩

theorem number_sound (s : Str) : ∃ t, Multiplier (number s).1 t ∧ s = t ++ (number s).2 := by
  unfold number
  cases h : fnumber s with
  | none => exact ⟨[], .inl ⟨rfl, rfl⟩, rfl⟩
  | some x =>
    obtain ⟨⟨q, hq⟩, w, hw, hs⟩ := fnumber_sound (t := x.1) (r := x.2) h
    exact ⟨w ++ x.1, .inr ⟨w, q, hw, hq, rfl⟩, by rw [List.append_assoc]; exact hs⟩

/-! ## groups -/

theorem element_stop {strict : Bool} {z : Str} (h : Stop z) : element strict z = none := by
  unfold element
  cases hk : skip z with
  | nil => rfl
  | cons c r =>
    have := h.1 c (by rw [hk]; simp)
    simp [this.2.2.1]

theorem groups_stop (strict : Bool) (n : Nat) {z : Str} (h : Stop z) : groups strict n z = (.nil, z) := by
  cases n with
  | zero => rfl
  | succ n =>
    simp only [groups, element_stop h]
    split
    · rename_i r hk
      exact absurd rfl (h.1 '(' (by rw [hk]; simp)).2.2.2
    · rfl

theorem stop_close {b s : Str} (hb : Blank b) : Stop (b ++ (')' :: s)) := by
  constructor
  · intro c hc
    rw [skip_blank _ _ hb, skip_cons _ (by decide)] at hc
    simp at hc; subst hc; decide
  · intro c hc
    rcases head_blank _ _ hb c hc with h | h
    · exact blank_not_lower h
    · simp at h; subst h; decide

theorem multiplier_head {num t s : Str} (ht : Multiplier num t) (hs : Next s) : ∀ c ∈ (t ++ s).head?, isLower c = false := by
  rcases ht with ⟨rfl, rfl⟩ | ⟨w, q, hw, ⟨a, b, ha, hb, hd, -⟩, rfl⟩
  · exact hs.2
  · intro c hc
    rw [List.append_assoc] at hc
    rcases head_blank _ _ hw c hc with h | h
    · exact blank_not_lower h
    · rcases hd with ⟨rfl, hne, rfl⟩ | ⟨hne, rfl⟩
      · cases num with
        | nil => exact absurd rfl hne
        | cons x num => simp at h; subst h; exact digit_not_lower (ha x (by simp))
      · cases a with
        | nil => simp at h; subst h; decide
        | cons x a => simp at h; subst h; exact digit_not_lower (ha x (by simp))

/-- The groups of a written formula are found, and the text behind it is left. -/
theorem groups_layout (strict : Bool) {f : F} {t : Str} (h : Layout f t) : ∀ n z, t.length ≤ n → Stop z →
    groups strict n (t ++ z) = (f, z) := by
  induction h with
  | nil => intro n z _ hz; exact groups_stop strict n hz
  | @el e num r w t u hw he hm hl ih =>
    intro n z hn hz
    obtain ⟨c, q, hq, -⟩ := symbol_head he
    have hlen : 1 + u.length ≤ n := by
      simp only [List.length_append, hq, List.length_cons] at hn; omega
    obtain ⟨k, rfl⟩ : ∃ k, n = k + 1 := ⟨n - 1, by omega⟩
    have hnx := next_layout hl hz
    have e1 : w ++ (e ++ (t ++ u)) ++ z = w ++ (e ++ (t ++ (u ++ z))) := by simp
    have h1 := element_symbol strict hw he (multiplier_head hm hnx)
    have h2 := number_multiplier hm hnx
    rw [e1]
    simp only [groups, h1, h2, ih k z (by omega) hz]
  | @par i num r w t u v b hw hi hv hb hm hl ih1 ih2 =>
    intro n z hn hz
    have hlen : 2 + v.length + u.length ≤ n := by
      simp only [List.length_append, List.length_cons] at hn; omega
    obtain ⟨k, rfl⟩ : ∃ k, n = k + 1 := ⟨n - 1, by omega⟩
    have hnx := next_layout hl hz
    have e1 : w ++ ('(' :: (v ++ (b ++ (')' :: (t ++ u))))) ++ z =
        w ++ ('(' :: (v ++ (b ++ (')' :: (t ++ (u ++ z)))))) := by simp
    have hsk : skip (w ++ ('(' :: (v ++ (b ++ (')' :: (t ++ (u ++ z))))))) =
        '(' :: (v ++ (b ++ (')' :: (t ++ (u ++ z))))) := by
      rw [skip_blank _ _ hw, skip_cons _ (by decide)]
    have h0 : element strict (w ++ ('(' :: (v ++ (b ++ (')' :: (t ++ (u ++ z))))))) = none := by
      unfold element; rw [hsk]; simp only; rw [if_neg (by decide)]
    have h1 := ih1 k (b ++ (')' :: (t ++ (u ++ z)))) (by omega) (stop_close hb)
    have h2 : skip (b ++ (')' :: (t ++ (u ++ z)))) = ')' :: (t ++ (u ++ z)) := by
      rw [skip_blank _ _ hb, skip_cons _ (by decide)]
    have h3 := number_multiplier hm hnx
    have h4 := ih2 k z (by omega) hz
    rw [e1]
    simp only [groups, h0, hsk, h1, if_neg hi, h2, h3, h4]

/-- What is found is written at the beginning of the text. -/
theorem groups_sound (strict : Bool) (n : Nat) : ∀ s, ∃ t, Layout (groups strict n s).1 t ∧ s = t ++ (groups strict n s).2 := by
  induction n with
  | zero => intro s; exact ⟨[], .nil, rfl⟩
  | succ n ih =>
    intro s
    simp only [groups]
    cases he : element strict s with
    | some x =>
      obtain ⟨e, r⟩ := x
      obtain ⟨hsym, w, hw, hs⟩ := element_sound he
      obtain ⟨t, ht, hr⟩ := number_sound r
      obtain ⟨u, hu, hr2⟩ := ih (number r).2
      refine ⟨_, .el hw hsym ht hu, ?_⟩
      simp only
      rw [hs]
      conv_lhs => rw [hr, hr2]
      simp
    | none =>
      simp only
      split
      · rename_i r hk
        obtain ⟨w, hw, hs⟩ := skip_split s
        rw [hk] at hs
        obtain ⟨v, hv, hr⟩ := ih r
        split
        · exact ⟨[], .nil, rfl⟩
        · rename_i hi
          split
          · rename_i r' hk'
            obtain ⟨b, hb, hs'⟩ := skip_split (groups strict n r).2
            rw [hk'] at hs'
            obtain ⟨t, ht, hr'⟩ := number_sound r'
            obtain ⟨u, hu, hr2⟩ := ih (number r').2
            refine ⟨_, .par hw hi hv hb ht hu, ?_⟩
            simp only
            rw [hs]
            conv_lhs => rw [hr, hs', hr', hr2]
            simp
          · exact ⟨[], .nil, rfl⟩
      · exact ⟨[], .nil, rfl⟩

end SC.Formula
