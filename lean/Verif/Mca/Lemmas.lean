import Verif.Mca.FormatProps
/-! # Lemmas for C43: lines and tokens -/
namespace SC.Mca
open SC.Scan (IsNumber IsSign IsNat natVal natVal_repr natVal_append floatOf_eq)

/-! ## lines of sixteen -/

theorem getD_drop16 (data : List Rat) (i : Nat) : (data.drop 16).getD i 0 = data.getD (16 + i) 0 := by
  simp [List.getD_eq_getElem?_getD]

theorem mcaLine_drop (data : List Rat) (h : 16 ≤ data.length) (idx : Nat) :
    mcaLine data (16 + idx) = mcaLine (data.drop 16) idx := by
  simp only [mcaLine, List.length_drop, getD_drop16, Nat.add_assoc]
  have e1 : (16 + (idx + 15) < data.length) ↔ (idx + 15 < data.length - 16) := by omega
  have e2 : (16 + (idx + 16) ≠ data.length) ↔ (idx + 16 ≠ data.length - 16) := by omega
  have e3 : data.length - (16 + idx) = data.length - 16 - idx := by omega
  simp only [e1, e2, e3]

/-- The lines, sixteen values at a time. -/
def mcaBody (data : List Rat) : Str :=
  (List.range ((data.length + 15) / 16)).flatMap fun k => mcaLine data (16 * k)

theorem mcaBody_nil : mcaBody [] = [] := rfl

theorem flatMap_range_getD (data : List Rat) (n : Nat) (h : n ≤ data.length) :
    ((List.range n).flatMap fun i => cell (data.getD (0 + i) 0)) = (data.take n).flatMap cell := by
  induction n with
  | zero => rfl
  | succ n ih =>
    rw [List.range_succ, List.flatMap_append, ih (by omega), List.take_succ_eq_append_getElem (by omega), List.flatMap_append]
    simp [List.getD_eq_getElem?_getD, List.getElem?_eq_getElem (show n < data.length by omega)]

theorem mcaBody_long (data : List Rat) (h : 16 ≤ data.length) :
    mcaBody data = (data.take 16).flatMap cell ++ (if data.length ≠ 16 then ['\\'] else []) ++ '\n' :: mcaBody (data.drop 16) := by
  have hk : (data.length + 15) / 16 = ((data.drop 16).length + 15) / 16 + 1 := by
    rw [List.length_drop]; omega
  rw [mcaBody, hk, List.range_succ_eq_map, List.flatMap_cons, List.flatMap_map]
  have h0 : mcaLine data (16 * 0) = (data.take 16).flatMap cell ++ (if data.length ≠ 16 then ['\\'] else []) ++ ['\n'] := by
    have : 0 + 15 < data.length := by omega
    simp only [mcaLine, Nat.mul_zero, if_pos this, Nat.zero_add]
    have := flatMap_range_getD data 16 h
    simp only [Nat.zero_add] at this
    rw [this]
    congr 2
    simp only [ne_comm]
  rw [h0, mcaBody]
  have : ∀ k, mcaLine data (16 * (k + 1)) = mcaLine (data.drop 16) (16 * k) := by
    intro k
    rw [← mcaLine_drop data h]
    congr 1
    ring
  simp only [Nat.succ_eq_add_one, this, List.append_assoc, List.singleton_append]

theorem mcaBody_short (data : List Rat) (h0 : data ≠ []) (h : data.length < 16) :
    mcaBody data = data.flatMap cell ++ ['\n'] := by
  have hl : 0 < data.length := List.length_pos_iff.mpr h0
  have hk : (data.length + 15) / 16 = 1 := by omega
  rw [mcaBody, hk]
  have : ¬ (0 + 15 < data.length) := by omega
  simp only [List.range_one, List.flatMap_cons, List.flatMap_nil, List.append_nil, Nat.mul_zero, mcaLine, if_neg this, Nat.sub_zero]
  rw [flatMap_range_getD data _ (le_refl _), List.take_length]

/-- The layout of the text. -/
theorem mcaBody_layout : ∀ (n : Nat) (data : List Rat), data.length ≤ n → data ≠ [] →
    ∃ L : List (List Rat), L ≠ [] ∧ L.flatten = data ∧ (∀ c ∈ L.dropLast, c.length = 16) ∧
      (∀ c ∈ L, c ≠ [] ∧ c.length ≤ 16) ∧
      mcaBody data = List.intercalate ['\\', '\n'] (L.map fun c => c.flatMap cell) ++ ['\n']
  | 0, data, hn, h0 => absurd (List.length_eq_zero_iff.mp (Nat.le_zero.mp hn)) h0
  | n + 1, data, hn, h0 => by
    by_cases h : data.length ≤ 16
    · refine ⟨[data], by simp, by simp, by simp, by simpa using ⟨h0, h⟩, ?_⟩
      by_cases h16 : data.length = 16
      · have hd : data.drop 16 = [] := by rw [← h16, List.drop_length]
        rw [mcaBody_long data (by omega), hd, mcaBody_nil, ← h16, List.take_length]
        simp [List.intercalate]
      · rw [mcaBody_short data h0 (by omega)]
        simp [List.intercalate]
    · have hd0 : data.drop 16 ≠ [] := by
        intro e
        have := congrArg List.length e
        rw [List.length_drop, List.length_nil] at this
        omega
      obtain ⟨L, l0, l1, l2, l3, l4⟩ := mcaBody_layout n (data.drop 16) (by rw [List.length_drop]; omega) hd0
      have ht : (data.take 16).length = 16 := by rw [List.length_take]; omega
      refine ⟨data.take 16 :: L, by simp, ?_, ?_, ?_, ?_⟩
      · rw [List.flatten_cons, l1, List.take_append_drop]
      · intro c hc
        rw [List.dropLast_cons_of_ne_nil l0] at hc
        rcases List.mem_cons.mp hc with rfl | hc
        · exact ht
        · exact l2 c hc
      · intro c hc
        rcases List.mem_cons.mp hc with rfl | hc
        · refine ⟨?_, ht.le⟩
          intro e
          rw [e] at ht
          cases ht
        · exact l3 c hc
      · rw [mcaBody_long data (by omega), if_pos (by omega), l4]
        obtain ⟨a, L, rfl⟩ := List.exists_cons_of_ne_nil l0
        simp [List.intercalate]

/-! ## tokens -/

/-- A text without white space and backslashes. -/
def Plain (t : Str) : Prop := t ≠ [] ∧ ∀ c ∈ t, c ≠ ' ' ∧ c ≠ '\n' ∧ c ≠ '\\'

theorem tokens_char (cur r : Str) (c : Char) (h : c ≠ ' ' ∧ c ≠ '\n' ∧ c ≠ '\\') :
    tokens cur (c :: r) = tokens (cur ++ [c]) r := by
  rw [tokens]
  · exact h.2.1
  · exact h.1
  · rintro rfl
    exact absurd rfl h.2.2
  · intro c' r' h' _
    exact absurd h' h.2.2

theorem tokens_plain (t : Str) : ∀ (cur r : Str), (∀ c ∈ t, c ≠ ' ' ∧ c ≠ '\n' ∧ c ≠ '\\') →
    tokens cur (t ++ r) = tokens (cur ++ t) r := by
  induction t with
  | nil => intro cur r _; simp
  | cons c t ih =>
    intro cur r h
    rw [List.cons_append, tokens_char _ _ _ (h c (by simp)), ih _ _ (fun d hd => h d (by simp [hd])), List.append_assoc]
    rfl

theorem tokens_cell (t r : Str) (h : Plain t) :
    tokens [] (t ++ ' ' :: r) = (t :: (tokens [] r).1, (tokens [] r).2) := by
  rw [tokens_plain t [] _ h.2, List.nil_append]
  simp only [tokens, flush, if_neg h.1]

theorem isFloat_plain {t : Str} {q : Rat} (h : IsFloat t q) : Plain t := by
  have hd : ∀ c : Char, c.isDigit = true → c ≠ ' ' ∧ c ≠ '\n' ∧ c ≠ '\\' := by
    intro c hc
    exact ⟨SC.Scan.digit_ne hc rfl, SC.Scan.digit_ne hc rfl, SC.Scan.digit_ne hc rfl⟩
  have hsg : ∀ sg : Str, IsSign sg → ∀ c ∈ sg, c ≠ ' ' ∧ c ≠ '\n' ∧ c ≠ '\\' := by
    rintro sg (rfl | rfl | rfl) <;> simp
  have hm : ∀ {m : Str} {q0 : Rat}, IsNumber m q0 → Plain m := by
    rintro m q0 ⟨sg, w, f, hs, hw, hf, ht, -⟩
    rcases ht with ⟨-, h0, rfl⟩ | ⟨h0, rfl⟩
    · refine ⟨by simp [h0], fun c hc => ?_⟩
      rcases List.mem_append.mp hc with h | h
      · exact hsg sg hs c h
      · exact hd c (hw c h)
    · refine ⟨by simp, fun c hc => ?_⟩
      rcases List.mem_append.mp hc with h | h
      · rcases List.mem_append.mp h with h | h
        · exact hsg sg hs c h
        · exact hd c (hw c h)
      · rcases List.mem_cons.mp h with rfl | h
        · decide
        · exact hd c (hf c h)
  obtain ⟨m, q0, h, ⟨rfl, rfl⟩ | ⟨sg, ex, hs, hx, rfl, -⟩⟩ := h
  · exact hm h
  · refine ⟨by simp, fun c hc => ?_⟩
    rcases List.mem_append.mp hc with h' | h'
    · exact (hm h).2 c h'
    · rcases List.mem_cons.mp h' with rfl | h'
      · decide
      · rcases List.mem_append.mp h' with h' | h'
        · exact hsg sg hs c h'
        · exact hd c (hx.2 c h')

theorem fmtG_plain (P : Nat) (hP : 1 ≤ P) (q : Rat) : Plain (fmtG P q) := by
  obtain ⟨r, h, -⟩ := fmtG_spec P hP q
  exact isFloat_plain h

theorem tokens_cells (c : List Rat) (r : Str) :
    tokens [] (c.flatMap cell ++ r) = (c.map (fmtG 8) ++ (tokens [] r).1, (tokens [] r).2) := by
  induction c with
  | nil => rfl
  | cons q c ih =>
    rw [List.flatMap_cons, List.append_assoc, cell, List.append_assoc, List.singleton_append,
      tokens_cell _ _ (fmtG_plain 8 (by norm_num) q), ih]
    rfl

theorem tokens_newline (r : Str) : tokens [] ('\n' :: r) = ([], r) := rfl
theorem tokens_continue (r : Str) : tokens [] ('\\' :: '\n' :: r) = tokens [] r := by
  simp only [tokens, if_true, flush]

theorem tokens_body : ∀ (n : Nat) (data : List Rat), data.length ≤ n → data ≠ [] → ∀ r,
    tokens [] (mcaBody data ++ r) = (data.map (fmtG 8), r)
  | 0, data, hn, h0, _ => absurd (List.length_eq_zero_iff.mp (Nat.le_zero.mp hn)) h0
  | n + 1, data, hn, h0, r => by
    by_cases h : data.length < 16
    · rw [mcaBody_short data h0 h, List.append_assoc, tokens_cells, List.singleton_append, tokens_newline, List.append_nil]
    · rw [mcaBody_long data (by omega)]
      by_cases h16 : data.length = 16
      · have hd : data.drop 16 = [] := by rw [← h16, List.drop_length]
        rw [if_neg (by omega), hd, mcaBody_nil, ← h16, List.take_length, List.append_nil, List.append_assoc, tokens_cells,
          List.cons_append, tokens_newline, List.append_nil, List.nil_append]
      · have hd0 : data.drop 16 ≠ [] := by
          intro e
          have := congrArg List.length e
          rw [List.length_drop, List.length_nil] at this
          omega
        rw [if_pos h16, List.append_assoc, List.append_assoc, tokens_cells, List.singleton_append, List.cons_append,
          tokens_continue, tokens_body n (data.drop 16) (by rw [List.length_drop]; omega) hd0, ← List.map_append,
          List.take_append_drop]

/-! ## lines of a file -/

theorem splitLines_ne (s : Str) : splitLines s ≠ [] := by
  cases s with
  | nil => simp [splitLines]
  | cons c s =>
    simp only [splitLines]
    split
    · simp
    · split <;> simp

theorem splitLines_line (l s : Str) (h : '\n' ∉ l) : splitLines (l ++ '\n' :: s) = l :: splitLines s := by
  induction l with
  | nil =>
    obtain ⟨a, b, e⟩ := List.exists_cons_of_ne_nil (splitLines_ne s)
    simp [splitLines, e]
  | cons c l ih =>
    have hc : c ≠ '\n' := by rintro rfl; simp at h
    rw [List.cons_append, splitLines, ih (by intro hh; exact h (by simp [hh]))]
    simp [hc]

theorem fromMca_line (l s : Str) (h : '\n' ∉ l) (hA : ("@A".toList).isPrefixOf (l ++ '\n' :: s) = false) :
    fromMca true (l ++ '\n' :: s) = fromMca true s := by
  have mid : ∀ (l : Str), '\n' ∉ l → fromMca false (l ++ '\n' :: s) = fromMca true s := by
    intro l
    induction l with
    | nil => intro _; rfl
    | cons c l ih =>
      intro h
      have hc : (c == '\n') = false := by
        simp only [beq_eq_false_iff_ne]
        rintro rfl
        simp at h
      rw [List.cons_append, fromMca]
      simp only [Bool.false_eq_true, false_and, if_false, hc]
      exact ih (by intro hh; exact h (by simp [hh]))
  cases l with
  | nil => 
    rw [List.nil_append, fromMca]
    rw [if_neg (by rw [List.nil_append] at hA; rw [hA]; simp)]
    rfl
  | cons c l =>
    have hc : (c == '\n') = false := by
      simp only [beq_eq_false_iff_ne]
      rintro rfl
      simp at h
    rw [List.cons_append, fromMca, if_neg (by rw [List.cons_append] at hA; rw [hA]; simp), hc]
    exact mid l (by intro hh; exact h (by simp [hh]))

/-! ## fields of a header line -/

theorem splitBlank_ne (s : Str) : splitBlank s ≠ [] := by
  cases s with
  | nil => simp [splitBlank]
  | cons c s =>
    simp only [splitBlank]
    split
    · simp
    · split <;> simp

theorem splitBlank_word (t s : Str) (h : ∀ c ∈ t, c ≠ ' ') : splitBlank (t ++ ' ' :: s) = t :: splitBlank s := by
  induction t with
  | nil =>
    obtain ⟨a, b, e⟩ := List.exists_cons_of_ne_nil (splitBlank_ne s)
    simp [splitBlank, e]
  | cons c t ih =>
    rw [List.cons_append, splitBlank, ih (fun d hd => h d (by simp [hd]))]
    simp [h c (by simp)]

theorem splitBlank_last (t : Str) (h : ∀ c ∈ t, c ≠ ' ') : splitBlank t = [t] := by
  induction t with
  | nil => rfl
  | cons c t ih =>
    rw [splitBlank, ih (fun d hd => h d (by simp [hd]))]
    simp [h c (by simp)]

theorem removeAll_none (pat : Str) (c : Char) (hp : pat.head? = some c) : ∀ (n : Nat) (s : Str), c ∉ s → removeAll pat n s = s
  | 0, _, _ => rfl
  | _ + 1, [], _ => rfl
  | n + 1, d :: s, h => by
    have : pat.isPrefixOf (d :: s) = false := by
      cases pat with
      | nil => simp at hp
      | cons a pat =>
        simp only [List.head?_cons, Option.some.injEq] at hp
        subst hp
        rw [List.isPrefixOf]
        have : (a == d) = false := by
          simp only [beq_eq_false_iff_ne]
          rintro rfl
          exact h (by simp)
        simp [this]
    rw [removeAll, this]
    simp only [Bool.false_eq_true, if_false]
    rw [removeAll_none pat c hp n s (fun hh => h (by simp [hh]))]

theorem removeAll_prefix (pat s : Str) (c : Char) (hp : pat.head? = some c) (hs : c ∉ s) :
    removeAll pat (pat ++ s).length (pat ++ s) = s := by
  cases pat with
  | nil => simp at hp
  | cons a pat =>
    rw [List.cons_append, List.length_cons, removeAll]
    have : (a :: pat).isPrefixOf (a :: (pat ++ s)) = true := by
      rw [List.isPrefixOf_iff_prefix]
      exact ⟨s, rfl⟩
    rw [if_pos this]
    have : (a :: (pat ++ s)).drop (a :: pat).length = s := by
      rw [← List.cons_append, List.drop_left]
    rw [this]
    exact removeAll_none _ c hp _ s hs

theorem strip_word (s : Str) (h1 : ∀ c ∈ s.head?, isWhite c = false) (h2 : ∀ c ∈ s.getLast?, isWhite c = false) :
    strip (' ' :: s) = s := by
  have e1 : (' ' :: s).dropWhile isWhite = s := by
    rw [List.dropWhile_cons_of_pos (by rfl)]
    cases s with
    | nil => rfl
    | cons a s => rw [List.dropWhile_cons_of_neg (by simp [h1 a (by simp)])]
  rw [strip, e1]
  have e2 : s.reverse.dropWhile isWhite = s.reverse := by
    cases hs : s.reverse with
    | nil => rfl
    | cons a t =>
      have : s.getLast? = some a := by
        rw [← List.head?_reverse, hs]
        rfl
      rw [List.dropWhile_cons_of_neg (by simp [h2 a this])]
  rw [e2, List.reverse_reverse]

end SC.Mca
