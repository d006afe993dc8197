import Verif.Naming.Spec
import Mathlib.Data.List.Perm.Subperm
import Mathlib.Data.List.Nodup
import Mathlib.Tactic.Ring
/-! # Helper lemmas for names -/
namespace SC.Naming

theorem runs_ge : ∀ (l : Str) (k : Nat), ∀ r ∈ runs k l, k ≤ r.1
  | [], _, r, h => by simp [runs] at h
  | c :: cs, k, r, h => by
    have ih := runs_ge cs (k + 1)
    simp only [runs] at h
    split at h
    · split at h
      · simp only [List.mem_singleton] at h; subst h; simp
      · rename_i k' d rest heq
        rw [heq] at ih
        split at h
        · rcases List.mem_cons.1 h with h | h
          · subst h; simp
          · have := ih r (List.mem_cons_of_mem _ h); omega
        · rcases List.mem_cons.1 h with h | h
          · subst h; simp
          · have := ih r h; omega
    · have := ih r h; omega

theorem runs_sorted : ∀ (l : Str) (k : Nat), (runs k l).Pairwise (fun a b => a.1 < b.1)
  | [], _ => by simp [runs]
  | c :: cs, k => by
    have ih := runs_sorted cs (k + 1)
    have hge := runs_ge cs (k + 1)
    simp only [runs]
    split
    · split
      · simp
      · rename_i k' d rest heq
        rw [heq] at ih hge
        split
        · rename_i hk
          rw [List.pairwise_cons] at ih ⊢
          refine ⟨fun x hx => ?_, ih.2⟩
          have := ih.1 x hx
          simp only at this ⊢; omega
        · rw [List.pairwise_cons]
          refine ⟨fun x hx => ?_, ih⟩
          have := hge x hx
          simp only; omega
    · exact ih

theorem runs_last : ∀ (l : Str) (k : Nat),
    (runs k l = [] → NoDigit l) ∧
    ∀ j d, (runs k l).getLast? = some (j, d) → ∃ p s, Split l p d s ∧ j = k + p.length
  | [], k => by simp [runs, NoDigit]
  | c :: cs, k => by
    have ih := runs_last cs (k + 1)
    have hs := runs_sorted cs (k + 1)
    have hge := runs_ge cs (k + 1)
    by_cases hc : c.isDigit = true
    · simp only [runs, hc, if_true]
      cases heq : runs (k + 1) cs with
      | nil =>
        refine ⟨by simp, fun j d h => ?_⟩
        simp only [List.getLast?_singleton, Option.some.injEq, Prod.mk.injEq] at h
        obtain ⟨rfl, rfl⟩ := h
        exact ⟨[], cs, ⟨by simp, by simp, by simpa using hc, by simp, ih.1 heq⟩, by simp⟩
      | cons a r =>
        obtain ⟨k', d0⟩ := a
        rw [heq] at ih hs hge
        by_cases hk : k' = k + 1
        · simp only [hk, if_true]
          refine ⟨by simp, fun j d h => ?_⟩
          cases r with
          | nil =>
            simp only [List.getLast?_singleton, Option.some.injEq, Prod.mk.injEq] at h
            obtain ⟨rfl, rfl⟩ := h
            obtain ⟨p, s, hsp, hj⟩ := ih.2 k' d0 (by simp)
            have hp : p = [] := List.length_eq_zero_iff.1 (by omega)
            subst hp
            refine ⟨[], s, ⟨?_, by simp, ?_, by simp, hsp.after⟩, by simp⟩
            · rw [hsp.eq]; simp
            · intro x hx
              rcases List.mem_cons.1 hx with rfl | hx
              · exact hc
              · exact hsp.digits x hx
          | cons b r' =>
            rw [List.getLast?_cons_cons] at h
            obtain ⟨p, s, hsp, hj⟩ := ih.2 j d (by rw [List.getLast?_cons_cons]; exact h)
            have hmem := List.mem_of_getLast? h
            have hlt := (List.pairwise_cons.1 hs).1 _ hmem
            simp only at hlt
            have hp : p ≠ [] := by rintro rfl; simp at hj; omega
            refine ⟨c :: p, s, ⟨by rw [hsp.eq]; simp, hsp.ne, hsp.digits, ?_, hsp.after⟩, by simp; omega⟩
            obtain ⟨x, y, rfl⟩ : ∃ x y, p = x :: y := by cases p <;> simp_all
            rw [List.getLast?_cons_cons]; exact hsp.before
        · simp only [hk, if_false]
          refine ⟨by simp, fun j d h => ?_⟩
          rw [List.getLast?_cons_cons] at h
          obtain ⟨p, s, hsp, hj⟩ := ih.2 j d h
          have hmem := List.mem_of_getLast? h
          have hkk : k' ≠ k + 1 ∧ k + 1 ≤ k' := ⟨hk, hge (k', d0) (by simp)⟩
          have hlt : k' ≤ j := by
            rcases List.mem_cons.1 hmem with h' | h'
            · simp only [Prod.mk.injEq] at h'; omega
            · have := (List.pairwise_cons.1 hs).1 _ h'; simp only at this; omega
          have hp : p ≠ [] := by rintro rfl; simp at hj; omega
          refine ⟨c :: p, s, ⟨by rw [hsp.eq]; simp, hsp.ne, hsp.digits, ?_, hsp.after⟩, by simp; omega⟩
          obtain ⟨x, y, rfl⟩ : ∃ x y, p = x :: y := by cases p <;> simp_all
          rw [List.getLast?_cons_cons]; exact hsp.before
    · simp only [runs, hc]
      refine ⟨fun h => ?_, fun j d h => ?_⟩
      · intro x hx
        rcases List.mem_cons.1 hx with rfl | hx
        · simpa using hc
        · exact ih.1 (by simpa using h) x hx
      · obtain ⟨p, s, hsp, hj⟩ := ih.2 j d (by simpa using h)
        refine ⟨c :: p, s, ⟨by rw [hsp.eq]; simp, hsp.ne, hsp.digits, ?_, hsp.after⟩, by simp; omega⟩
        cases p with
        | nil => simpa using hc
        | cons x y => rw [List.getLast?_cons_cons]; exact hsp.before

/-- A digit is found when there is one. -/
theorem runs_ne_nil : ∀ (l : Str) (k : Nat), (∃ c ∈ l, c.isDigit = true) → runs k l ≠ []
  | [], _, h => by simp at h
  | c :: cs, k, h => by
    simp only [runs]
    split
    · split
      · simp
      · split <;> simp
    · rename_i hc
      apply runs_ne_nil cs (k + 1)
      obtain ⟨x, hx, hd⟩ := h
      rcases List.mem_cons.1 hx with rfl | hx
      · exact absurd hd hc
      · exact ⟨x, hx, hd⟩

/-- The parts of a name are determined by the name. -/
theorem Split.unique {name p d s p' d' s' : Str} (h : Split name p d s) (h' : Split name p' d' s') :
    p = p' ∧ d = d' ∧ s = s' := by
  have key : ∀ {p d s : Str}, Split name p d s →
      s = (name.reverse.takeWhile fun c => !c.isDigit).reverse ∧
      d = ((name.reverse.dropWhile fun c => !c.isDigit).takeWhile Char.isDigit).reverse ∧
      p = ((name.reverse.dropWhile fun c => !c.isDigit).dropWhile Char.isDigit).reverse := by
    intro p d s h
    have hr : name.reverse = s.reverse ++ (d.reverse ++ p.reverse) := by rw [h.eq]; simp
    have hd : ∃ x y, d.reverse = x :: y ∧ x.isDigit = true := by
      cases hdr : d.reverse with
      | nil => exact absurd (by simpa using hdr) h.ne
      | cons x y =>
        exact ⟨x, y, rfl, h.digits x (by rw [← List.mem_reverse, hdr]; simp)⟩
    have e1 : (name.reverse.takeWhile fun c => !c.isDigit) = s.reverse := by
      rw [hr, List.takeWhile_append_of_pos (by intro a ha; simpa using h.after a (by simpa using ha))]
      obtain ⟨x, y, hxy, hx⟩ := hd
      simp [hxy, hx]
    have e2 : (name.reverse.dropWhile fun c => !c.isDigit) = d.reverse ++ p.reverse := by
      rw [hr, List.dropWhile_append_of_pos (by intro a ha; simpa using h.after a (by simpa using ha))]
      obtain ⟨x, y, hxy, hx⟩ := hd
      simp [hxy, hx]
    have e3 : (p.reverse.takeWhile Char.isDigit) = [] := by
      cases hp : p.reverse with
      | nil => simp
      | cons x y =>
        have : p.getLast? = some x := by rw [← List.head?_reverse, hp]; rfl
        have := h.before x (by simp [this])
        simp [this]
    have e4 : (p.reverse.dropWhile Char.isDigit) = p.reverse := by
      cases hp : p.reverse with
      | nil => simp
      | cons x y =>
        have : p.getLast? = some x := by rw [← List.head?_reverse, hp]; rfl
        have := h.before x (by simp [this])
        simp [this]
    have hdd : ∀ a ∈ d.reverse, a.isDigit = true := fun a ha => h.digits a (by simpa using ha)
    rw [e1, e2]
    refine ⟨by simp, ?_, ?_⟩
    · rw [List.takeWhile_append_of_pos hdd, e3]; simp
    · rw [List.dropWhile_append_of_pos hdd, e4]; simp
  obtain ⟨a, b, c⟩ := key h
  obtain ⟨a', b', c'⟩ := key h'
  exact ⟨c.trans c'.symm, b.trans b'.symm, a.trans a'.symm⟩

theorem locate_split {name p d s : Str} (h : Split name p d s) :
    locateNumber name = ⟨p.length, p.length + d.length, Nat.ofDigitChars 10 d 0, false⟩ := by
  have hne : runs 0 name ≠ [] := by
    apply runs_ne_nil
    cases hd : d with
    | nil => exact absurd hd h.ne
    | cons x y => exact ⟨x, by rw [h.eq, hd]; simp, h.digits x (by simp [hd])⟩
  obtain ⟨⟨j, d'⟩, hj⟩ : ∃ r, (runs 0 name).getLast? = some r := by
    rw [← Option.isSome_iff_exists]; simpa [List.getLast?_isSome] using hne
  obtain ⟨p', s', hsp, hjj⟩ := (runs_last name 0).2 j d' hj
  obtain ⟨rfl, rfl, rfl⟩ := h.unique hsp
  have hl : 0 < d.length := List.length_pos_iff.2 h.ne
  simp [locateNumber, hj, hjj, h.ne]

theorem locate_noDigit {name : Str} (h : NoDigit name) : locateNumber name = ⟨0, 0, 0, true⟩ := by
  have : runs 0 name = [] := by
    by_contra hne
    obtain ⟨⟨j, d'⟩, hj⟩ : ∃ r, (runs 0 name).getLast? = some r := by
      rw [← Option.isSome_iff_exists]; simpa [List.getLast?_isSome] using hne
    obtain ⟨p', s', hsp, -⟩ := (runs_last name 0).2 j d' hj
    cases hd : d' with
    | nil => exact hsp.ne hd
    | cons x y =>
      have h1 := hsp.digits x (by simp [hd])
      have h2 := h x (by rw [hsp.eq, hd]; simp)
      rw [h1] at h2; cases h2
  simp [locateNumber, this]

/-- Every name has a last number or no digit. -/
theorem split_or (name : Str) : NoDigit name ∨ ∃ p d s, Split name p d s := by
  by_cases h : runs 0 name = []
  · exact .inl ((runs_last name 0).1 h)
  · right
    obtain ⟨⟨j, d'⟩, hj⟩ : ∃ r, (runs 0 name).getLast? = some r := by
      rw [← Option.isSome_iff_exists]; simpa [List.getLast?_isSome] using h
    obtain ⟨p', s', hsp, -⟩ := (runs_last name 0).2 j d' hj
    exact ⟨p', d', s', hsp⟩

/-! ## numbers -/

theorem pad_digit (w n : Nat) : ∀ c ∈ pad w n, c.isDigit = true := by
  intro c hc
  rcases List.mem_append.1 hc with hc | hc
  · rw [List.eq_of_mem_replicate hc]; decide
  · exact Nat.isDigit_of_mem_toDigits (by decide) (by decide) hc

theorem pad_value (w n : Nat) : Nat.ofDigitChars 10 (pad w n) 0 = n := by
  simp [pad, Nat.ofDigitChars_append]

theorem pad_ne_nil (w n : Nat) : pad w n ≠ [] := by
  simp [pad, Nat.toDigits_ne_nil]

theorem pad_length (w n : Nat) : (pad w n).length = max w (Nat.toDigits 10 n).length := by
  simp only [pad, List.length_append, List.length_replicate]; omega

theorem pad_inj {w n m : Nat} (h : pad w n = pad w m) : n = m := by
  rw [← pad_value w n, ← pad_value w m, h]

theorem decimal_pad (w n : Nat) : Decimal w n (pad w n) := by
  refine ⟨pad_ne_nil w n, pad_digit w n, pad_value w n, by rw [pad_length]; omega, fun h => ?_⟩
  rw [pad_length] at h ⊢
  have hl : max w (Nat.toDigits 10 n).length = (Nat.toDigits 10 n).length := by omega
  rw [hl]
  by_cases h1 : (Nat.toDigits 10 n).length = 1
  · exact .inr h1
  · left
    have hp := @Nat.length_toDigits_pos 10 n
    have := mt (Nat.length_toDigits_le_iff (b := 10) (n := n) (k := (Nat.toDigits 10 n).length - 1)
      (by decide) (by omega)).2 (by omega)
    omega

theorem isDigit_val {c : Char} (h : c.isDigit = true) : 48 ≤ c.toNat ∧ c.toNat ≤ 57 := by
  simp only [Char.isDigit, Bool.and_eq_true, decide_eq_true_eq] at h
  have h1 : (48 : UInt32) ≤ c.val := h.1
  have h2 : c.val ≤ (57 : UInt32) := h.2
  rw [UInt32.le_iff_toNat_le] at h1 h2
  exact ⟨h1, h2⟩

theorem ofDigitChars_lt {d : Str} (h : ∀ c ∈ d, c.isDigit = true) :
    Nat.ofDigitChars 10 d 0 < 10 ^ d.length := by
  induction d with
  | nil => simp
  | cons c d ih =>
    rw [Nat.ofDigitChars_cons, Nat.ofDigitChars_eq_ofDigitChars_zero]
    have hc := isDigit_val (h c (by simp))
    have hi := ih (fun x hx => h x (by simp [hx]))
    have h48 : '0'.toNat = 48 := rfl
    rw [h48, List.length_cons, Nat.pow_succ]
    have : 10 ^ d.length * (10 * 0 + (c.toNat - 48)) ≤ 10 ^ d.length * 9 := Nat.mul_le_mul_left _ (by omega)
    omega

theorem ofDigitChars_inj {d e : Str} (hl : d.length = e.length) (hd : ∀ c ∈ d, c.isDigit = true)
    (he : ∀ c ∈ e, c.isDigit = true) (h : Nat.ofDigitChars 10 d 0 = Nat.ofDigitChars 10 e 0) : d = e := by
  induction d generalizing e with
  | nil => cases e with
    | nil => rfl
    | cons => simp at hl
  | cons c d ih =>
    cases e with
    | nil => simp at hl
    | cons c' e =>
      have hl' : d.length = e.length := by simpa using hl
      rw [Nat.ofDigitChars_cons, Nat.ofDigitChars_cons, Nat.ofDigitChars_eq_ofDigitChars_zero,
        @Nat.ofDigitChars_eq_ofDigitChars_zero e] at h
      have h1 := ofDigitChars_lt (fun x hx => hd x (List.mem_cons_of_mem _ hx))
      have h2 := ofDigitChars_lt (fun x hx => he x (List.mem_cons_of_mem _ hx))
      have hc := isDigit_val (hd c (by simp))
      have hc' := isDigit_val (he c' (by simp))
      have h48 : '0'.toNat = 48 := rfl
      rw [h48, ← hl'] at h
      rw [← hl'] at h2
      simp only [Nat.mul_zero, Nat.zero_add] at h
      have hq : c.toNat - 48 = c'.toNat - 48 := by
        have e1 := congrArg (· / 10 ^ d.length) h
        simpa [Nat.mul_add_div (Nat.pow_pos (n := d.length) (by decide : 0 < 10)), Nat.div_eq_of_lt h1, Nat.div_eq_of_lt h2] using e1
      have hcc : c = c' := Char.ext (UInt32.toNat_inj.1 (by
        have : c.toNat = c'.toNat := by omega
        exact this))
      subst hcc
      rw [ih hl' (fun x hx => hd x (by simp [hx])) (fun x hx => he x (by simp [hx])) (by omega)]

/-- A decimal notation is determined by its number and width. -/
theorem Decimal.unique {w n : Nat} {d e : Str} (hd : Decimal w n d) (he : Decimal w n e) : d = e := by
  have key : ∀ {d e : Str}, Decimal w n d → Decimal w n e → ¬ d.length < e.length := by
    intro d e hd he h
    have h1 := ofDigitChars_lt hd.digits
    rw [hd.value] at h1
    have hdl := List.length_pos_iff.2 hd.ne
    have hw := hd.width
    rcases he.minimal (by omega) with hm | hm
    · have : 10 ^ d.length ≤ 10 ^ (e.length - 1) := Nat.pow_le_pow_right (by decide) (by omega)
      omega
    · omega
  have h1 := key hd he
  have h2 := key he hd
  exact ofDigitChars_inj (by omega) hd.digits he.digits (by rw [hd.value, he.value])

theorem decimal_self {d : Str} (hne : d ≠ []) (hd : ∀ c ∈ d, c.isDigit = true) :
    Decimal d.length (Nat.ofDigitChars 10 d 0) d := ⟨hne, hd, rfl, Nat.le_refl _, fun h => by omega⟩

theorem pad_self {d : Str} (hne : d ≠ []) (hd : ∀ c ∈ d, c.isDigit = true) :
    pad d.length (Nat.ofDigitChars 10 d 0) = d := (decimal_pad _ _).unique (decimal_self hne hd)

/-! ## format strings -/

theorem fmtGo_lit (n : Nat) (used : Bool) (l r : Str) (h : NoBrace l) :
    fmtGo n .lit used (l ++ r) = (fmtGo n .lit used r).map (l ++ ·) := by
  induction l with
  | nil => cases hx : fmtGo n .lit used r <;> simp [hx]
  | cons c l ih =>
    have h1 : c ≠ '{' := by rintro rfl; exact h.1 (by simp)
    have h2 : c ≠ '}' := by rintro rfl; exact h.2 (by simp)
    have ih := ih ⟨fun hx => h.1 (by simp [hx]), fun hx => h.2 (by simp [hx])⟩
    rw [List.cons_append, fmtGo, if_neg h1, if_neg h2, ih, Option.map_map]
    rfl

theorem fmtGo_nil (n : Nat) (used : Bool) (l : Str) (h : NoBrace l) : fmtGo n .lit used l = some l := by
  have := fmtGo_lit n used l [] h
  simpa [fmtGo] using this

theorem fmtGo_field (n : Nat) (used : Bool) (acc x r : Str) (h : NoBrace x) :
    fmtGo n (.field acc) used (x ++ r) = fmtGo n (.field (x.reverse ++ acc)) used r := by
  induction x generalizing acc with
  | nil => simp
  | cons c x ih =>
    have h1 : c ≠ '{' := by rintro rfl; exact h.1 (by simp)
    have h2 : c ≠ '}' := by rintro rfl; exact h.2 (by simp)
    rw [List.cons_append, fmtGo.eq_def]
    simp only [h1, h2, if_false]
    rw [ih _ ⟨fun hx => h.1 (by simp [hx]), fun hx => h.2 (by simp [hx])⟩]
    simp

theorem noBrace_digits {d : Str} (h : ∀ c ∈ d, c.isDigit = true) : NoBrace d := by
  constructor <;> intro hx <;> have := h _ hx <;> revert this <;> decide

theorem specWidth_d (ds : Str) (hne : ds ≠ []) (h : ∀ c ∈ ds, c.isDigit = true) :
    specWidth (':' :: '0' :: (ds ++ ['d'])) = some (Nat.ofDigitChars 10 ds 0) := by
  rw [specWidth.eq_3]
  · have ha : ds.all Char.isDigit = true := by simpa [List.all_eq_true] using h
    simp [hne]
    exact h

theorem fmt_numbered (n w : Nat) (p s : Str) (hp : NoBrace p) (hs : NoBrace s) :
    pyFormat (p ++ ("{:0".toList ++ Nat.toDigits 10 w ++ "d}".toList) ++ s) n = some (p ++ pad w n ++ s) := by
  have hdig : ∀ c ∈ Nat.toDigits 10 w, c.isDigit = true :=
    fun c hc => Nat.isDigit_of_mem_toDigits (by decide) (by decide) hc
  have hf : fmtGo n .lit false (("{:0".toList ++ Nat.toDigits 10 w ++ "d}".toList) ++ s) = some (pad w n ++ s) := by
    have e : ("{:0".toList ++ Nat.toDigits 10 w ++ "d}".toList) ++ s
        = '{' :: ':' :: (('0' :: (Nat.toDigits 10 w ++ ['d'])) ++ ('}' :: s)) := by simp
    rw [e, fmtGo.eq_def]
    simp only [if_true]
    rw [fmtGo.eq_def]
    have h1 : ¬ (':' = '{') := by decide
    have h2 : ¬ (':' = '}') := by decide
    simp only [h1, h2, if_false]
    rw [fmtGo_field]
    · rw [fmtGo.eq_def]
      have h3 : ¬ ('}' = '{') := by decide
      simp only [h3, if_false, if_true]
      have e2 : (('0' :: (Nat.toDigits 10 w ++ ['d'])).reverse ++ [':']).reverse = ':' :: '0' :: (Nat.toDigits 10 w ++ ['d']) := by simp
      rw [e2, specWidth_d _ Nat.toDigits_ne_nil hdig]
      simp only [Nat.ofDigitChars_ten_toDigits]
      rw [fmtGo_nil _ _ _ hs]; simp
    · have hb := noBrace_digits hdig
      constructor
      · simp only [List.mem_cons, List.mem_append, List.mem_nil_iff, or_false, not_or]
        exact ⟨by decide, hb.1, by decide⟩
      · simp only [List.mem_cons, List.mem_append, List.mem_nil_iff, or_false, not_or]
        exact ⟨by decide, hb.2, by decide⟩
  rw [pyFormat, List.append_assoc, fmtGo_lit _ _ _ _ hp, hf]
  simp

theorem fmt_unnumbered (n : Nat) (name : Str) (h : NoBrace name) :
    pyFormat (name ++ ".{:d}".toList) n = some (name ++ '.' :: pad 0 n) := by
  rw [pyFormat, fmtGo_lit _ _ _ _ h]
  have : fmtGo n .lit false ".{:d}".toList = some ('.' :: pad 0 n) := by
    simp [fmtGo, specWidth]
  rw [this]; rfl

theorem fmt_paren (n : Nat) (name : Str) (h : NoBrace name) :
    pyFormat (name ++ "({})".toList) n = some (name ++ '(' :: (pad 0 n ++ [')'])) := by
  rw [pyFormat, fmtGo_lit _ _ _ _ h]
  have : fmtGo n .lit false "({})".toList = some ('(' :: (pad 0 n ++ [')'])) := by
    simp [fmtGo]
  rw [this]; rfl

theorem noBrace_append {a b : Str} : NoBrace (a ++ b) ↔ NoBrace a ∧ NoBrace b := by
  simp only [NoBrace, List.mem_append, not_or]; tauto

/-- Pigeonhole: among `existing.length + 1` different names one is new. -/
theorem exists_fresh (existing : List Str) (f : Nat → Str) (hf : ∀ i j, f i = f j → i = j) :
    ∃ k, k ≤ existing.length ∧ f k ∉ existing := by
  by_contra hcon
  have hall : ∀ k, k ≤ existing.length → f k ∈ existing := by
    intro k hk; by_contra hx; exact hcon ⟨k, hk, hx⟩
  have hnd : ((List.range (existing.length + 1)).map f).Nodup :=
    List.Nodup.map (fun i j h => hf i j h) List.nodup_range
  have hsub : (List.range (existing.length + 1)).map f ⊆ existing := by
    intro x hx
    obtain ⟨k, hk, rfl⟩ := List.mem_map.1 hx
    exact hall k (by have := List.mem_range.1 hk; omega)
  have := (hnd.subperm hsub).length_le
  simp at this

/-- Smallest such index. -/
theorem exists_first (existing : List Str) (f : Nat → Str) (hf : ∀ i j, f i = f j → i = j) :
    ∃ k, k ≤ existing.length ∧ f k ∉ existing ∧ ∀ i < k, f i ∈ existing := by
  have h := exists_fresh existing f hf
  classical
  refine ⟨Nat.find h, (Nat.find_spec h).1, (Nat.find_spec h).2, fun i hi => ?_⟩
  by_contra hx
  exact Nat.find_min h hi ⟨by have := (Nat.find_spec h).1; omega, hx⟩

end SC.Naming
