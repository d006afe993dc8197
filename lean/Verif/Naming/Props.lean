import Verif.Naming.Lemmas
import Mathlib.Data.List.TakeWhile
/-! # C37: generated names are fresh, and the search for them ends -/
namespace SC.Naming

/-- The text of a name object with number `n`: the parts around the last number of the name are
kept, and so is the width of the number; without a number `.n` is added. -/
theorem namingFormat_spec {name p d s : Str} (h : Split name p d s) :
    namingFormat name = (p ++ ("{:0".toList ++ Nat.toDigits 10 d.length ++ "d}".toList) ++ s,
      Nat.ofDigitChars 10 d 0, false) := by
  have e1 : name.take p.length = p := by rw [h.eq]; simp
  have e2 : name.drop (p.length + d.length) = s := by rw [h.eq]; simp
  have e3 : p.length + d.length - p.length = d.length := by omega
  simp only [namingFormat, locate_split h, e1, e2, e3]
  rfl

theorem namingFormat_noDigit {name : Str} (h : NoDigit name) :
    namingFormat name = (name ++ ".{:d}".toList, 0, true) := by
  simp [namingFormat, locate_noDigit h]

/-- **C37.**  `increment` keeps prefix, suffix and zero padding and adds to the last number. -/
theorem increment_numbered_partial {name p d s : Str} (h : Split name p d s) (hb : NoBrace name) (add : Nat) :
    ∃ d', increment name add = some (p ++ d' ++ s) ∧
      Decimal d.length (Nat.ofDigitChars 10 d 0 + add) d' := by
  have hb' : (NoBrace p ∧ NoBrace d) ∧ NoBrace s := by
    rw [← noBrace_append, ← noBrace_append, ← h.eq]; exact hb
  refine ⟨pad d.length (Nat.ofDigitChars 10 d 0 + add), ?_, decimal_pad _ _⟩
  rw [increment, namingFormat_spec h]
  exact fmt_numbered _ _ _ _ hb'.1.1 hb'.2

theorem increment_unnumbered_partial {name : Str} (h : NoDigit name) (hb : NoBrace name) (add : Nat) :
    ∃ d', increment name add = some (name ++ '.' :: d') ∧ Decimal 0 add d' := by
  refine ⟨pad 0 add, ?_, decimal_pad _ _⟩
  rw [increment, namingFormat_noDigit h]
  simpa using fmt_unnumbered add name hb

/-- Adding zero changes nothing. -/
theorem increment_zero {name p d s : Str} (h : Split name p d s) (hb : NoBrace name) :
    increment name 0 = some name := by
  obtain ⟨d', h1, h2⟩ := increment_numbered_partial h hb 0
  rw [h1, h2.unique (decimal_self h.ne h.digits), ← h.eq]

/-- Increments add up. -/
theorem increment_add {name p d s : Str} (h : Split name p d s) (hb : NoBrace name) (a b : Nat) :
    ∃ n1, increment name a = some n1 ∧
      ∃ d', increment n1 b = some (p ++ d' ++ s) ∧
        Nat.ofDigitChars 10 d' 0 = Nat.ofDigitChars 10 d 0 + a + b := by
  obtain ⟨d1, h1, h2⟩ := increment_numbered_partial h hb a
  have hs : Split (p ++ d1 ++ s) p d1 s := ⟨rfl, h2.ne, h2.digits, h.before, h.after⟩
  have hb' : (NoBrace p ∧ NoBrace d) ∧ NoBrace s := by
    rw [← noBrace_append, ← noBrace_append, ← h.eq]; exact hb
  obtain ⟨d2, h3, h4⟩ := increment_numbered_partial hs
    (by rw [noBrace_append, noBrace_append]; exact ⟨⟨hb'.1.1, noBrace_digits h2.digits⟩, hb'.2⟩) b
  exact ⟨_, h1, d2, h3, by rw [h4.value, h2.value]⟩

/-- `prepare` and `str(Name(name))`: unchanged when there is a number, `name.1` otherwise. -/
theorem prepare_spec (name : Str) (hb : NoBrace name) :
    ((∃ p d s, Split name p d s) → prepare name = some name ∧ (Name.new name).str = some name) ∧
    (NoDigit name → prepare name = some (name ++ ['.', '1']) ∧
      (Name.new name).str = some (name ++ ['.', '1'])) := by
  refine ⟨fun ⟨p, d, s, h⟩ => ?_, fun h => ?_⟩
  · have h0 := increment_zero h hb
    rw [increment, namingFormat_spec h] at h0
    simp only [Name.new, Name.str, prepare, namingFormat_spec h]
    simpa using h0
  · simp only [Name.new, Name.str, prepare, namingFormat_noDigit h]
    have := fmt_unnumbered 1 name hb
    have h1 : pad 0 1 = ['1'] := by decide
    rw [h1] at this
    simpa using this

/-- The loop visits the texts of the numbers `num, num + 1, ...`. -/
theorem freshLoop_spec (existing : List Str) (x : Name) (hx : x.locked = false) (f : Nat → Str)
    (hf : ∀ i, pyFormat x.fmt (x.num + i) = some (f i)) (k fuel : Nat) (hk : k < fuel)
    (hall : ∀ i < k, f i ∈ existing) (hnot : f k ∉ existing) :
    freshLoop existing fuel x = .found { x with num := x.num + k } (f k) := by
  induction k generalizing fuel x f with
  | zero =>
    obtain ⟨g, rfl⟩ : ∃ g, fuel = g + 1 := ⟨fuel - 1, by omega⟩
    have h0 : x.str = some (f 0) := by simpa [Name.str] using hf 0
    simp [freshLoop, h0, hnot]
  | succ k ih =>
    obtain ⟨g, rfl⟩ : ∃ g, fuel = g + 1 := ⟨fuel - 1, by omega⟩
    have h0 : x.str = some (f 0) := by simpa [Name.str] using hf 0
    have h1 : f 0 ∈ existing := hall 0 (by omega)
    have hi : x.iadd 1 = { x with num := x.num + 1 } := by simp [Name.iadd, hx]
    simp only [freshLoop, h0, h1, if_true, hi]
    rw [ih { x with num := x.num + 1 } hx (fun i => f (i + 1)) (fun i => ?_) g (by omega)
      (fun i hi => hall (i + 1) (by omega)) hnot]
    · simp only [Outcome.found.injEq, Name.mk.injEq, true_and, and_true]; omega
    · rw [← hf (i + 1)]; simp only; congr 1; omega

/-- **C37.**  For a name with a number (and no braces) the search `while exists: name += 1` ends
after at most as many steps as there are existing names, with a name that does not exist; it differs
from the original in the number only, whose width is kept, and it is the first such name. -/
theorem fresh_numbered_partial {name p d s : Str} (h : Split name p d s) (hb : NoBrace name)
    (existing : List Str) (fuel : Nat) (hfuel : existing.length < fuel) :
    ∃ k d' x, k ≤ existing.length ∧ freshLoop existing fuel (Name.new name) = .found x (p ++ d' ++ s) ∧
      Decimal d.length (Nat.ofDigitChars 10 d 0 + k) d' ∧ p ++ d' ++ s ∉ existing ∧
      ∀ i < k, ∀ e, Decimal d.length (Nat.ofDigitChars 10 d 0 + i) e → p ++ e ++ s ∈ existing := by
  have hb' : (NoBrace p ∧ NoBrace d) ∧ NoBrace s := by
    rw [← noBrace_append, ← noBrace_append, ← h.eq]; exact hb
  obtain ⟨k, hk, hnot, hall⟩ := exists_first existing
    (fun i => p ++ pad d.length (Nat.ofDigitChars 10 d 0 + i) ++ s) (by
      intro i j hij
      have := pad_inj (List.append_cancel_left (List.append_cancel_right hij))
      omega)
  refine ⟨k, pad d.length (Nat.ofDigitChars 10 d 0 + k),
    { Name.new name with num := (Name.new name).num + k }, hk, ?_, decimal_pad _ _, hnot, ?_⟩
  · exact freshLoop_spec existing (Name.new name) rfl
      (fun i => p ++ pad d.length (Nat.ofDigitChars 10 d 0 + i) ++ s) (fun i => by
        simp only [Name.new, namingFormat_spec h]
        exact fmt_numbered _ _ _ _ hb'.1.1 hb'.2) k fuel (by omega) hall hnot
  · intro i hi e he
    rw [he.unique (decimal_pad _ _)]; exact hall i hi

/-- **C37.**  The same for a name without a number: `name.1`, `name.2`, ... -/
theorem fresh_unnumbered_partial {name : Str} (h : NoDigit name) (hb : NoBrace name)
    (existing : List Str) (fuel : Nat) (hfuel : existing.length < fuel) :
    ∃ k d' x, k ≤ existing.length ∧
      freshLoop existing fuel (Name.new name) = .found x (name ++ '.' :: d') ∧
      Decimal 0 (1 + k) d' ∧ name ++ '.' :: d' ∉ existing ∧
      ∀ i < k, ∀ e, Decimal 0 (1 + i) e → name ++ '.' :: e ∈ existing := by
  obtain ⟨k, hk, hnot, hall⟩ := exists_first existing (fun i => name ++ '.' :: pad 0 (1 + i)) (by
    intro i j hij
    have hij : name ++ '.' :: pad 0 (1 + i) = name ++ '.' :: pad 0 (1 + j) := hij
    have h1 := List.append_cancel_left hij
    simp only [List.cons.injEq, true_and] at h1
    have := pad_inj h1
    omega)
  refine ⟨k, pad 0 (1 + k), { Name.new name with num := (Name.new name).num + k }, hk, ?_, decimal_pad _ _, hnot, ?_⟩
  · exact freshLoop_spec existing (Name.new name) rfl (fun i => name ++ '.' :: pad 0 (1 + i)) (fun i => by
      simp only [Name.new, namingFormat_noDigit h]
      exact fmt_unnumbered _ _ hb) k fuel (by omega) hall hnot
  · intro i hi e he
    rw [he.unique (decimal_pad _ _)]; exact hall i hi

theorem parenLoop_spec (existing : List Str) (fmt : Str) (f : Nat → Str)
    (hf : ∀ i, pyFormat fmt i = some (f i)) (k fuel i0 : Nat) (hk : k < fuel)
    (hall : ∀ i < k, f (i0 + i) ∈ existing) (hnot : f (i0 + k) ∉ existing) :
    parenLoop existing fmt fuel i0 = some (some (f (i0 + k))) := by
  induction k generalizing fuel i0 with
  | zero =>
    obtain ⟨g, rfl⟩ : ∃ g, fuel = g + 1 := ⟨fuel - 1, by omega⟩
    have hnot : f i0 ∉ existing := hnot
    simp [parenLoop, hf, hnot]
  | succ k ih =>
    obtain ⟨g, rfl⟩ : ∃ g, fuel = g + 1 := ⟨fuel - 1, by omega⟩
    have h0 : f i0 ∈ existing := by simpa using hall 0 (by omega)
    simp only [parenLoop, hf, h0, if_true]
    rw [ih g (i0 + 1) (by omega) (fun i hi => ?_) ?_]
    · rw [show i0 + 1 + k = i0 + (k + 1) by omega]
    · rwa [show i0 + 1 + k = i0 + (k + 1) by omega]
    · have := hall (i + 1) (by omega); rwa [show i0 + 1 + i = i0 + (i + 1) by omega]

theorem paren_fresh (existing : List Str) (base : Str) (hb : NoBrace base) (i0 fuel : Nat)
    (hfuel : existing.length < fuel) :
    ∃ k d', k ≤ existing.length ∧
      parenLoop existing (base ++ "({})".toList) fuel i0 = some (some (base ++ '(' :: (d' ++ [')']))) ∧
      Decimal 0 (i0 + k) d' ∧ base ++ '(' :: (d' ++ [')']) ∉ existing := by
  obtain ⟨k, hk, hnot, hall⟩ := exists_first existing
    (fun i => base ++ '(' :: (pad 0 (i0 + i) ++ [')'])) (by
      intro i j hij
      have hij : base ++ '(' :: (pad 0 (i0 + i) ++ [')']) = base ++ '(' :: (pad 0 (i0 + j) ++ [')']) := hij
      have h1 := List.append_cancel_left hij
      simp only [List.cons.injEq, true_and] at h1
      have := pad_inj (List.append_cancel_right h1)
      omega)
  exact ⟨k, pad 0 (i0 + k), hk, parenLoop_spec existing _ (fun i => base ++ '(' :: (pad 0 i ++ [')']))
    (fun i => fmt_paren i base hb) k fuel i0 (by omega) hall hnot, decimal_pad _ _, hnot⟩

/-- The groups of the regular expression are parts of the name. -/
theorem parenGroups_spec {name p d : Str} (h : parenGroups name = some (p, d)) :
    (name = p ++ '(' :: (d ++ [')']) ∨ name = p ++ '(' :: (d ++ [')', '\n'])) ∧
      p ≠ [] ∧ d ≠ [] ∧ ∀ c ∈ d, c.isDigit = true := by
  simp only [parenGroups] at h
  generalize ht : (match name.reverse with
    | '\n' :: t => t
    | t => t) = t at h
  have hname : name.reverse = t ∨ name.reverse = '\n' :: t := by
    split at ht
    · rename_i t' heq; right; rw [heq, ht]
    · left; exact ht
  split at h
  · rename_i t' heqt
    have htt := ht.symm.trans heqt
    split at h
    · rename_i q hq
      split at h
      · rename_i hcond
        simp only [Option.some.injEq, Prod.mk.injEq] at h
        obtain ⟨rfl, rfl⟩ := h
        have htd : t' = t'.takeWhile Char.isDigit ++ '(' :: q := by
          rw [← hq]; exact (List.takeWhile_append_dropWhile).symm
        refine ⟨?_, by simpa using hcond.2.1, by simpa using hcond.1, fun c hc => ?_⟩
        · rcases hname with hn | hn
          · left
            rw [htt, htd] at hn
            have := congrArg List.reverse hn
            simpa using this
          · right
            rw [htt, htd] at hn
            have := congrArg List.reverse hn
            simpa using this
        · have hc : c ∈ t'.takeWhile Char.isDigit := by simpa using hc
          exact List.mem_takeWhile_imp hc
      · cases h
    · cases h
  · cases h

/-- **C37.**  `nonexisting_name` (for names without braces) ends after at most as many steps as there
are names, with a name that does not exist: the name itself when it is new, else the name (without a
trailing `(number)`) followed by `(number)`. -/
theorem nonexistingName_partial (existing : List Str) (name : Str) (hb : NoBrace name) (fuel : Nat)
    (hfuel : existing.length < fuel) :
    ∃ r, nonexistingName existing fuel name = some (some r) ∧ r ∉ existing ∧
      (name ∉ existing → r = name) ∧
      (name ∈ existing → ∃ base d', r = base ++ '(' :: (d' ++ [')']) ∧ base <+: name ∧ d' ≠ [] ∧
        ∀ c ∈ d', c.isDigit = true) := by
  by_cases hn : name ∈ existing
  · simp only [nonexistingName, hn, not_true_eq_false, if_false]
    cases hp : parenGroups name with
    | none =>
      obtain ⟨k, d', hk, h1, h2, h3⟩ := paren_fresh existing name hb 1 fuel hfuel
      exact ⟨_, h1, h3, fun h => h.elim, fun _ => ⟨name, d', rfl, List.prefix_refl _, h2.ne, h2.digits⟩⟩
    | some pd =>
      obtain ⟨p, d⟩ := pd
      obtain ⟨heq, -, -, -⟩ := parenGroups_spec hp
      have hpre : p <+: name := by rcases heq with h | h <;> exact ⟨_, h.symm⟩
      have hbp : NoBrace p := ⟨fun h => hb.1 (hpre.subset h), fun h => hb.2 (hpre.subset h)⟩
      obtain ⟨k, d', hk, h1, h2, h3⟩ := paren_fresh existing p hbp (Nat.ofDigitChars 10 d 0 + 1) fuel hfuel
      exact ⟨_, h1, h3, fun h => h.elim, fun _ => ⟨p, d', rfl, hpre, h2.ne, h2.digits⟩⟩
  · exact ⟨name, by simp [nonexistingName, hn], hn, fun _ => rfl, fun h => absurd h hn⟩

/-- Every text `p(digits)` is recognised. -/
theorem parenGroups_complete {p d : Str} (hp : p ≠ []) (hn : '\n' ∉ p) (hd : d ≠ [])
    (hdig : ∀ c ∈ d, c.isDigit = true) : parenGroups (p ++ '(' :: (d ++ [')'])) = some (p, d) := by
  have hr : (p ++ '(' :: (d ++ [')'])).reverse = ')' :: (d.reverse ++ '(' :: p.reverse) := by simp
  have hdr : ∀ c ∈ d.reverse, c.isDigit = true := fun c hc => hdig c (List.mem_reverse.1 hc)
  have h1 : (d.reverse ++ '(' :: p.reverse).takeWhile Char.isDigit = d.reverse := by
    rw [List.takeWhile_append_of_pos hdr]; simp
  have h2 : (d.reverse ++ '(' :: p.reverse).dropWhile Char.isDigit = '(' :: p.reverse := by
    rw [List.dropWhile_append_of_pos hdr]; simp
  generalize ht : d.reverse ++ '(' :: p.reverse = t at hr h1 h2
  have e : parenGroups (p ++ '(' :: (d ++ [')'])) = match t.dropWhile Char.isDigit with
      | '(' :: q => if t.takeWhile Char.isDigit ≠ [] ∧ q ≠ [] ∧ '\n' ∉ q then
          some (q.reverse, (t.takeWhile Char.isDigit).reverse) else none
      | _ => none := by
    simp only [parenGroups, hr]
    rfl
  rw [e, h1, h2]
  simp [hp, hd, hn]

/-- **C37.**  An existing name `p(number)` is replaced by `p(larger number)`: nothing is nested. -/
theorem nonexistingName_paren_partial (existing : List Str) {p d : Str} (hp : p ≠ []) (hn : '\n' ∉ p)
    (hd : d ≠ []) (hdig : ∀ c ∈ d, c.isDigit = true) (hb : NoBrace p)
    (hex : p ++ '(' :: (d ++ [')']) ∈ existing) (fuel : Nat) (hfuel : existing.length < fuel) :
    ∃ k d', k ≤ existing.length ∧ nonexistingName existing fuel (p ++ '(' :: (d ++ [')'])) =
        some (some (p ++ '(' :: (d' ++ [')']))) ∧
      Decimal 0 (Nat.ofDigitChars 10 d 0 + 1 + k) d' ∧ p ++ '(' :: (d' ++ [')']) ∉ existing := by
  obtain ⟨k, d', hk, h1, h2, h3⟩ :=
    paren_fresh existing p hb (Nat.ofDigitChars 10 d 0 + 1) fuel hfuel
  refine ⟨k, d', hk, ?_, h2, h3⟩
  simp only [nonexistingName, hex, not_true_eq_false, if_false, parenGroups_complete hp hn hd hdig]
  exact h1

/-- `name + k` is a name object for the text of `increment`, and `reset` undoes increments. -/
theorem add_reset {name p d s : Str} (h : Split name p d s) (hb : NoBrace name) (k : Nat) :
    (∃ y, (Name.new name).add k = some y ∧ y.str = increment name k) ∧
      (((Name.new name).iadd k).reset).str = some name := by
  obtain ⟨d1, h1, h2⟩ := increment_numbered_partial h hb k
  have hb' : (NoBrace p ∧ NoBrace d) ∧ NoBrace s := by
    rw [← noBrace_append, ← noBrace_append, ← h.eq]; exact hb
  constructor
  · refine ⟨Name.new (p ++ d1 ++ s), ?_, ?_⟩
    · have h1' := h1
      rw [increment, namingFormat_spec h] at h1'
      simp only [Name.add, Name.new, namingFormat_spec h, Bool.false_eq_true, if_false, h1',
        Option.map_some]
    · rw [h1]
      have hs : Split (p ++ d1 ++ s) p d1 s := ⟨rfl, h2.ne, h2.digits, h.before, h.after⟩
      refine ((prepare_spec _ ?_).1 ⟨_, _, _, hs⟩).2
      rw [noBrace_append, noBrace_append]; exact ⟨⟨hb'.1.1, noBrace_digits h2.digits⟩, hb'.2⟩
  · have := ((prepare_spec name hb).1 ⟨_, _, _, h⟩).2
    simpa [Name.reset, Name.iadd, Name.str, Name.new] using this

/-! ## matching -/

theorem dropPrefix_iff (p s r : Str) : dropPrefix p s = some r ↔ s = p ++ r := by
  induction p generalizing s with
  | nil => simp only [dropPrefix, Option.some.injEq, List.nil_append]
  | cons c p ih =>
    cases s with
    | nil => simp [dropPrefix]
    | cons d s =>
      simp only [dropPrefix]
      split
      · rename_i h; subst h; rw [ih]; simp
      · rename_i h
        constructor
        · intro hx; cases hx
        · intro hx; simp at hx; exact absurd hx.1.symm h

theorem atEnd_iff (r : Str) : atEnd r = true ↔ r = [] ∨ r = ['\n'] := by simp [atEnd]

theorem newline_not_digit : ∀ c ∈ (['\n'] : Str), c.isDigit = false := by decide

/-- **C37.**  The names matching a name with a number are those that differ from it in the number
only, up to a final newline. -/
theorem match_numbered {name p d s : Str} (h : Split name p d s) (t : Str) :
    matchName name t = true ↔ ∃ e, e ≠ [] ∧ (∀ c ∈ e, c.isDigit = true) ∧
      (t = p ++ e ++ s ∨ t = p ++ e ++ s ++ ['\n']) := by
  have e1 : name.take p.length = p := by rw [h.eq]; simp
  have e2 : name.drop (p.length + d.length) = s := by rw [h.eq]; simp
  have split : ∀ (e r : Str), (∀ c ∈ e, c.isDigit = true) → (∀ c ∈ r.head?, c.isDigit = false) →
      (e ++ r).takeWhile Char.isDigit = e ∧ (e ++ r).dropWhile Char.isDigit = r := by
    intro e r he hr
    rw [List.takeWhile_append_of_pos he, List.dropWhile_append_of_pos he]
    cases r with
    | nil => simp
    | cons x y => have := hr x (by simp); simp [this]
  simp only [matchName, locate_split h, e1, e2, Bool.false_eq_true, if_false]
  constructor
  · intro hm
    cases h1 : dropPrefix p t with
    | none => rw [h1] at hm; simp at hm
    | some r =>
      rw [h1] at hm
      simp only [Bool.and_eq_true] at hm
      obtain ⟨hne, hm⟩ := hm
      cases h2 : dropPrefix s (r.dropWhile Char.isDigit) with
      | none => rw [h2] at hm; simp at hm
      | some r' =>
        rw [h2] at hm
        have ht := (dropPrefix_iff _ _ _).1 h1
        have hr := (dropPrefix_iff _ _ _).1 h2
        refine ⟨r.takeWhile Char.isDigit, by simpa [List.isEmpty_iff] using hne,
          fun c hc => List.mem_takeWhile_imp hc, ?_⟩
        have hrr : r = r.takeWhile Char.isDigit ++ (s ++ r') := by
          rw [← hr]; exact (List.takeWhile_append_dropWhile).symm
        generalize r.takeWhile Char.isDigit = e at hrr
        subst hrr
        rcases (atEnd_iff _).1 hm with rfl | rfl
        · left; rw [ht]; simp
        · right; rw [ht]; simp
  · rintro ⟨e, hne, he, ht⟩
    have key : ∀ r', atEnd r' = true → (∀ c ∈ r', c.isDigit = false) → t = p ++ (e ++ (s ++ r')) →
        (match dropPrefix p t with
          | none => false
          | some r => !(r.takeWhile Char.isDigit).isEmpty &&
            match dropPrefix s (r.dropWhile Char.isDigit) with
            | none => false
            | some r' => atEnd r') = true := by
      intro r' hr' hnd ht
      rw [(dropPrefix_iff _ _ _).2 ht]
      have hh : ∀ c ∈ (s ++ r').head?, c.isDigit = false := by
        intro c hc
        have hc : c ∈ s ++ r' := List.mem_of_mem_head? hc
        rcases List.mem_append.1 hc with hc | hc
        · exact h.after c hc
        · exact hnd c hc
      obtain ⟨a, b⟩ := split e (s ++ r') he hh
      simp only [a, b, (dropPrefix_iff _ _ _).2 rfl, hr', Bool.and_true]
      simpa [List.isEmpty_iff] using hne
    rcases ht with ht | ht
    · exact key [] rfl (by simp) (by rw [ht]; simp)
    · exact key ['\n'] rfl newline_not_digit (by rw [ht]; simp)

/-- ... and a name without a number is matched by itself and its numbered versions. -/
theorem match_unnumbered {name : Str} (h : NoDigit name) (t : Str) :
    matchName name t = true ↔ t = name ∨ t = name ++ ['\n'] ∨ ∃ e, e ≠ [] ∧ (∀ c ∈ e, c.isDigit = true) ∧
      (t = name ++ '.' :: e ∨ t = name ++ '.' :: (e ++ ['\n'])) := by
  simp only [matchName, locate_noDigit h, if_true]
  have split : ∀ (e r : Str), (∀ c ∈ e, c.isDigit = true) → (∀ c ∈ r.head?, c.isDigit = false) →
      (e ++ r).takeWhile Char.isDigit = e ∧ (e ++ r).dropWhile Char.isDigit = r := by
    intro e r he hr
    rw [List.takeWhile_append_of_pos he, List.dropWhile_append_of_pos he]
    cases r with
    | nil => simp
    | cons x y => have := hr x (by simp); simp [this]
  constructor
  · intro hm
    cases h1 : dropPrefix name t with
    | none => rw [h1] at hm; simp at hm
    | some r =>
      rw [h1] at hm
      have ht := (dropPrefix_iff _ _ _).1 h1
      simp only [Bool.or_eq_true] at hm
      rcases hm with hm | hm
      · rcases (atEnd_iff _).1 hm with rfl | rfl
        · left; simpa using ht
        · right; left; exact ht
      · split at hm
        · rename_i r'
          simp only [Bool.and_eq_true] at hm
          right; right
          refine ⟨r'.takeWhile Char.isDigit, by simpa [List.isEmpty_iff] using hm.1,
            fun c hc => List.mem_takeWhile_imp hc, ?_⟩
          have hr : r' = r'.takeWhile Char.isDigit ++ r'.dropWhile Char.isDigit :=
            (List.takeWhile_append_dropWhile).symm
          rcases (atEnd_iff _).1 hm.2 with h' | h'
          · left; rw [h'] at hr; rw [ht]; simp at hr ⊢; exact hr
          · right; rw [h'] at hr; rw [ht]; simp; exact hr
        · simp at hm
  · rintro (rfl | rfl | ⟨e, hne, he, ht⟩)
    · rw [(dropPrefix_iff t t []).2 (by simp)]; rfl
    · rw [(dropPrefix_iff _ _ ['\n']).2 rfl]; rfl
    · have hemp : e.isEmpty = false := by simpa [List.isEmpty_iff] using hne
      rcases ht with rfl | rfl
      · rw [(dropPrefix_iff _ _ ('.' :: e)).2 rfl]
        obtain ⟨a, b⟩ := split e [] he (by simp)
        simp only [List.append_nil] at a b
        simp [a, b, hemp, atEnd]
      · rw [(dropPrefix_iff _ _ ('.' :: (e ++ ['\n']))).2 rfl]
        obtain ⟨a, b⟩ := split e ['\n'] he (by simp)
        simp [a, b, hemp, atEnd]

/-- **C37.**  The name found by the search matches the original name. -/
theorem fresh_matches_partial {name : Str} (hb : NoBrace name) (existing : List Str) (fuel : Nat)
    (hfuel : existing.length < fuel) :
    ∃ x r, freshLoop existing fuel (Name.new name) = .found x r ∧ r ∉ existing ∧ matchName name r = true := by
  rcases split_or name with h | ⟨p, d, s, h⟩
  · obtain ⟨k, d', x, -, h1, h2, h3, -⟩ := fresh_unnumbered_partial h hb existing fuel hfuel
    exact ⟨x, _, h1, h3, (match_unnumbered h _).2 (.inr (.inr ⟨d', h2.ne, h2.digits, .inl rfl⟩))⟩
  · obtain ⟨k, d', x, -, h1, h2, h3, -⟩ := fresh_numbered_partial h hb existing fuel hfuel
    exact ⟨x, _, h1, h3, (match_numbered h _).2 ⟨d', h2.ne, h2.digits, .inl rfl⟩⟩

/-! ## deviations -/

/-- **C37 (deviation).**  Braces around the number make the format string a constant: the search
never ends when that text exists. -/
theorem braces_diverge (existing : List Str) (h : "a{:01d}".toList ∈ existing) (fuel : Nat) :
    freshLoop existing fuel (Name.new "a{1}".toList) = .running := by
  have hn : Name.new "a{1}".toList = ⟨"a{{:01d}}".toList, 1, 1, false⟩ := by decide
  rw [hn]
  generalize (1 : Nat) = n
  have key : ∀ n, pyFormat "a{{:01d}}".toList n = some "a{:01d}".toList := by
    intro n; simp [pyFormat, fmtGo]
  suffices ∀ m, freshLoop existing fuel ⟨"a{{:01d}}".toList, m, n, false⟩ = .running from this n
  induction fuel with
  | zero => intro m; rfl
  | succ f ih =>
    intro m
    have hs : (Name.str ⟨"a{{:01d}}".toList, m, n, false⟩) = some "a{:01d}".toList := key m
    simp only [freshLoop, hs, h, if_true]
    simpa [Name.iadd] using ih (m + 1)

/-- **C37 (deviation).**  Other braces make the format raise. -/
theorem braces_raise (existing : List Str) (fuel : Nat) :
    freshLoop existing (fuel + 1) (Name.new "a{b}".toList) = .raised := by
  have hn : (Name.new "a{b}".toList).str = none := by decide
  rw [freshLoop, hn]

/-- **C37 (deviation).**  `unlock` does not unlock: a locked name never changes again. -/
theorem unlock_locks (x : Name) (k : Nat) : (x.lock.unlock).iadd k = x.lock := by
  simp [Name.unlock, Name.lock, Name.iadd]

/-- **C37 (deviation).**  ... and the search does not end for a locked name that exists. -/
theorem locked_diverges (existing : List Str) (x : Name) (hx : x.locked = true) (s : Str)
    (h : x.str = some s) (hs : s ∈ existing) (fuel : Nat) : freshLoop existing fuel x = .running := by
  induction fuel with
  | zero => rfl
  | succ f ih => simpa [freshLoop, h, hs, Name.iadd, hx] using ih

-- test cases
example : Split "map0009_x".toList "map".toList "0009".toList "_x".toList :=
  ⟨rfl, by decide, by decide, by decide, by decide⟩
example : freshLoop ["map0009_x".toList, "map0010_x".toList] 3 (Name.new "map0009_x".toList) =
    .found ⟨"map{:04d}_x".toList, 11, 9, false⟩ "map0011_x".toList := by decide
example : NoDigit "name".toList ∧ NoBrace "name".toList := by
  refine ⟨by unfold NoDigit; decide, by unfold NoBrace; decide⟩
example : freshLoop ["name.1".toList] 2 (Name.new "name".toList) = .found ⟨"name.{:d}".toList, 2, 1, false⟩ "name.2".toList := by decide
example : increment "name0001_0001".toList = some "name0001_0002".toList := by decide
example : increment "f99".toList = some "f100".toList := by decide
example : matchName "entry0001".toList "entry12".toList = true := by decide
example : matchName "name".toList "name.5".toList = true ∧ matchName "name".toList "name5".toList = false := by decide
example : nonexistingName ["a".toList, "a(1)".toList] 3 "a".toList = some (some "a(2)".toList) := by decide
example : nonexistingName ["a(9)".toList] 3 "a(9)".toList = some (some "a(10)".toList) := by decide
example : "a{:01d}".toList ∈ ["a{:01d}".toList] := by decide
example : (Name.new "x1".toList).lock.str = some "x1".toList := by decide

end SC.Naming
