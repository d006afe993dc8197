import Verif.Expression.Lemmas
/-! # The parser finds the formula that a text writes -/
namespace SC.Expression

/-- The rest does not start with an operator of the level. -/
def NoOp (lv : Lv) (r : Str) : Prop := operator lv r = none

def Letters (n : Str) : Prop := n ≠ [] ∧ ∀ c ∈ n, c.isAlpha = true

/-- `prim` or a group, what follows the sign of an atom. -/
def primOrGroup (n : Nat) (s : Str) (st : Stack) : Res :=
  orElse (primP (run n (.level .sum)) s st) (fun st => groupP (run n (.level .sum)) s st)

/-- What is shown about a text at each level. -/
def Parsed (lv : Level) (t : Form) (s : Str) : Prop :=
  match lv with
  | .prim => ∀ r st, Follow r → sign (s ++ r) = (none, s ++ r) ∧
      ∃ n, primOrGroup n (s ++ r) st = some (some r, st ++ code t)
  | .signed => ∀ r st, Follow r → ∃ n, run n (.level .atom) (s ++ r) st = some (some r, st ++ code t)
  | .power => ∀ r st, Follow r → NoOp .power r →
      ∃ n, run n (.level .power) (s ++ r) st = some (some r, st ++ code t)
  | .product => ∀ r st res, Follow r → NoOp .power r →
      (∃ n, run n (.loop .product) r (st ++ code t) = some res) →
      ∃ n, run n (.level .product) (s ++ r) st = some res
  | .sum => ∀ r st res, Follow r → NoOp .power r → NoOp .product r →
      (∃ n, run n (.loop .sum) r (st ++ code t) = some res) →
      ∃ n, run n (.level .sum) (s ++ r) st = some res

theorem operator_symbol (lv : Lv) {w : Str} (hw : Blank w) {c : Char}
    (hc : c ∈ ['+', '-', '*', '/', '^', ')']) (r : Str) :
    operator lv (w ++ c :: r) = if c ∈ lv.ops then some (c, r) else none := by
  unfold operator
  rw [(follow_symbol hw hc r).1]

theorem sign_none {s : Str} (h : ∀ c r, skip s = c :: r → c ≠ '-' ∧ c ≠ '+') : sign s = (none, s) := by
  unfold sign
  split
  · rename_i r hs; exact absurd rfl (h _ _ hs).1
  · rename_i r hs; exact absurd rfl (h _ _ hs).2
  · rfl

theorem sign_none_cons {w : Str} (hw : Blank w) {c : Char} (hc : isWs c = false) (h1 : c ≠ '-')
    (h2 : c ≠ '+') (r : Str) : sign (w ++ c :: r) = (none, w ++ c :: r) := by
  apply sign_none
  intro d r' h
  rw [skip_blank hw, skip_cons hc] at h
  obtain ⟨rfl, _⟩ := List.cons.inj h
  exact ⟨h1, h2⟩

theorem caseless_none {w : Str} (hw : Blank w) {c : Char} (hc : isWs c = false) (hE : c.toUpper ≠ 'E')
    (r : Str) : caseless ['E'] (skip (w ++ c :: r)) = none := by
  rw [skip_blank hw, skip_cons hc]
  simp [caseless, hE]

theorem caselessPi_none {w : Str} (hw : Blank w) {c : Char} (hc : isWs c = false) (hE : c.toUpper ≠ 'P')
    (r : Str) : caseless ['P', 'I'] (skip (w ++ c :: r)) = none := by
  rw [skip_blank hw, skip_cons hc]
  simp [caseless, hE]

theorem numberTok_none {w : Str} (hw : Blank w) {c : Char} (hc : isWs c = false) (h : isSignNum c = false)
    (r : Str) : numberTok (w ++ c :: r) = none := by
  unfold numberTok
  rw [skip_blank hw, skip_cons hc]
  simp [word, h]

/-- Facts about letters, by ranges of code points. -/
theorem alpha_facts {c : Char} (h : c.isAlpha = true) :
    isWs c = false ∧ isSignNum c = false ∧ c ≠ '-' ∧ c ≠ '+' ∧ c ≠ '(' := by
  have h' : ∀ d : Char, d.isAlpha = false → c ≠ d := by
    rintro d hd rfl
    rw [h] at hd; exact absurd hd (by simp)
  have hdig : c.isDigit = false := by
    simp only [Char.isAlpha, Char.isUpper, Char.isLower, Char.isDigit, ge_iff_le, Bool.or_eq_true,
      decide_eq_true_eq, Bool.and_eq_true, Bool.and_eq_false_iff, decide_eq_false_iff_not,
      UInt32.le_iff_toNat_le] at h ⊢
    simp at h ⊢
    omega
  refine ⟨?_, ?_, h' _ rfl, h' _ rfl, h' _ rfl⟩
  · simp [isWs, h' ' ' rfl, h' '\n' rfl, h' '\t' rfl, h' '\r' rfl]
  · simp [isSignNum, h' '+' rfl, h' '-' rfl, hdig]

theorem digit_facts {c : Char} (h : c.isDigit = true) :
    isWs c = false ∧ c ≠ '-' ∧ c ≠ '+' ∧ c.toUpper ≠ 'E' ∧ c.toUpper ≠ 'P' := by
  have h' : ∀ d : Char, d.isDigit = false → c ≠ d := by
    rintro d hd rfl
    rw [h] at hd; exact absurd hd (by simp)
  have hlow : c.isLower = false := by
    simp only [Char.isLower, Char.isDigit, ge_iff_le, 
      decide_eq_true_eq, Bool.and_eq_true, Bool.and_eq_false_iff, decide_eq_false_iff_not,
      UInt32.le_iff_toNat_le] at h ⊢
    simp at h ⊢
    omega
  have hup : c.toUpper = c := by
    unfold Char.toUpper
    simp only [Char.isLower, ge_iff_le, Bool.and_eq_false_iff, decide_eq_false_iff_not] at hlow
    split
    · rename_i hh
      exfalso
      rcases hlow with hl | hl
      · exact hl hh.1
      · exact hl hh.2
    · rfl
  refine ⟨?_, h' _ rfl, h' _ rfl, ?_, ?_⟩
  · simp [isWs, h' ' ' rfl, h' '\n' rfl, h' '\t' rfl, h' '\r' rfl]
  · rw [hup]; exact h' _ rfl
  · rw [hup]; exact h' _ rfl

theorem char_shift {v k : UInt32} {hv : v.isValidChar} {c d d' : Char} (hc : v = c.val + k)
    (h : (⟨v, hv⟩ : Char) = d) (hd : d.val - k = d'.val) : c = d' := by
  subst h hc
  apply Char.ext
  rw [← hd]
  exact (UInt32.add_sub_cancel _ _).symm

theorem toUpper_eq {c d d' : Char} (h : c.toUpper = d) (hd : d.val - ('A'.val - 'a'.val) = d'.val) :
    c = d ∨ c = d' := by
  unfold Char.toUpper at h
  split at h
  · right
    exact char_shift rfl h hd
  · exact Or.inl h

theorem toUpper_E {c : Char} (h : c.toUpper = 'E') : c = 'E' ∨ c = 'e' := toUpper_eq h rfl
theorem toUpper_P {c : Char} (h : c.toUpper = 'P') : c = 'P' ∨ c = 'p' := toUpper_eq h rfl
theorem toUpper_I {c : Char} (h : c.toUpper = 'I') : c = 'I' ∨ c = 'i' := toUpper_eq h rfl

/-- An identifier that does not start with a constant is not read as one. -/
theorem caseless_ident {c : Char} {s r : Str} (hr : Stop isLetter r) (h : ¬ StartsWithConstant (c :: s)) :
    caseless ['E'] (c :: (s ++ r)) = none ∧ caseless ['P', 'I'] (c :: (s ++ r)) = none := by
  have hE : c.toUpper ≠ 'E' := by
    intro hc
    rcases toUpper_E hc with rfl | rfl
    · exact h ⟨s, by simp⟩
    · exact h ⟨s, by simp⟩
  have hP : caseless ['P', 'I'] (c :: (s ++ r)) = none := by
    unfold caseless
    rw [if_neg]
    intro hc
    cases s with
    | nil =>
      cases r with
      | nil => simp at hc
      | cons d r =>
        have := hr d r rfl
        simp at hc
        rcases toUpper_I hc.2 with rfl | rfl <;> exact absurd this (by decide)
    | cons d s =>
      simp at hc
      rcases toUpper_P hc.1 with rfl | rfl <;> rcases toUpper_I hc.2 with rfl | rfl <;>
        exact h ⟨s, by simp⟩
  exact ⟨by simp [caseless, hE], hP⟩

theorem follow_not_paren {r : Str} (hr : Follow r) : literal ['('] (skip r) = none := by
  cases h : skip r with
  | nil => rfl
  | cons c r' =>
    have := hr c r' h
    have hc : c ≠ '(' := by rintro rfl; exact absurd this (by decide)
    simp [literal, List.isPrefixOf, Ne.symm hc]

theorem run_max {n k : Nat} {m : Mode} {s : Str} {st : Stack} {x} (h : run n m s st = some x) :
    run (max n k) m s st = some x := run_mono (Nat.le_max_left _ _) _ _ _ _ h

theorem prim_number {w : Str} (hw : Blank w) {l : Lexeme} (hl : l.Ok) {r : Str} (hr : Follow r) (st : Stack) :
    primOrGroup 0 (w ++ (l.written ++ r)) st = some (some r, st ++ [l.text]) := by
  have key : ∃ c q, l.written ++ r = c :: q ∧ isWs c = false ∧ c.toUpper ≠ 'E' ∧ c.toUpper ≠ 'P' := by
    unfold Lexeme.written
    cases hs : l.sign with
    | some c =>
      refine ⟨c, _, by simp; rfl, ?_⟩
      rcases hl.sign c hs with rfl | rfl <;> decide
    | none =>
      match hi : l.int, hl.int with
      | c :: d, hd =>
        have hc := digit_facts (hd.2 c (by simp))
        exact ⟨c, _, by simp; rfl, hc.1, hc.2.2.2.1, hc.2.2.2.2⟩
  obtain ⟨c, q, e, h0, h1, h2⟩ := key
  have h3 := numberTok_eq hw hl hr
  rw [e] at h3 ⊢
  simp only [primOrGroup, primP, caselessPi_none hw h0 h2, caseless_none hw h0 h1, h3, orElse]

/-- The main lemma: what a text writes is what the parser pushes. -/
theorem parsed {lv : Level} {t : Form} {s : Str} (h : Writes varText lv t s)
    (hv : ∀ n ∈ t.vars, Letters n) : Parsed lv t s := by
  induction h with
  | @num w l hw hl hs =>
    intro r st hr
    match hi : l.int, hl.int with
    | c :: d, hd =>
      have hc := digit_facts (hd.2 c (by simp))
      have e : w ++ l.written ++ r = w ++ c :: (d ++ fracText l.frac ++ expText l.exp ++ r) := by
        simp [Lexeme.written, hs, hi]
      refine ⟨by rw [e]; exact sign_none_cons hw hc.1 hc.2.1 hc.2.2.1 _, 0, ?_⟩
      rw [List.append_assoc]
      exact prim_number hw hl hr st
  | @pi w t hw ht =>
    intro r st hr
    have key : ∀ c d : Char, isWs c = false → c ≠ '-' → c ≠ '+' → c.toUpper = 'P' → d.toUpper = 'I' →
        sign (w ++ [c, d] ++ r) = (none, w ++ [c, d] ++ r) ∧
        ∃ n, primOrGroup n (w ++ [c, d] ++ r) st = some (some r, st ++ code .pi) := by
      intro c d h1 h2 h3 h4 h5
      have e : w ++ [c, d] ++ r = w ++ c :: d :: r := by simp
      rw [e]
      refine ⟨sign_none_cons hw h1 h2 h3 _, 0, ?_⟩
      have : caseless ['P', 'I'] (skip (w ++ c :: d :: r)) = some r := by
        rw [skip_blank hw, skip_cons h1]
        simp [caseless, h4, h5]
      simp [primOrGroup, primP, this, orElse, code]
    simp only [List.mem_cons, List.not_mem_nil, or_false] at ht
    rcases ht with rfl | rfl | rfl | rfl <;> exact key _ _ rfl (by decide) (by decide) rfl rfl
  | @euler w t hw ht =>
    intro r st hr
    have key : ∀ c : Char, isWs c = false → c ≠ '-' → c ≠ '+' → c.toUpper = 'E' →
        sign (w ++ [c] ++ r) = (none, w ++ [c] ++ r) ∧
        ∃ n, primOrGroup n (w ++ [c] ++ r) st = some (some r, st ++ code .euler) := by
      intro c h1 h2 h3 h4
      have e : w ++ [c] ++ r = w ++ c :: r := by simp
      rw [e]
      refine ⟨sign_none_cons hw h1 h2 h3 _, 0, ?_⟩
      have hp : caseless ['P', 'I'] (skip (w ++ c :: r)) = none :=
        caselessPi_none hw h1 (by rw [h4]; decide) _
      have : caseless ['E'] (skip (w ++ c :: r)) = some r := by
        rw [skip_blank hw, skip_cons h1]
        simp [caseless, h4]
      simp [primOrGroup, primP, hp, this, orElse, code]
    simp only [List.mem_cons, List.not_mem_nil, or_false] at ht
    rcases ht with rfl | rfl <;> exact key _ rfl (by decide) (by decide) rfl
  | @var w n hw =>
    intro r st hr
    obtain ⟨hn, hl⟩ := hv n (by simp [Form.vars])
    match n, hn with
    | c :: n, _ =>
      have e : w ++ varText (c :: n) ++ r = w ++ 'v' :: ('a' :: 'r' :: '_' :: (c :: n ++ r)) := by
        simp [varText]
      rw [e]
      refine ⟨sign_none_cons hw rfl (by decide) (by decide) _, 0, ?_⟩
      have h1 := caselessPi_none hw (c := 'v') rfl (by decide) ('a' :: 'r' :: '_' :: (c :: n ++ r))
      have h2 := caseless_none hw (c := 'v') rfl (by decide) ('a' :: 'r' :: '_' :: (c :: n ++ r))
      have h3 := numberTok_none hw (c := 'v') rfl rfl ('a' :: 'r' :: '_' :: (c :: n ++ r))
      have h4 : word isLetter isIdentChar (skip (w ++ 'v' :: ('a' :: 'r' :: '_' :: (c :: n ++ r)))) =
          some ('v' :: ('a' :: 'r' :: '_' :: c :: n), r) := by
        rw [skip_blank hw, skip_cons rfl]
        have := word_eq (first := isLetter) (body := isIdentChar) (c := 'v')
          (a := 'a' :: 'r' :: '_' :: c :: n) (r := r) rfl ?_ (follow_stop hr isIdentChar (by decide))
        · simpa using this
        · intro x hx
          simp only [List.mem_cons] at hx
          rcases hx with rfl | rfl | rfl | hx
          · rfl
          · rfl
          · rfl
          · have := hl x (by simpa using hx)
            simp [isIdentChar, this]
      have h5 : literal ['v', 'a', 'r', '_'] (skip (w ++ 'v' :: ('a' :: 'r' :: '_' :: (c :: n ++ r)))) =
          some (c :: n ++ r) := by
        rw [skip_blank hw, skip_cons rfl]
        simp [literal, List.isPrefixOf]
      have hc := hl c (by simp)
      have h6 : word isLetter isLetter (skip (c :: n ++ r)) = some (c :: n, r) := by
        rw [List.cons_append, skip_cons (alpha_facts hc).1]
        exact word_eq hc (fun x hx => hl x (by simp [hx])) (follow_stop hr isLetter (by decide))
      have hcall : callP (run 0 (.level .sum)) (w ++ 'v' :: ('a' :: 'r' :: '_' :: (c :: n ++ r))) st =
          some (none, st) := by
        simp only [callP, h4, follow_not_paren hr, expect, andThen]
      simp only [primOrGroup, primP, h1, h2, h3, hcall, orElse, varP, h5, h6, code]
  | @call w f w' s w'' x hw hf hsc hw' hx hw'' ih =>
    intro r st hr
    obtain ⟨c, g, rfl, hc, hg⟩ := hf
    have hc' := alpha_facts hc
    obtain ⟨m, hm⟩ := ih hv (w'' ++ ')' :: r) st (some (w'' ++ ')' :: r), st ++ code x)
      (follow_symbol hw'' (by simp) r).2
      (by unfold NoOp; rw [operator_symbol _ hw'' (by simp)]; rfl)
      (by unfold NoOp; rw [operator_symbol _ hw'' (by simp)]; rfl)
      ⟨1, by unfold run; rw [operator_symbol _ hw'' (by simp)]; rfl⟩
    let q : Str := w' ++ '(' :: (s ++ (w'' ++ ')' :: r))
    have e : w ++ (c :: g ++ (w' ++ '(' :: (s ++ (w'' ++ [')'])))) ++ r = w ++ c :: (g ++ q) := by
      simp [q]
    rw [e]
    have hq : ∀ p : Char → Bool, (∀ d, isWs d = true → p d = false) → p '(' = false → Stop p q := by
      intro p hp1 hp2 d r' hd
      cases w' with
      | nil => simp [q] at hd; rw [← hd.1]; exact hp2
      | cons b w' =>
        simp [q] at hd
        rw [← hd.1]
        exact hp1 b ((isWs_iff b).2 (hw' b (by simp)))
    have hws : ∀ d, isWs d = true → isIdentChar d = false ∧ isLetter d = false := by
      intro d hd
      rcases (isWs_iff d).1 hd with rfl | rfl | rfl | rfl <;> exact ⟨rfl, rfl⟩
    refine ⟨sign_none_cons hw hc'.1 hc'.2.2.1 hc'.2.2.2.1 _, m, ?_⟩
    have hcs := caseless_ident (hq isLetter (fun d hd => (hws d hd).2) rfl) hsc
    have h1 : caseless ['P', 'I'] (skip (w ++ c :: (g ++ q))) = none := by
      rw [skip_blank hw, skip_cons hc'.1]; exact hcs.2
    have h2 : caseless ['E'] (skip (w ++ c :: (g ++ q))) = none := by
      rw [skip_blank hw, skip_cons hc'.1]; exact hcs.1
    have h3 := numberTok_none hw hc'.1 hc'.2.1 (g ++ q)
    have h4 : word isLetter isIdentChar (skip (w ++ c :: (g ++ q))) = some (c :: g, q) := by
      rw [skip_blank hw, skip_cons hc'.1]
      refine word_eq hc ?_ (hq isIdentChar (fun d hd => (hws d hd).1) rfl)
      intro d hd
      rcases hg d hd with h | h | rfl | rfl
      · simp [isIdentChar, h]
      · simp [isIdentChar, h]
      · rfl
      · rfl
    have h5 : literal ['('] (skip q) = some (s ++ (w'' ++ ')' :: r)) := literal_skip_cons hw' rfl _
    have h6 : literal [')'] (skip (w'' ++ ')' :: r)) = some r := literal_skip_cons hw'' rfl _
    have hcall : callP (run m (.level .sum)) (w ++ c :: (g ++ q)) st =
        some (some r, st ++ code x ++ [c :: g]) := by
      simp only [callP, h4, expect, h5, andThen, hm, h6]
    simp only [primOrGroup, primP, h1, h2, h3, hcall, orElse, code, List.append_assoc]
  | @paren w s w' x hw hx hw' ih =>
    intro r st hr
    obtain ⟨m, hm⟩ := ih hv (w' ++ ')' :: r) st (some (w' ++ ')' :: r), st ++ code x)
      (follow_symbol hw' (by simp) r).2
      (by unfold NoOp; rw [operator_symbol _ hw' (by simp)]; rfl)
      (by unfold NoOp; rw [operator_symbol _ hw' (by simp)]; rfl)
      ⟨1, by unfold run; rw [operator_symbol _ hw' (by simp)]; rfl⟩
    have e : w ++ '(' :: (s ++ (w' ++ [')'])) ++ r = w ++ '(' :: (s ++ (w' ++ ')' :: r)) := by simp
    rw [e]
    refine ⟨sign_none_cons hw rfl (by decide) (by decide) _, m, ?_⟩
    have h1 := caselessPi_none hw (c := '(') rfl (by decide) (s ++ (w' ++ ')' :: r))
    have h2 := caseless_none hw (c := '(') rfl (by decide) (s ++ (w' ++ ')' :: r))
    have h3 := numberTok_none hw (c := '(') rfl rfl (s ++ (w' ++ ')' :: r))
    have h4 : word isLetter isIdentChar (skip (w ++ '(' :: (s ++ (w' ++ ')' :: r)))) = none := by
      rw [skip_blank hw, skip_cons rfl]; rfl
    have h5 : literal ['v', 'a', 'r', '_'] (skip (w ++ '(' :: (s ++ (w' ++ ')' :: r)))) = none := by
      rw [skip_blank hw, skip_cons rfl]; rfl
    have h6 : literal ['('] (skip (w ++ '(' :: (s ++ (w' ++ ')' :: r)))) = some (s ++ (w' ++ ')' :: r)) :=
      literal_skip_cons hw rfl _
    have h7 : literal [')'] (skip (w' ++ ')' :: r)) = some r := literal_skip_cons hw' rfl _
    simp only [primOrGroup, primP, h1, h2, h3, callP, h4, varP, h5, orElse, groupP, h6, expect, andThen,
      hm, h7]
  | @unsigned s x hx ih =>
    intro r st hr
    obtain ⟨hs, n, hn⟩ := ih hv r st hr
    refine ⟨n + 1, ?_⟩
    show atomP (run n (.level .sum)) (s ++ r) st = _
    unfold atomP
    rw [hs]
    unfold primOrGroup at hn
    rw [hn]
    rfl
  | @minus w s x hw hx ih =>
    intro r st hr
    obtain ⟨hs, n, hn⟩ := ih hv r st hr
    refine ⟨n + 1, ?_⟩
    show atomP (run n (.level .sum)) (w ++ '-' :: s ++ r) st = _
    unfold atomP
    have : sign (w ++ '-' :: s ++ r) = (some '-', s ++ r) := by
      unfold sign; rw [List.append_assoc, skip_blank hw, List.cons_append, skip_cons rfl]; rfl
    rw [this]
    unfold primOrGroup at hn
    rw [hn]
    simp [andThen, code]
  | @plus w s x hw hx ih =>
    intro r st hr
    obtain ⟨hs, n, hn⟩ := ih hv r st hr
    refine ⟨n + 1, ?_⟩
    show atomP (run n (.level .sum)) (w ++ '+' :: s ++ r) st = _
    unfold atomP
    have : sign (w ++ '+' :: s ++ r) = (some '+', s ++ r) := by
      unfold sign; rw [List.append_assoc, skip_blank hw, List.cons_append, skip_cons rfl]; rfl
    rw [this]
    unfold primOrGroup at hn
    rw [hn]
    simp [andThen]
  | @minusSigned w w' l hw hw' hl =>
    intro r st hr
    refine ⟨1, ?_⟩
    show atomP (run 0 (.level .sum)) (w ++ '-' :: (w' ++ l.written) ++ r) st = _
    have : sign (w ++ '-' :: (w' ++ l.written) ++ r) = (some '-', w' ++ (l.written ++ r)) := by
      unfold sign; rw [List.append_assoc, skip_blank hw, List.cons_append, skip_cons rfl]; simp
    unfold atomP
    rw [this]
    have h := prim_number hw' hl hr st
    unfold primOrGroup at h
    rw [h]
    simp [andThen, code]
  | @plusSigned w w' l hw hw' hl =>
    intro r st hr
    refine ⟨1, ?_⟩
    show atomP (run 0 (.level .sum)) (w ++ '+' :: (w' ++ l.written) ++ r) st = _
    have : sign (w ++ '+' :: (w' ++ l.written) ++ r) = (some '+', w' ++ (l.written ++ r)) := by
      unfold sign; rw [List.append_assoc, skip_blank hw, List.cons_append, skip_cons rfl]; simp
    unfold atomP
    rw [this]
    have h := prim_number hw' hl hr st
    unfold primOrGroup at h
    rw [h]
    simp [andThen, code]
  | @base s x hx ih =>
    intro r st hr hn
    obtain ⟨n, h⟩ := ih hv r st hr
    refine ⟨n + 2, ?_⟩
    rw [run_level (by simp)]
    have h' : run (n + 1) (.level .atom) (s ++ r) st = _ := run_succ _ _ _ _ _ h
    show andThen (run (n + 1) (.level .atom) (s ++ r) st) _ = _
    rw [h']
    simp only [andThen]
    unfold run
    rw [hn]
  | @power s w s' x y hx hw hy ihx ihy =>
    intro r st hr hn
    obtain ⟨n, h⟩ := ihx (fun n hn => hv n (by simp [Form.vars, hn])) (w ++ '^' :: (s' ++ r)) st
      (follow_symbol hw (by simp) _).2
    obtain ⟨m, h'⟩ := ihy (fun n hn => hv n (by simp [Form.vars, hn])) r (st ++ code x) hr hn
    have e : s ++ (w ++ '^' :: s') ++ r = s ++ (w ++ '^' :: (s' ++ r)) := by simp
    rw [e]
    have hN : run (max n m + 2) (.level .atom) (s ++ (w ++ '^' :: (s' ++ r))) st = _ :=
      run_mono (by omega) _ _ _ _ h
    have hM : run (max n m + 1) (.level .power) (s' ++ r) (st ++ code x) = _ :=
      run_mono (by omega) _ _ _ _ h'
    refine ⟨max n m + 3, ?_⟩
    rw [run_level (by simp)]
    show andThen (run (max n m + 2) (.level .atom) _ st) _ = _
    rw [hN]
    simp only [andThen]
    unfold run
    rw [operator_symbol _ hw (by simp)]
    simp only [Lv.ops, List.mem_cons, List.not_mem_nil, or_false, if_true, Lv.operand]
    rw [hM]
    simp only
    unfold run
    rw [hn]
    simp [code]
  | @factor s x hx ih =>
    intro r st res hr hn hres
    obtain ⟨m, hm⟩ := hres
    obtain ⟨n, h⟩ := ih hv r st hr hn
    refine ⟨max n m + 1, ?_⟩
    rw [run_level (by simp)]
    show andThen (run (max n m) (.level .power) _ st) _ = _
    rw [run_mono (Nat.le_max_left n m) _ _ _ _ h]
    simp only [andThen]
    exact run_mono (Nat.le_max_right n m) _ _ _ _ hm
  | @product s w s' x y o hx hw ho hy ihx ihy =>
    intro r st res hr hn hres
    obtain ⟨m, hm⟩ := hres
    obtain ⟨k, hk⟩ := ihy (fun n hn => hv n (by simp [Form.vars, hn])) r (st ++ code x) hr hn
    have e : s ++ (w ++ o :: s') ++ r = s ++ (w ++ o :: (s' ++ r)) := by simp
    rw [e]
    have hmem : o ∈ ['+', '-', '*', '/', '^', ')'] := by rcases ho with rfl | rfl <;> simp
    refine ihx (fun n hn => hv n (by simp [Form.vars, hn])) _ st res (follow_symbol hw hmem _).2 ?_ ?_
    · unfold NoOp
      rw [operator_symbol _ hw hmem, if_neg]
      rcases ho with rfl | rfl <;> decide
    · refine ⟨max k m + 1, ?_⟩
      unfold run
      rw [operator_symbol _ hw hmem, if_pos (by rcases ho with rfl | rfl <;> decide)]
      simp only [Lv.operand]
      rw [run_mono (Nat.le_max_left k m) _ _ _ _ hk]
      simp only
      refine run_mono (Nat.le_max_right k m) _ _ _ _ ?_
      rw [← hm]; simp [code]
  | @term s x hx ih =>
    intro r st res hr hn hn' hres
    obtain ⟨m, hm⟩ := hres
    obtain ⟨n, h⟩ := ih hv r st (some r, st ++ code x) hr hn ⟨1, by unfold run; rw [hn']⟩
    refine ⟨max n m + 1, ?_⟩
    rw [run_level (by simp)]
    show andThen (run (max n m) (.level .product) _ st) _ = _
    rw [run_mono (Nat.le_max_left n m) _ _ _ _ h]
    simp only [andThen]
    exact run_mono (Nat.le_max_right n m) _ _ _ _ hm
  | @sum s w s' x y o hx hw ho hy ihx ihy =>
    intro r st res hr hn hn' hres
    obtain ⟨m, hm⟩ := hres
    obtain ⟨k, hk⟩ := ihy (fun n hn => hv n (by simp [Form.vars, hn])) r (st ++ code x)
      (some r, st ++ code x ++ code y) hr hn ⟨1, by unfold run; rw [hn']⟩
    have e : s ++ (w ++ o :: s') ++ r = s ++ (w ++ o :: (s' ++ r)) := by simp
    rw [e]
    have hmem : o ∈ ['+', '-', '*', '/', '^', ')'] := by rcases ho with rfl | rfl <;> simp
    refine ihx (fun n hn => hv n (by simp [Form.vars, hn])) _ st res (follow_symbol hw hmem _).2 ?_ ?_ ?_
    · unfold NoOp
      rw [operator_symbol _ hw hmem, if_neg]
      rcases ho with rfl | rfl <;> decide
    · unfold NoOp
      rw [operator_symbol _ hw hmem, if_neg]
      rcases ho with rfl | rfl <;> decide
    · refine ⟨max k m + 1, ?_⟩
      unfold run
      rw [operator_symbol _ hw hmem, if_pos (by rcases ho with rfl | rfl <;> decide)]
      simp only [Lv.operand]
      rw [run_mono (Nat.le_max_left k m) _ _ _ _ hk]
      simp only
      refine run_mono (Nat.le_max_right k m) _ _ _ _ ?_
      rw [← hm]; simp [code]

/-- Texts that write a formula are compiled to its postfix form. -/
theorem compile_writes {t : Form} {s : Str} (h : Writes varText .sum t s)
    (hv : ∀ n ∈ t.vars, Letters n) {w : Str} (hw : Blank w) : compile (s ++ w) = some (code t) := by
  have hsk : skip w = [] := by have := skip_blank hw []; simpa [skip] using this
  have hop : ∀ lv, operator lv w = none := by intro lv; unfold operator; rw [hsk]
  obtain ⟨n, hn⟩ := parsed h hv w [] (some w, code t)
    (by intro c r' hc; rw [hsk] at hc; exact absurd hc (by simp)) (hop _) (hop _)
    ⟨1, by unfold run; rw [hop]; simp⟩
  unfold compile
  rw [run_depth hn]
  simp [hsk]

end SC.Expression
