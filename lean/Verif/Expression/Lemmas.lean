import Verif.Expression.Spec
import Mathlib.Data.List.Basic
import Mathlib.Tactic.Tauto
/-! # The parser finds the formula: tokens, recursion depth -/
namespace SC.Expression

/-- What the parser pushes for a formula. -/
def code : Form → Stack
  | .num l => [l.text]
  | .pi => [['P', 'I']]
  | .euler => [['E']]
  | .var n => [n]
  | .call f x => code x ++ [f]
  | .neg x => code x ++ [uminus]
  | .bin o a b => code a ++ code b ++ [[o]]

/-! ## White space and words -/

theorem isWs_iff (c : Char) : isWs c = true ↔ c = ' ' ∨ c = '\t' ∨ c = '\n' ∨ c = '\r' := by
  simp only [isWs, Bool.or_eq_true, beq_iff_eq]; tauto

theorem skip_blank {w : Str} (h : Blank w) (s : Str) : skip (w ++ s) = skip s := by
  induction w with
  | nil => rfl
  | cons c w ih =>
    have hc : isWs c = true := (isWs_iff c).2 (h c (by simp))
    have : skip (c :: (w ++ s)) = skip (w ++ s) := by simp [skip, hc]
    rw [List.cons_append, this]
    exact ih fun d hd => h d (by simp [hd])

theorem skip_cons {c : Char} (h : isWs c = false) (s : Str) : skip (c :: s) = c :: s := by
  simp [skip, h]

theorem skip_skip (s : Str) : skip (skip s) = skip s := by
  induction s with
  | nil => rfl
  | cons c s ih =>
    cases hc : isWs c
    · rw [skip_cons hc, skip_cons hc]
    · have : skip (c :: s) = skip s := by simp [skip, hc]
      rw [this, ih]

theorem skip_length (s : Str) : (skip s).length ≤ s.length := by
  unfold skip; exact (List.dropWhile_suffix _).length_le

/-- The next character does not satisfy `p`. -/
def Stop (p : Char → Bool) (r : Str) : Prop := ∀ c r', r = c :: r' → p c = false

theorem takeWhile_stop {p : Char → Bool} {a r : Str} (ha : ∀ c ∈ a, p c = true) (hr : Stop p r) :
    (a ++ r).takeWhile p = a ∧ (a ++ r).dropWhile p = r := by
  induction a with
  | nil =>
    cases r with
    | nil => simp
    | cons c r => simp [hr c r rfl]
  | cons c a ih =>
    obtain ⟨h1, h2⟩ := ih fun d hd => ha d (by simp [hd])
    simp [ha c (by simp), h1, h2]

theorem word_eq {first body : Char → Bool} {c : Char} {a r : Str} (hc : first c = true)
    (ha : ∀ c ∈ a, body c = true) (hr : Stop body r) :
    word first body (c :: (a ++ r)) = some (c :: a, r) := by
  simp [word, hc, takeWhile_stop ha hr]

/-- What may follow an operand: the end, an operator or a closing parenthesis. -/
def Follow (r : Str) : Prop := ∀ c r', skip r = c :: r' → c ∈ ['+', '-', '*', '/', '^', ')']

theorem follow_head {c : Char} {r : Str} (h : Follow (c :: r)) :
    c ∈ [' ', '\t', '\n', '\r', '+', '-', '*', '/', '^', ')'] := by
  cases hc : isWs c
  · have := h c r (skip_cons hc r)
    simp only [List.mem_cons, List.not_mem_nil, or_false] at this ⊢
    tauto
  · have := (isWs_iff c).1 hc
    simp only [List.mem_cons, List.not_mem_nil, or_false]
    tauto

theorem follow_stop {r : Str} (h : Follow r) (p : Char → Bool)
    (hp : ∀ c ∈ [' ', '\t', '\n', '\r', '+', '-', '*', '/', '^', ')'], p c = false) : Stop p r := by
  rintro c r' rfl
  exact hp c (follow_head h)

theorem follow_symbol {w : Str} (hw : Blank w) {c : Char} (hc : c ∈ ['+', '-', '*', '/', '^', ')']) (r : Str) :
    skip (w ++ c :: r) = c :: r ∧ Follow (w ++ c :: r) := by
  have h1 : isWs c = false := by
    simp only [List.mem_cons, List.not_mem_nil, or_false] at hc
    rcases hc with rfl | rfl | rfl | rfl | rfl | rfl <;> rfl
  have h2 : skip (w ++ c :: r) = c :: r := by rw [skip_blank hw, skip_cons h1]
  refine ⟨h2, ?_⟩
  intro d r' hd
  rw [h2] at hd
  obtain ⟨rfl, _⟩ := List.cons.inj hd
  exact hc

theorem literal_cons (c : Char) (r : Str) : literal [c] (c :: r) = some r := by
  simp [literal]

theorem literal_skip_cons {w : Str} (hw : Blank w) {c : Char} (hc : isWs c = false) (r : Str) :
    literal [c] (skip (w ++ c :: r)) = some r := by
  rw [skip_blank hw, skip_cons hc, literal_cons]

/-! ## Numbers -/

theorem isSignNum_digit {c : Char} (h : c.isDigit = true) : isSignNum c = true := by
  simp [isSignNum, h]

theorem isSignNum_sign {c : Char} (h : IsSign c) : isSignNum c = true := by
  rcases h with rfl | rfl <;> rfl

/-- A sign and digits are one word. -/
theorem word_number {sg : Option Char} {d r : Str} (hs : ∀ c, sg = some c → IsSign c) (hd : Digits d)
    (hr : Stop isNum r) : word isSignNum isNum (sg.toList ++ d ++ r) = some (sg.toList ++ d, r) := by
  cases sg with
  | none =>
    match d, hd with
    | c :: d, hd =>
      simp only [Option.toList_none, List.nil_append, List.cons_append]
      exact word_eq (isSignNum_digit (hd.2 c (by simp))) (fun x hx => hd.2 x (by simp [hx])) hr
  | some c =>
    simp only [Option.toList_some, List.cons_append, List.nil_append]
    exact word_eq (isSignNum_sign (hs c rfl)) (fun x hx => hd.2 x hx) hr

theorem expPart_eq {x : Option (Char × Option Char × Str)} {r : Str} (hr : Follow r)
    (hx : ∀ c s d, x = some (c, s, d) → (c = 'e' ∨ c = 'E') ∧ (∀ y, s = some y → IsSign y) ∧ Digits d) :
    expPart (expText x ++ r) = (expText (x.map (fun y => ('E', y.2))), r) := by
  cases x with
  | none =>
    simp only [expText, List.nil_append, Option.map_none]
    have : caseless ['E'] r = none := by
      cases r with
      | nil => simp [caseless]
      | cons c r =>
        have h := follow_stop hr (fun c => c.toUpper == 'E') (by decide) c r rfl
        simp only [beq_eq_false_iff_ne, ne_eq] at h
        simp [caseless, h]
    simp [expPart, this]
  | some y =>
    obtain ⟨c, s, d⟩ := y
    obtain ⟨hc, hs, hd⟩ := hx c s d rfl
    have h1 : caseless ['E'] (c :: (s.toList ++ d ++ r)) = some (s.toList ++ d ++ r) := by
      rcases hc with rfl | rfl <;> rfl
    have h2 := word_number hs hd (follow_stop hr isNum (by decide))
    simp only [expText, List.cons_append, Option.map_some]
    rw [expPart, h1]
    simp only
    rw [h2]

theorem stop_exp (x : Option (Char × Option Char × Str)) {r : Str} (hr : Follow r)
    (hx : ∀ c s d, x = some (c, s, d) → (c = 'e' ∨ c = 'E') ∧ (∀ y, s = some y → IsSign y) ∧ Digits d) :
    Stop isNum (expText x ++ r) := by
  cases x with
  | none => exact follow_stop hr isNum (by decide)
  | some y =>
    obtain ⟨c, s, d⟩ := y
    intro c' r' h
    simp only [expText, List.cons_append, List.cons.injEq] at h
    obtain ⟨rfl, _⟩ := h
    rcases (hx _ _ _ rfl).1 with rfl | rfl <;> rfl

theorem fracPart_eq {f : Option Str} {x : Option (Char × Option Char × Str)} {r : Str} (hr : Follow r)
    (hf : ∀ g, f = some g → ∀ c ∈ g, c.isDigit = true)
    (hx : ∀ c s d, x = some (c, s, d) → (c = 'e' ∨ c = 'E') ∧ (∀ y, s = some y → IsSign y) ∧ Digits d) :
    fracPart (fracText f ++ (expText x ++ r)) = (fracText f, expText x ++ r) := by
  cases f with
  | none =>
    simp only [fracText, List.nil_append]
    have : ∀ r', expText x ++ r ≠ '.' :: r' := by
      intro r' h
      cases x with
      | none =>
        simp only [expText, List.nil_append] at h
        subst h
        exact absurd (follow_head hr) (by decide)
      | some y =>
        obtain ⟨c, s, d⟩ := y
        simp only [expText, List.cons_append, List.cons.injEq] at h
        obtain ⟨rfl, _⟩ := h
        rcases (hx _ _ _ rfl).1 with h | h <;> exact absurd h (by decide)
    generalize expText x ++ r = q at this
    unfold fracPart
    split
    · exact absurd rfl (this _)
    · rfl
  | some g =>
    have := takeWhile_stop (p := isNum) (hf g rfl) (stop_exp x hr hx)
    simp only [fracText, List.cons_append, fracPart, this]

/-- A number literal is read whole. -/
theorem numberTok_eq {w : Str} (hw : Blank w) {l : Lexeme} (hl : l.Ok) {r : Str} (hr : Follow r) :
    numberTok (w ++ (l.written ++ r)) = some (l.text, r) := by
  have hstop : Stop isNum (fracText l.frac ++ (expText l.exp ++ r)) := by
    cases hf : l.frac with
    | none => exact stop_exp _ hr hl.exp
    | some g =>
      intro c r' h
      simp only [fracText, List.cons_append, List.cons.injEq] at h
      obtain ⟨rfl, _⟩ := h
      rfl
  have h0 : skip (w ++ (l.written ++ r)) =
      l.sign.toList ++ l.int ++ (fracText l.frac ++ (expText l.exp ++ r)) := by
    rw [skip_blank hw]
    have e : l.written ++ r = l.sign.toList ++ l.int ++ (fracText l.frac ++ (expText l.exp ++ r)) := by
      simp [Lexeme.written, List.append_assoc]
    rw [e]
    cases hs : l.sign with
    | none =>
      match hi : l.int, hl.int with
      | c :: d, hd =>
        simp only [Option.toList_none, List.nil_append, List.cons_append]
        refine skip_cons ?_ _
        have := hd.2 c (by simp)
        by_contra h
        rw [Bool.not_eq_false, isWs_iff] at h
        rcases h with rfl | rfl | rfl | rfl <;> exact absurd this (by decide)
    | some c =>
      simp only [Option.toList_some, List.cons_append, List.nil_append]
      refine skip_cons ?_ _
      rcases hl.sign c hs with rfl | rfl <;> rfl
  unfold numberTok
  rw [h0, word_number hl.sign hl.int hstop]
  simp only [fracPart_eq hr hl.frac hl.exp, expPart_eq hr hl.exp]
  rfl

/-! ## The bound on the recursion depth is irrelevant -/

/-- `e'` answers whenever `e` does, in the same way. -/
def Le (e e' : Str → Stack → Res) : Prop := ∀ s st x, e s st = some x → e' s st = some x

theorem andThen_mono {x x' : Res} {f f' : Str → Stack → Res} (hx : ∀ y, x = some y → x' = some y)
    (hf : Le f f') {y} (h : andThen x f = some y) : andThen x' f' = some y := by
  match x, h with
  | some (none, st), h => rw [hx _ rfl]; exact h
  | some (some r, st), h => rw [hx _ rfl]; exact hf _ _ _ h

theorem orElse_mono {x x' : Res} {f f' : Stack → Res} (hx : ∀ y, x = some y → x' = some y)
    (hf : ∀ st y, f st = some y → f' st = some y) {y} (h : orElse x f = some y) :
    orElse x' f' = some y := by
  match x, h with
  | some (none, st), h => rw [hx _ rfl]; exact hf _ _ h
  | some (some r, st), h => rw [hx _ rfl]; exact h

theorem callP_mono {e e' : Str → Stack → Res} (h : Le e e') : Le (callP e) (callP e') := by
  intro s st x hx
  unfold callP at hx ⊢
  split at hx
  · exact hx
  · refine andThen_mono (fun _ h => h) ?_ hx
    intro r st y hy
    exact andThen_mono (fun y hy => h _ _ _ hy) (fun _ _ _ h => h) hy

theorem groupP_mono {e e' : Str → Stack → Res} (h : Le e e') : Le (groupP e) (groupP e') := by
  intro s st x hx
  unfold groupP at hx ⊢
  refine andThen_mono (fun _ h => h) ?_ hx
  intro r st y hy
  exact andThen_mono (fun y hy => h _ _ _ hy) (fun _ _ _ h => h) hy

theorem primP_mono {e e' : Str → Stack → Res} (h : Le e e') : Le (primP e) (primP e') := by
  intro s st x hx
  unfold primP at hx ⊢
  split at hx
  · exact hx
  · split at hx
    · exact hx
    · split at hx
      · exact hx
      · exact orElse_mono (fun y hy => callP_mono h _ _ _ hy) (fun _ _ h => h) hx

theorem atomP_mono {e e' : Str → Stack → Res} (h : Le e e') : Le (atomP e) (atomP e') := by
  intro s st x hx
  unfold atomP at hx ⊢
  refine andThen_mono ?_ (fun _ _ _ h => h) hx
  intro y hy
  exact orElse_mono (fun y hy => primP_mono h _ _ _ hy) (fun _ _ hy => groupP_mono h _ _ _ hy) hy

theorem run_level {n : Nat} {lv : Lv} (h : lv ≠ .atom) (s : Str) (st : Stack) :
    run (n + 1) (.level lv) s st = andThen (run n (.level lv.first) s st) (run n (.loop lv)) := by
  cases lv <;> first | rfl | exact absurd rfl h

theorem run_succ (n : Nat) (m : Mode) : Le (run n m) (run (n + 1) m) := by
  induction n generalizing m with
  | zero => intro s st x h; simp [run] at h
  | succ n ih =>
    intro s st x h
    cases m with
    | level lv =>
      by_cases hlv : lv = .atom
      · subst hlv; exact atomP_mono (ih _) _ _ _ h
      · rw [run_level hlv] at h ⊢
        exact andThen_mono (fun y hy => ih _ _ _ _ hy) (ih _) h
    | loop lv =>
      unfold run at h ⊢
      split at h
      · exact h
      · rename_i c r ho
        split at h
        · exact absurd h (by simp)
        · rename_i hh
          rw [ih _ _ _ _ hh]; exact h
        · rename_i hh
          rw [ih _ _ _ _ hh]; exact ih _ _ _ _ h

theorem run_mono {n k : Nat} (hk : n ≤ k) (m : Mode) : Le (run n m) (run k m) := by
  induction hk with
  | refl => intro s st x h; exact h
  | step _ ih => intro s st x h; exact run_succ _ _ _ _ _ (ih _ _ _ h)

/-! ## The bound on the recursion depth is never reached -/

/-- An answer whose rest is not longer than `k`. -/
def Short (k : Nat) (x : Res) : Prop := ∃ o st, x = some (o, st) ∧ ∀ r, o = some r → r.length ≤ k

theorem short_fail (k : Nat) (st : Stack) : Short k (some (none, st)) := ⟨none, st, rfl, by simp⟩

theorem short_some {k : Nat} {r : Str} (st : Stack) (h : r.length ≤ k) : Short k (some (some r, st)) :=
  ⟨some r, st, rfl, by rintro _ ⟨⟩; exact h⟩

theorem short_andThen {k j : Nat} {x : Res} {f : Str → Stack → Res} (hx : Short k x)
    (hf : ∀ r st, r.length ≤ k → Short j (f r st)) : Short j (andThen x f) := by
  obtain ⟨o, st, rfl, h⟩ := hx
  cases o with
  | none => exact short_fail _ _
  | some r => exact hf r st (h r rfl)

theorem short_orElse {k : Nat} {x : Res} {f : Stack → Res} (hx : Short k x) (hf : ∀ st, Short k (f st)) :
    Short k (orElse x f) := by
  obtain ⟨o, st, rfl, h⟩ := hx
  cases o with
  | none => exact hf st
  | some r => exact short_some _ (h r rfl)

theorem literal_length {l s r : Str} (h : literal l s = some r) : r.length + l.length = s.length := by
  unfold literal at h
  split at h
  · rename_i hp
    simp only [Option.some.injEq] at h
    subst h
    have := (List.isPrefixOf_iff_prefix.1 hp).length_le
    simp; omega
  · exact absurd h (by simp)

theorem caseless_length {l s r : Str} (h : caseless l s = some r) : r.length ≤ s.length := by
  unfold caseless at h
  split at h
  · simp only [Option.some.injEq] at h
    subst h; simp
  · exact absurd h (by simp)

theorem word_length {f b : Char → Bool} {s w r : Str} (h : word f b s = some (w, r)) :
    r.length + 1 ≤ s.length := by
  cases s with
  | nil => simp [word] at h
  | cons c s =>
    simp only [word] at h
    split at h
    · simp only [Option.some.injEq, Prod.mk.injEq] at h
      obtain ⟨_, rfl⟩ := h
      have := (List.dropWhile_suffix b (l := s)).length_le
      simp; omega
    · exact absurd h (by simp)

theorem fracPart_length (s : Str) : (fracPart s).2.length ≤ s.length := by
  unfold fracPart
  split
  · rename_i s
    have := (List.dropWhile_suffix isNum (l := s)).length_le
    simp; omega
  · exact Nat.le_refl _

theorem expPart_length (s : Str) : (expPart s).2.length ≤ s.length := by
  unfold expPart
  split
  · exact Nat.le_refl _
  · rename_i s' h1
    split
    · exact Nat.le_refl _
    · rename_i h2
      have a := caseless_length h1
      have b := word_length h2
      simp only; omega

theorem numberTok_length {s w r : Str} (h : numberTok s = some (w, r)) : r.length ≤ s.length := by
  unfold numberTok at h
  split at h
  · exact absurd h (by simp)
  · rename_i w' r' h1
    simp only [Option.some.injEq, Prod.mk.injEq] at h
    obtain ⟨_, rfl⟩ := h
    have a := word_length h1
    have b := fracPart_length r'
    have c := expPart_length (fracPart r').2
    have d := skip_length s
    omega

theorem sign_length (s : Str) : (sign s).2.length ≤ s.length := by
  have := skip_length s
  unfold sign
  split
  · rename_i h; rw [h] at this; simp at this ⊢; omega
  · rename_i h; rw [h] at this; simp at this ⊢; omega
  · exact Nat.le_refl _

theorem operator_length {lv : Lv} {s r : Str} {c : Char} (h : operator lv s = some (c, r)) :
    r.length + 1 ≤ s.length := by
  have := skip_length s
  unfold operator at h
  split at h
  · rename_i d r' hs
    split at h
    · simp only [Option.some.injEq, Prod.mk.injEq] at h
      obtain ⟨_, rfl⟩ := h
      rw [hs] at this; simpa using this
    · exact absurd h (by simp)
  · exact absurd h (by simp)

theorem short_expect {k : Nat} {x : Option Str} (st : Stack) (h : ∀ r, x = some r → r.length ≤ k) :
    Short k (expect x st) := ⟨x, st, rfl, h⟩

theorem short_bracket {e : Str → Stack → Res} {k : Nat} {r : Str} (hr : r.length ≤ k + 1)
    (he : ∀ r st, r.length ≤ k → Short k (e r st)) (st : Stack) (f : Stack → Stack) :
    Short (k + 1) (andThen (expect (literal ['('] (skip r)) st) fun r st =>
      andThen (e r st) fun r st =>
      andThen (expect (literal [')'] (skip r)) st) fun r st => some (some r, f st)) := by
  refine short_andThen (k := k) (short_expect st ?_) ?_
  · intro r' h
    have a := literal_length h
    have b := skip_length r
    simp at a; omega
  · intro r st hr
    refine short_andThen (he r st hr) ?_
    intro r st hr
    refine short_andThen (k := k) (short_expect st ?_) ?_
    · intro r' h
      have a := literal_length h
      have b := skip_length r
      simp at a; omega
    · intro r st hr
      exact short_some _ (by omega)

theorem short_atomP {e : Str → Stack → Res} {s : Str}
    (he : ∀ r st, r.length + 1 ≤ s.length → Short r.length (e r st)) (st : Stack) :
    Short s.length (atomP e s st) := by
  have hs := sign_length s
  generalize hr : (sign s).2 = r at hs
  unfold atomP
  rw [hr]
  refine short_andThen (k := s.length) ?_ (fun r st h => short_some _ h)
  have hk := skip_length r
  refine short_orElse ?_ ?_
  · unfold primP
    split
    · rename_i h; exact short_some _ (by have := caseless_length h; omega)
    · split
      · rename_i h; exact short_some _ (by have := caseless_length h; omega)
      · split
        · rename_i h; exact short_some _ (by have := numberTok_length h; omega)
        · refine short_orElse ?_ ?_
          · unfold callP
            split
            · exact short_fail _ _
            · rename_i f r' h
              have := word_length h
              obtain ⟨k, hk'⟩ : ∃ k, s.length = k + 1 := ⟨s.length - 1, by omega⟩
              rw [hk']
              refine short_bracket (by omega) ?_ st (fun st => st ++ [f])
              intro r st hr
              obtain ⟨o, st', h1, h2⟩ := he r st (by omega)
              exact ⟨o, st', h1, fun q hq => Nat.le_trans (h2 q hq) hr⟩
          · intro st
            unfold varP
            split
            · exact short_fail _ _
            · rename_i r' h
              have a := literal_length h
              have b := skip_length r'
              split
              · exact short_fail _ _
              · rename_i h
                have c := word_length h
                exact short_some _ (by omega)
  · intro st
    unfold groupP
    by_cases h0 : s.length = 0
    · have : r = [] := by
        cases r with
        | nil => rfl
        | cons c r => simp at hs; omega
      subst this
      exact short_fail _ _
    · obtain ⟨k, hk'⟩ : ∃ k, s.length = k + 1 := ⟨s.length - 1, by omega⟩
      rw [hk']
      refine short_bracket (by omega) ?_ st (fun st => st)
      intro r st hr
      obtain ⟨o, st', h1, h2⟩ := he r st (by omega)
      exact ⟨o, st', h1, fun q hq => Nat.le_trans (h2 q hq) hr⟩

/-- The part of the depth that depends on the level. -/
def rank : Mode → Nat
  | .level .sum => 4
  | .level .product => 3
  | .level .power => 2
  | .level .atom => 1
  | .loop _ => 1

theorem rank_level (lv : Lv) : rank (.level lv) ≤ 4 := by cases lv <;> simp [rank]

theorem run_short (n : Nat) (m : Mode) (s : Str) (st : Stack) (h : 6 * s.length + rank m ≤ n) :
    Short s.length (run n m s st) := by
  induction n generalizing m s st with
  | zero => exfalso; cases m with
    | level lv => cases lv <;> simp [rank] at h
    | loop lv => simp [rank] at h
  | succ n ih =>
    cases m with
    | level lv =>
      by_cases hlv : lv = .atom
      · subst hlv
        refine short_atomP ?_ st
        intro r st hr
        exact ih _ _ _ (by simp [rank] at h ⊢; omega)
      · rw [run_level hlv]
        refine short_andThen (k := s.length) (ih _ _ _ ?_) ?_
        · cases lv <;> first | exact absurd rfl hlv | (simp [rank, Lv.first] at h ⊢; omega)
        · intro r st hr
          obtain ⟨o, st', h1, h2⟩ := ih (.loop lv) r st (by
            cases lv <;> first | exact absurd rfl hlv | (simp [rank] at h ⊢; omega))
          exact ⟨o, st', h1, fun q hq => Nat.le_trans (h2 q hq) hr⟩
    | loop lv =>
      simp only [rank] at h
      unfold run
      split
      · exact short_some _ (Nat.le_refl _)
      · rename_i c r ho
        have hl := operator_length ho
        obtain ⟨o, st', h1, h2⟩ := ih (.level lv.operand) r st (by have := rank_level lv.operand; omega)
        rw [h1]
        cases o with
        | none => exact short_some _ (Nat.le_refl _)
        | some q =>
          have hq := h2 q rfl
          obtain ⟨o, st'', h3, h4⟩ := ih (.loop lv) q (st' ++ [[c]]) (by simp only [rank]; omega)
          exact ⟨o, st'', h3, fun x hx => by have := h4 x hx; omega⟩

/-- Parsing ends before the bound is reached. -/
theorem run_terminates (s : Str) : ∃ x, run (depth s) (.level .sum) s [] = some x := by
  obtain ⟨o, st, h, _⟩ := run_short (depth s) (.level .sum) s [] (by simp [depth, rank])
  exact ⟨_, h⟩

/-- What any depth finds is the result. -/
theorem run_depth {s : Str} {n : Nat} {x} (h : run n (.level .sum) s [] = some x) :
    run (depth s) (.level .sum) s [] = some x := by
  obtain ⟨y, hy⟩ := run_terminates s
  rcases Nat.le_total n (depth s) with hk | hk
  · exact run_mono hk _ _ _ _ h
  · have := run_mono hk _ _ _ _ hy
    rw [h] at this
    rw [hy, ← this]

end SC.Expression
