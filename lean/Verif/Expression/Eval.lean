import Verif.Expression.Parse
/-! # Evaluating the postfix form gives the value of the formula -/
namespace SC.Expression

variable {V : Type}

theorem denote_congr (A : Alg V) {σ τ : Str → Option V} (t : Form) (h : ∀ n ∈ t.vars, σ n = τ n) :
    denote A σ t = denote A τ t := by
  induction t with
  | num l => rfl
  | pi => rfl
  | euler => rfl
  | var n => exact h n (by simp [Form.vars])
  | call f x ih => simp only [denote]; rw [ih h]
  | neg x ih => simp only [denote]; rw [ih h]
  | bin o a b iha ihb =>
    simp only [denote]
    rw [iha fun n hn => h n (by simp [Form.vars, hn]), ihb fun n hn => h n (by simp [Form.vars, hn])]

theorem array_mem_vars (t : Form) {m : Str} (h : t.array = some m) : m ∈ t.vars := by
  induction t with
  | var n => simp only [Form.array, Option.some.injEq] at h; simp [Form.vars, h]
  | call f x ih =>
    simp only [Form.array] at h
    split at h
    · exact ih h
    · exact absurd h (by simp)
  | _ => simp [Form.array] at h

theorem inOps_cons {c : Char} {s : Str} (h : c ∉ ['+', '-', '*', '/', '^']) : inOps (c :: s) = false := by
  simp only [List.mem_cons, List.not_mem_nil, or_false, not_or] at h
  obtain ⟨h1, h2, h3, h4, h5⟩ := h
  simp [inOps, substring, List.isPrefixOf, h1, h2, h3, h4, h5]

theorem inOps_cons_cons {c d : Char} {s : Str} (h : d ∉ ['+', '-', '*', '/', '^']) :
    inOps (c :: d :: s) = false := by
  simp only [List.mem_cons, List.not_mem_nil, or_false, not_or] at h
  obtain ⟨h1, h2, h3, h4, h5⟩ := h
  simp [inOps, substring, List.isPrefixOf, h2, h3, h4, h5]

theorem alpha_not_op {c : Char} (h : c.isAlpha = true) : c ∉ ['+', '-', '*', '/', '^'] := by
  intro hc
  simp only [List.mem_cons, List.not_mem_nil, or_false] at hc
  rcases hc with rfl | rfl | rfl | rfl | rfl <;> exact absurd h (by decide)

theorem digit_not_op {c : Char} (h : c.isDigit = true) : c ∉ ['+', '-', '*', '/', '^'] := by
  intro hc
  simp only [List.mem_cons, List.not_mem_nil, or_false] at hc
  rcases hc with rfl | rfl | rfl | rfl | rfl <;> exact absurd h (by decide)

theorem digit_not_alpha {c : Char} (h : c.isDigit = true) : c.isAlpha = false := by
  by_contra hc
  rw [Bool.not_eq_false] at hc
  have := (alpha_facts hc).2.1
  rw [isSignNum_digit h] at this
  exact absurd this (by simp)

/-- The text of a number is none of the other tokens. -/
theorem number_token {l : Lexeme} (hl : l.Ok) :
    l.text ≠ uminus ∧ inOps l.text = false ∧ l.text.map Char.toUpper ≠ ['P', 'I'] ∧
      l.text.map Char.toUpper ≠ ['E'] ∧ l.text ∉ fnNames ∧ l.text.head?.map Char.isAlpha ≠ some true := by
  have key : ∃ c s, l.text = c :: s ∧ inOps (c :: s) = false ∧ c.isAlpha = false ∧ c.toUpper ≠ 'P' ∧
      c.toUpper ≠ 'E' := by
    unfold Lexeme.text
    match hi : l.int, hl.int with
    | d :: i, hd =>
      have hdd := hd.2 d (by simp)
      cases hs : l.sign with
      | none =>
        have := digit_facts hdd
        exact ⟨d, _, by simp; rfl, inOps_cons (digit_not_op hdd), digit_not_alpha hdd, this.2.2.2.2,
          this.2.2.2.1⟩
      | some c =>
        refine ⟨c, _, by simp; rfl, inOps_cons_cons (digit_not_op hdd), ?_⟩
        rcases hl.sign c hs with rfl | rfl <;> decide
  obtain ⟨c, s, e, h1, h2, h3, h4⟩ := key
  rw [e]
  have hne : ∀ d q, d.isAlpha = true → c :: s ≠ d :: q := by
    rintro d q hd h
    rw [(List.cons.inj h).1, hd] at h2
    exact absurd h2 (by simp)
  refine ⟨hne _ _ rfl, h1, by simp [h3], by simp [h4], ?_, by simp [h2]⟩
  intro hm
  simp only [fnNames, nanone, nanzero, List.mem_cons, List.not_mem_nil, or_false] at hm
  rcases hm with h | h | h | h | h | h | h | h | h | h | h | h | h | h | h <;> exact hne _ _ rfl h

theorem fn_token {f : Str} (h : f ∈ fnNames) :
    f ≠ uminus ∧ inOps f = false ∧ f.map Char.toUpper ≠ ['P', 'I'] ∧ f.map Char.toUpper ≠ ['E'] := by
  revert f; decide

theorem var_token {n : Str} (h : Letters n) :
    n ≠ uminus ∧ inOps n = false ∧ n.head?.map Char.isAlpha = some true := by
  obtain ⟨h0, h1⟩ := h
  match n, h0 with
  | c :: n, _ =>
    have hc := h1 c (by simp)
    refine ⟨?_, inOps_cons (alpha_not_op hc), by simp [hc]⟩
    intro h
    have := h1 ' ' (by rw [h]; decide)
    exact absurd this (by decide)

theorem op_token {o : Char} (h : o ∈ ['+', '-', '*', '/', '^']) : [o] ≠ uminus ∧ inOps [o] = true := by
  revert o; decide

theorem applyFn_spec (A : Alg V) (f : Str) (x : Obj V) (σ : Store V) {v : V} (hv : x.get σ = some v) :
    match fnValue A f v with
    | none => applyFn A f x σ = none
    | some w => ∃ y σ', applyFn A f x σ = some (y, σ') ∧ y.get σ' = some w ∧
        (∀ m, (σ m).isSome → (σ' m).isSome) ∧
        (∀ m, σ' m ≠ σ m → x = .ref m ∧ (f = nanone ∨ f = nanzero)) ∧
        (∀ m, y = .ref m → x = .ref m ∧ (f = nanone ∨ f = nanzero)) := by
  have fill : ∀ one, match A.fill one v with
      | none => fnNan A one x σ = none
      | some w => ∃ y σ', fnNan A one x σ = some (y, σ') ∧ y.get σ' = some w ∧
        (∀ m, (σ m).isSome → (σ' m).isSome) ∧ (∀ m, σ' m ≠ σ m → x = .ref m) ∧
        (∀ m, y = .ref m → x = .ref m) := by
    intro one
    cases hw : A.fill one v with
    | none => simp [fnNan, hv, hw]
    | some w =>
      cases x with
      | ref n =>
        refine ⟨.ref n, σ.set n w, by simp [fnNan, hv, hw], by simp [Obj.get, Store.set], ?_, ?_, ?_⟩
        · intro m hm
          simp only [Store.set]; split <;> simp [hm]
        · intro m hm
          simp only [Store.set] at hm
          split at hm
          · rename_i h; rw [h]
          · exact absurd rfl hm
        · intro m hm; exact hm
      | val u => exact ⟨.val w, σ, by simp [fnNan, hv, hw], rfl, fun _ h => h, fun m h => absurd rfl h,
          fun m h => by simp at h⟩
  unfold fnValue applyFn
  by_cases h1 : f = nanone
  · rw [if_pos h1, if_pos h1]
    have := fill true
    revert this
    cases A.fill true v with
    | none => exact fun h => h
    | some w =>
      rintro ⟨y, σ', a, b, c, d, e⟩
      exact ⟨y, σ', a, b, c, fun m hm => ⟨d m hm, Or.inl h1⟩, fun m hm => ⟨e m hm, Or.inl h1⟩⟩
  · rw [if_neg h1, if_neg h1]
    by_cases h2 : f = nanzero
    · rw [if_pos h2, if_pos h2]
      have := fill false
      revert this
      cases A.fill false v with
      | none => exact fun h => h
      | some w =>
        rintro ⟨y, σ', a, b, c, d, e⟩
        exact ⟨y, σ', a, b, c, fun m hm => ⟨d m hm, Or.inr h2⟩, fun m hm => ⟨e m hm, Or.inr h2⟩⟩
    · rw [if_neg h2, if_neg h2, hv]
      cases hw : A.fn f v with
      | none => simp [hw]
      | some w =>
        exact ⟨.val w, σ, by simp [hw], rfl, fun _ h => h, fun m h => absurd rfl h, fun m h => by simp at h⟩

/-- What a variable name stands for: the constants come first. -/
def look (A : Alg V) (σ : Str → Option V) (n : Str) : Option V :=
  if n.map Char.toUpper = ['P', 'I'] then some A.pi
  else if n.map Char.toUpper = ['E'] then some A.e
  else σ n

theorem look_congr (A : Alg V) {σ τ : Str → Option V} {n : Str} (h : σ n = τ n) :
    look A σ n = look A τ n := by
  unfold look; rw [h]

/-- What evaluating the postfix form of `t` means. -/
def Evaluates (A : Alg V) (t : Form) (σ : Store V) (n : Nat) (rest : Stack) : Prop :=
  match denote A (look A σ) t with
  | none => evalN A n ((code t).reverse ++ rest) σ = none
  | some v => ∃ o σ', evalN A n ((code t).reverse ++ rest) σ = some (o, rest, σ') ∧ o.get σ' = some v ∧
      (∀ m, m ∉ t.replaced → σ' m = σ m) ∧ (∀ m, (σ m).isSome → (σ' m).isSome) ∧
      (∀ m, o = .ref m → t.array = some m)

theorem evalN_spec (A : Alg V) (t : Form) (hk : t.Known) (hs : t.Separate)
    (hf : ∀ n ∈ t.vars, Letters n ∧ n ∉ fnNames)
    (σ : Store V) (hσ : ∀ n ∈ t.vars, (σ n).isSome) (n : Nat) (hn : (code t).length ≤ n) (rest : Stack) :
    Evaluates A t σ n rest := by
  induction t generalizing σ n rest with
  | num l =>
    obtain ⟨n, rfl⟩ : ∃ k, n = k + 1 := ⟨n - 1, by simp [code] at hn; omega⟩
    obtain ⟨h1, h2, h3, h4, h5, h6⟩ := number_token hk
    have e : evalN A (n + 1) ((code (.num l)).reverse ++ rest) σ =
        (A.number l.text).map fun v => (.val v, rest, σ) := by
      simp [code, evalN, h1, h2, h3, h4, h5]
      intro a ha hb
      rw [ha] at h6; simp [hb] at h6
    simp only [Evaluates, denote, e]
    cases hv : A.number l.text with
    | none => simp
    | some v => exact ⟨.val v, σ, by simp, rfl, fun _ _ => rfl, fun _ h => h, by simp⟩
  | pi =>
    obtain ⟨n, rfl⟩ : ∃ k, n = k + 1 := ⟨n - 1, by simp [code] at hn; omega⟩
    exact ⟨.val A.pi, σ, by simp [code, evalN, uminus, inOps, substring, List.isPrefixOf], rfl,
      fun _ _ => rfl, fun _ h => h, by simp⟩
  | euler =>
    obtain ⟨n, rfl⟩ : ∃ k, n = k + 1 := ⟨n - 1, by simp [code] at hn; omega⟩
    exact ⟨.val A.e, σ, by simp [code, evalN, uminus, inOps, substring, List.isPrefixOf], rfl,
      fun _ _ => rfl, fun _ h => h, by simp⟩
  | var m =>
    obtain ⟨n, rfl⟩ : ∃ k, n = k + 1 := ⟨n - 1, by simp [code] at hn; omega⟩
    have hfm := hf m (by simp [Form.vars])
    obtain ⟨h1, h2, h3⟩ := var_token hfm.1
    obtain ⟨v, hv⟩ := Option.isSome_iff_exists.1 (hσ m (by simp [Form.vars]))
    have e : evalN A (n + 1) ((code (.var m)).reverse ++ rest) σ =
        if m.map Char.toUpper = ['P', 'I'] then some (.val A.pi, rest, σ)
        else if m.map Char.toUpper = ['E'] then some (.val A.e, rest, σ)
        else some (.ref m, rest, σ) := by
      simp only [code, List.reverse_cons, List.reverse_nil, List.nil_append, List.cons_append, evalN]
      rw [if_neg h1, if_neg (by simp [h2]), if_neg hfm.2, if_pos h3, hv]
    simp only [Evaluates, denote, e, look]
    by_cases c1 : m.map Char.toUpper = ['P', 'I']
    · simp only [if_pos c1]
      exact ⟨.val A.pi, σ, rfl, rfl, fun _ _ => rfl, fun _ h => h, by simp⟩
    · by_cases c2 : m.map Char.toUpper = ['E']
      · simp only [if_neg c1, if_pos c2]
        exact ⟨.val A.e, σ, rfl, rfl, fun _ _ => rfl, fun _ h => h, by simp⟩
      · simp only [if_neg c1, if_neg c2, hv]
        refine ⟨.ref m, σ, rfl, hv, fun _ _ => rfl, fun _ h => h, ?_⟩
        intro k hk; simp only [Obj.ref.injEq] at hk; simp [Form.array, hk]
  | call f x ih =>
    obtain ⟨n, rfl⟩ : ∃ k, n = k + 1 := ⟨n - 1, by simp [code] at hn; omega⟩
    obtain ⟨hfn, hkx⟩ := hk
    obtain ⟨h1, h2, h3, h4⟩ := fn_token hfn
    have e : evalN A (n + 1) ((code (.call f x)).reverse ++ rest) σ =
        match evalN A n ((code x).reverse ++ rest) σ with
        | none => none
        | some (x, s, σ) =>
          match applyFn A f x σ with
          | none => none
          | some (y, σ) => some (y, s, σ) := by
      simp only [code, List.reverse_append, List.reverse_cons, List.reverse_nil, List.nil_append,
        List.cons_append, evalN]
      rw [if_neg h1, if_neg (by simp [h2]), if_neg h3, if_neg h4, if_pos hfn]
      rfl
    have := ih hkx hs hf σ hσ n (by simp [code] at hn; omega) rest
    simp only [Evaluates, denote] at this ⊢
    rw [e]
    revert this
    cases hd : denote A (look A σ) x with
    | none =>
      intro h
      simp only [Option.bind_none]
      simp only at h
      rw [h]
    | some v =>
      rintro ⟨o, σ', h5, h6, h7, h8, h9⟩
      have ha := applyFn_spec A f o σ' h6
      rw [h5]
      simp only [Option.bind_some]
      revert ha
      cases fnValue A f v with
      | none => intro ha; simp only at ha ⊢; rw [ha]
      | some w =>
        rintro ⟨y, σ'', a, b, c, d, e'⟩
        simp only [a]
        refine ⟨y, σ'', rfl, b, ?_, fun m hm => c m (h8 m hm), ?_⟩
        · intro m hm
          by_contra hne
          have hx : m ∉ x.replaced := by
            intro hx; apply hm
            simp only [Form.replaced]; split <;> simp [hx]
          by_cases hne' : σ'' m = σ' m
          · exact hne (by rw [hne', h7 m hx])
          · obtain ⟨ho, hff⟩ := d m hne'
            apply hm
            simp only [Form.replaced, if_pos hff, h9 m ho]
            simp
        · intro m hm
          obtain ⟨ho, hff⟩ := e' m hm
          simp only [Form.array, if_pos hff]
          exact h9 m ho
  | neg x ih =>
    obtain ⟨n, rfl⟩ : ∃ k, n = k + 1 := ⟨n - 1, by simp [code] at hn; omega⟩
    have e : evalN A (n + 1) ((code (.neg x)).reverse ++ rest) σ =
        match evalN A n ((code x).reverse ++ rest) σ with
        | none => none
        | some (x, s, σ) =>
          match (x.get σ).bind A.neg with
          | none => none
          | some v => some (.val v, s, σ) := by
      simp only [code, List.reverse_append, List.reverse_cons, List.reverse_nil, List.nil_append,
        List.cons_append, evalN, if_true]
      rfl
    have := ih hk hs hf σ hσ n (by simp [code] at hn; omega) rest
    simp only [Evaluates, denote] at this ⊢
    rw [e]
    revert this
    cases hd : denote A (look A σ) x with
    | none =>
      intro h
      simp only [Option.bind_none]
      simp only at h
      rw [h]
    | some v =>
      rintro ⟨o, σ', h5, h6, h7, h8, h9⟩
      rw [h5]
      simp only [h6, Option.bind_some]
      cases A.neg v with
      | none => rfl
      | some w => exact ⟨.val w, σ', rfl, rfl, h7, h8, by simp⟩
  | bin o a b iha ihb =>
    obtain ⟨n, rfl⟩ : ∃ k, n = k + 1 := ⟨n - 1, by simp [code] at hn; omega⟩
    obtain ⟨ho, hka, hkb⟩ := hk
    obtain ⟨hsa, hsb, hba, hab⟩ := hs
    obtain ⟨h1, h2⟩ := op_token ho
    have e : evalN A (n + 1) ((code (.bin o a b)).reverse ++ rest) σ =
        match evalN A n ((code b).reverse ++ ((code a).reverse ++ rest)) σ with
        | none => none
        | some (x2, s, σ) =>
          match evalN A n s σ with
          | none => none
          | some (x1, s, σ) =>
            match (x1.get σ).bind (fun v1 => (x2.get σ).bind (fun v2 => opn A [o] v1 v2)) with
            | none => none
            | some v => some (.val v, s, σ) := by
      simp only [code, List.reverse_append, List.reverse_cons, List.reverse_nil, List.nil_append,
        List.cons_append, evalN, List.append_assoc]
      rw [if_neg h1, if_pos h2]
      rfl
    have hlen : (code a).length ≤ n ∧ (code b).length ≤ n := by
      simp [code] at hn; omega
    have hb := ihb hkb hsb (fun m hm => hf m (by simp [Form.vars, hm])) σ
      (fun m hm => hσ m (by simp [Form.vars, hm])) n hlen.2 ((code a).reverse ++ rest)
    simp only [Evaluates, denote] at hb ⊢
    rw [e]
    revert hb
    cases hdb : denote A (look A σ) b with
    | none =>
      intro h
      simp only [Option.bind_none, Option.bind_fun_none]
      simp only at h
      rw [h]
    | some v2 =>
      rintro ⟨x2, σ1, h5, h6, h7, h8, h9⟩
      rw [h5]
      have hav : ∀ m ∈ a.vars, σ1 m = σ m := fun m hm => h7 m fun hm' => hba m hm' hm
      have ha := iha hka hsa (fun m hm => hf m (by simp [Form.vars, hm])) σ1
        (fun m hm => h8 m (hσ m (by simp [Form.vars, hm]))) n hlen.1 rest
      simp only [Evaluates] at ha
      rw [denote_congr A a fun m hm => look_congr A (hav m hm)] at ha
      revert ha
      cases hda : denote A (look A σ) a with
      | none =>
        intro h
        simp only [Option.bind_none]
        simp only at h
        rw [h]
      | some v1 =>
        rintro ⟨x1, σ2, k5, k6, k7, k8, k9⟩
        have hx2 : x2.get σ2 = some v2 := by
          rw [← h6]
          cases x2 with
          | val u => rfl
          | ref m => exact k7 m fun hm => hab m hm (array_mem_vars b (h9 m rfl))
        simp only [k5, k6, hx2, Option.bind_some, opn]
        cases A.bin o v1 v2 with
        | none => rfl
        | some w =>
          refine ⟨.val w, σ2, rfl, rfl, ?_, fun m hm => k8 m (h8 m hm), by simp⟩
          intro m hm
          simp only [Form.replaced, List.mem_append, not_or] at hm
          rw [k7 m hm.1, h7 m hm.2]

theorem evaluate_code (A : Alg V) (t : Form) (hk : t.Known) (hs : t.Separate)
    (hf : ∀ n ∈ t.vars, Letters n ∧ n ∉ fnNames)
    (σ : Store V) (hσ : ∀ n ∈ t.vars, (σ n).isSome) : evaluate A (code t) σ = denote A (look A σ) t := by
  have := evalN_spec A t hk hs hf σ hσ ((code t).length + 1) (by omega) []
  simp only [Evaluates, List.append_nil] at this
  unfold evaluate
  revert this
  cases denote A (look A σ) t with
  | none => intro h; rw [h]
  | some v => rintro ⟨o, σ', h1, h2, _⟩; rw [h1]; exact h2

end SC.Expression
