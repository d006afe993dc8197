import Verif.Lazy.Model
/-! # C83: lazy functions -/
namespace SC.Lazy

variable {V A F : Type}

/-- Specification: the value of an expression for an argument. -/
def PExp.value (w : World V) (fn : F → A → V) (x : A) : PExp V F → V
  | .lit v => v
  | .fn f => fn f x
  | .bin op l r => w.bin op (l.value w fn x) (r.value w fn x)
  | .un op e => w.un op (e.value w fn x)

/-- Specification: does a function occur? -/
def PExp.hasFn : PExp V F → Bool
  | .lit _ => false
  | .fn _ => true
  | .bin _ l r => l.hasFn || r.hasFn
  | .un _ e => e.hasFn

/-- Specification: no `divmod` with a function among its operands. -/
def PExp.noDivmod : PExp V F → Bool
  | .lit _ => true
  | .fn _ => true
  | .bin op l r => l.noDivmod && r.noDivmod && (op != .divmod || !(l.hasFn || r.hasFn))
  | .un _ e => e.noDivmod

/-- Specification: no `&` or `|` of a value and a function, in this order. -/
def PExp.noPlainAnd : PExp V F → Bool
  | .lit _ => true
  | .fn _ => true
  | .bin op l r => l.noPlainAnd && r.noPlainAnd && ((op != .and && op != .or) || l.hasFn || !r.hasFn)
  | .un _ e => e.noPlainAnd

/-- Comparisons can be exchanged. -/
def World.Mirrors (w : World V) : Prop :=
  (∀ a b, w.bin .lt a b = w.bin .gt b a) ∧ (∀ a b, w.bin .le a b = w.bin .ge b a) ∧
  (∀ a b, w.bin .eq a b = w.bin .eq b a) ∧ (∀ a b, w.bin .ne a b = w.bin .ne b a)

def Obj.isLazy : Obj V A → Bool
  | .plain _ => false
  | .lazy _ _ => true

theorem binaryOp_call (w : World V) (a b : Obj V A) (op : BinOp) (s : List Char) (c : Bool) (x : A) :
    (binaryOp w a b op s c).call x = w.bin op (a.call x) (b.call x) := by
  cases a <;> cases b <;> rfl

theorem unitaryOp_call (w : World V) (a : Obj V A) (op : UnOp) (s : List Char) (c : Bool) (x : A) :
    (unitaryOp w a op s c).call x = w.un op (a.call x) := by
  cases a <;> rfl

theorem apply1_call (w : World V) (op : UnOp) (a : Obj V A) (x : A) : (apply1 w op a).call x = w.un op (a.call x) := by
  cases a with
  | plain u => rfl
  | lazy n f => cases op <;> rfl

theorem apply1_lazy (w : World V) (op : UnOp) (a : Obj V A) : (apply1 w op a).isLazy = a.isLazy := by
  cases a with
  | plain u => rfl
  | lazy n f => cases op <;> rfl

theorem apply2_lazy (w : World V) (op : BinOp) (a b o : Obj V A) (h : apply2 w op a b = .ok o) :
    o.isLazy = (a.isLazy || b.isLazy) := by
  cases a <;> cases b <;> cases op <;> simp [apply2, method, rmethod] at h <;> subst h <;> rfl

theorem apply2_call (w : World V) (hw : w.Mirrors) (op : BinOp) (a b o : Obj V A) (h : apply2 w op a b = .ok o)
    (hd : op ≠ .divmod ∨ (a.isLazy = false ∧ b.isLazy = false)) (x : A) : o.call x = w.bin op (a.call x) (b.call x) := by
  obtain ⟨h1, h2, h3, h4⟩ := hw
  cases a <;> cases b <;> cases op <;> simp [apply2, method, rmethod, Obj.isLazy] at h hd <;> subst h <;>
    first
    | rfl
    | exact (h1 _ _).symm
    | exact h1 _ _
    | exact (h2 _ _).symm
    | exact h2 _ _
    | exact h3 _ _
    | exact h4 _ _

/-- **C83.**  The result is a function exactly when a function occurs in the expression. -/
theorem build_lazy (w : World V) (env : Env V A F) (e : PExp V F) (o : Obj V A) (h : build w env e = .ok o) :
    o.isLazy = e.hasFn := by
  induction e generalizing o with
  | lit v => simp only [build, Except.ok.injEq] at h; subst h; rfl
  | fn f => simp only [build, Except.ok.injEq] at h; subst h; rfl
  | bin op l r il ir =>
    simp only [build] at h
    cases hl : build w env l with
    | error e => rw [hl] at h; simp at h
    | ok a =>
      cases hr : build w env r with
      | error e => rw [hl, hr] at h; simp at h
      | ok b =>
        rw [hl, hr] at h
        rw [apply2_lazy w op a b o h, il a hl, ir b hr]; rfl
  | un op e ie =>
    simp only [build] at h
    cases he : build w env e with
    | error e => rw [he] at h; simp at h
    | ok a =>
      rw [he] at h
      simp only [Except.ok.injEq] at h
      subst h
      rw [apply1_lazy, ie a he]; rfl

/-- **C83.**  Calling the result gives the value of the expression with every function called with the
same argument. -/
theorem build_call (w : World V) (hw : w.Mirrors) (env : Env V A F) (e : PExp V F) (o : Obj V A)
    (h : build w env e = .ok o) (hd : e.noDivmod = true) (x : A) : o.call x = e.value w env.fn x := by
  induction e generalizing o with
  | lit v => simp only [build, Except.ok.injEq] at h; subst h; rfl
  | fn f => simp only [build, Except.ok.injEq] at h; subst h; rfl
  | bin op l r il ir =>
    simp only [PExp.noDivmod, Bool.and_eq_true] at hd
    simp only [build] at h
    cases hl : build w env l with
    | error e => rw [hl] at h; simp at h
    | ok a =>
      cases hr : build w env r with
      | error e => rw [hl, hr] at h; simp at h
      | ok b =>
        rw [hl, hr] at h
        have hd' : op ≠ .divmod ∨ (a.isLazy = false ∧ b.isLazy = false) := by
          rw [build_lazy w env l a hl, build_lazy w env r b hr]
          simpa using hd.2
        rw [apply2_call w hw op a b o h hd' x, il a hl hd.1.1, ir b hr hd.1.2]; rfl
  | un op e ie =>
    simp only [build] at h
    cases he : build w env e with
    | error e => rw [he] at h; simp at h
    | ok a =>
      rw [he] at h
      simp only [Except.ok.injEq] at h
      subst h
      rw [apply1_call, ie a he hd]; rfl

/-- **C83.**  Every expression without `divmod` of a function and without `&`, `|` of a value and a function
can be built. -/
theorem build_total (w : World V) (env : Env V A F) (e : PExp V F) (h1 : e.noDivmod = true) (h2 : e.noPlainAnd = true) :
    ∃ o, build w env e = .ok o := by
  induction e with
  | lit v => exact ⟨_, rfl⟩
  | fn f => exact ⟨_, rfl⟩
  | bin op l r il ir =>
    simp only [PExp.noDivmod, PExp.noPlainAnd, Bool.and_eq_true] at h1 h2
    obtain ⟨a, ha⟩ := il h1.1.1 h2.1.1
    obtain ⟨b, hb⟩ := ir h1.1.2 h2.1.2
    have la := build_lazy w env l a ha
    have lb := build_lazy w env r b hb
    rw [← la, ← lb] at h1 h2
    simp only [build, ha, hb]
    cases a <;> cases b <;> cases op <;> simp_all [apply2, method, rmethod, Obj.isLazy]
  | un op e ie =>
    obtain ⟨a, ha⟩ := ie h1 h2
    exact ⟨apply1 w op a, by simp only [build, ha]⟩

/-- **C83 (deviation).**  `divmod(f, g)` cannot be built. -/
theorem divmod_error (w : World V) (env : Env V A F) (f : F) (e : PExp V F) (o : Obj V A) (h : build w env e = .ok o) :
    build w env (.bin .divmod (.fn f) e) = .error .attributeError := by
  simp only [build, h, apply2, method]

/-- **C83 (deviation).**  `divmod(value, f)` computes the remainder. -/
theorem divmod_value (w : World V) (env : Env V A F) (v : V) (f : F) :
    ∃ o, build w env (.bin .divmod (.lit v) (.fn f)) = .ok o ∧ ∀ x, o.call x = w.bin .mod v (env.fn f x) :=
  ⟨_, rfl, fun _ => rfl⟩

/-- **C83 (deviation).**  `value & f` and `value | f` raise, although `f & value` and `f | value` work. -/
theorem and_asymmetric (w : World V) (env : Env V A F) (v : V) (f : F) (op : BinOp) (h : op = .and ∨ op = .or) :
    build w env (.bin op (.lit v) (.fn f)) = .error .typeError ∧
    ∃ o, build w env (.bin op (.fn f) (.lit v)) = .ok o ∧ ∀ x, o.call x = w.bin op (env.fn f x) v := by
  rcases h with rfl | rfl <;> exact ⟨rfl, _, rfl, fun _ => rfl⟩

/-- **C83 (deviation).**  `not f` is false whatever `f` computes. -/
theorem not_wrong (truth : V → Bool) (n : List Char) (v : V) (h : truth v = false) :
    notObj truth (.lazy n fun _ : A => v) = false ∧ notObj truth (.plain v : Obj V A) = true := by
  simp [notObj, h]

/-! ## Names -/

/-- The expression that a name shows. -/
inductive NExp (V F : Type)
  | lit (v : V)
  | fn (f : F)
  | bin (op : BinOp) (l r : NExp V F)
  | call (l r : NExp V F)
  | un (op : UnOp) (e : NExp V F)

/-- The text of an expression with all brackets. -/
def NExp.render (w : World V) (env : Env V A F) : NExp V F → List Char
  | .lit v => w.text v
  | .fn f => env.name f
  | .bin op l r => '(' :: (l.render w env ++ symbol op ++ r.render w env ++ [')'])
  | .call l r => symbol .divmod ++ (l.render w env ++ [','] ++ r.render w env ++ [')'])
  | .un .neg e => '(' :: '-' :: (e.render w env ++ [')'])
  | .un .pos e => '(' :: '+' :: (e.render w env ++ [')'])
  | .un .abs e => ['a', 'b', 's', '('] ++ (e.render w env ++ [')'])

/-- What the expression of a name computes (`divmod` shows a remainder). -/
def NExp.value (w : World V) (fn : F → A → V) (x : A) : NExp V F → V
  | .lit v => v
  | .fn f => fn f x
  | .bin op l r => w.bin op (l.value w fn x) (r.value w fn x)
  | .call l r => w.bin .mod (l.value w fn x) (r.value w fn x)
  | .un op e => w.un op (e.value w fn x)

/-- No operator of brackets is `divmod`. -/
def NExp.Ok : NExp V F → Prop
  | .lit _ => True
  | .fn _ => True
  | .bin op l r => op ≠ .divmod ∧ l.Ok ∧ r.Ok
  | .call l r => l.Ok ∧ r.Ok
  | .un _ e => e.Ok

/-- **C83.**  The name is the text of an expression that computes what the function computes. -/
theorem build_name (w : World V) (env : Env V A F) (e : PExp V F) (o : Obj V A) (h : build w env e = .ok o) :
    ∃ n : NExp V F, n.Ok ∧ o.text w = n.render w env ∧ ∀ x, o.call x = n.value w env.fn x := by
  induction e generalizing o with
  | lit v => simp only [build, Except.ok.injEq] at h; subst h; exact ⟨.lit v, trivial, rfl, fun _ => rfl⟩
  | fn f => simp only [build, Except.ok.injEq] at h; subst h; exact ⟨.fn f, trivial, rfl, fun _ => rfl⟩
  | bin op l r il ir =>
    simp only [build] at h
    cases hl : build w env l with
    | error e => rw [hl] at h; simp at h
    | ok a =>
      cases hr : build w env r with
      | error e => rw [hl, hr] at h; simp at h
      | ok b =>
        rw [hl, hr] at h
        obtain ⟨m, m0, m1, m2⟩ := il a hl
        obtain ⟨n, n0, n1, n2⟩ := ir b hr
        have key : ∀ op', op' ≠ .divmod → ∃ k : NExp V F, k.Ok ∧
            (binaryOp w a b op' (symbol op') false).text w = k.render w env ∧
            ∀ x, (binaryOp w a b op' (symbol op') false).call x = k.value w env.fn x := by
          intro op' ho
          refine ⟨.bin op' m n, ⟨ho, m0, n0⟩, ?_, fun x => ?_⟩
          · simp [binaryOp, Obj.text, NExp.render, ← m1, ← n1]
          · rw [binaryOp_call, m2, n2]; rfl
        have key' : ∀ op', op' ≠ .divmod → ∃ k : NExp V F, k.Ok ∧
            (binaryOp w b a op' (symbol op') false).text w = k.render w env ∧
            ∀ x, (binaryOp w b a op' (symbol op') false).call x = k.value w env.fn x := by
          intro op' ho
          refine ⟨.bin op' n m, ⟨ho, n0, m0⟩, ?_, fun x => ?_⟩
          · simp [binaryOp, Obj.text, NExp.render, ← m1, ← n1]
          · rw [binaryOp_call, m2, n2]; rfl
        have keyc : ∃ k : NExp V F, k.Ok ∧
            (binaryOp w a b .mod (symbol .divmod) true).text w = k.render w env ∧
            ∀ x, (binaryOp w a b .mod (symbol .divmod) true).call x = k.value w env.fn x := by
          refine ⟨.call m n, ⟨m0, n0⟩, ?_, fun x => ?_⟩
          · simp [binaryOp, Obj.text, NExp.render, ← m1, ← n1]
          · rw [binaryOp_call, m2, n2]; rfl
        cases ha : a with
        | plain u =>
          cases hb : b with
          | plain v =>
            rw [ha, hb] at h
            simp only [apply2, Except.ok.injEq] at h
            subst h
            exact ⟨.lit _, trivial, rfl, fun _ => rfl⟩
          | lazy q g =>
            have hh : rmethod w op a b = .ok o := by rw [ha, hb] at h; rw [ha, hb]; exact h
            clear h
            cases op <;> simp only [rmethod, mirrored, Except.ok.injEq, reduceCtorEq] at hh <;> subst hh <;>
              first
              | exact key _ (by decide)
              | exact key' _ (by decide)
              | exact keyc
        | lazy p f =>
          have hh : method w op a b = .ok o := by rw [ha] at h; rw [ha]; exact h
          clear h
          cases op <;> simp only [method, Except.ok.injEq, reduceCtorEq] at hh <;> subst hh <;> exact key _ (by decide)
  | un op e ie =>
    simp only [build] at h
    cases he : build w env e with
    | error e => rw [he] at h; simp at h
    | ok a =>
      rw [he] at h
      simp only [Except.ok.injEq] at h
      subst h
      obtain ⟨m, m0, m1, m2⟩ := ie a he
      cases ha : a with
      | plain u => exact ⟨.lit _, trivial, rfl, fun _ => rfl⟩
      | lazy p f =>
        rw [ha] at m1 m2
        refine ⟨.un op m, m0, ?_, fun x => ?_⟩
        · cases op <;> simp [apply1, unitaryOp, Obj.text, NExp.render, ← m1]
        · rw [apply1_call, m2]; rfl

/-- Characters of identifiers and numbers. -/
def isWord (c : Char) : Bool := c.isAlphanum || c == '_' || c == '.'

/-- A name of a function as they are used: a word, or a word with something in brackets. -/
def IsName (s : List Char) : Prop :=
  ∃ i t, s = i ++ t ∧ i ≠ [] ∧ i.all isWord ∧
    (t = [] ∨ (∃ u, t = '(' :: (u ++ [')']) ∧ ')' ∉ u ∧ '(' ∉ u ∧ i ≠ ['a', 'b', 's'] ∧ i ≠ ['d', 'i', 'v', 'm', 'o', 'd']))

/-- What can follow an operand. -/
def Delim (r : List Char) : Prop := ∀ c t, r = c :: t → isWord c = false ∧ c ≠ '('

/-- What an operand starts with. -/
def Start (r : List Char) : Prop := ∃ c t, r = c :: t ∧ (isWord c = true ∨ c = '(')

theorem word_split {i j r s : List Char} (hi : i.all isWord) (hj : j.all isWord)
    (hr : ∀ c t, r = c :: t → isWord c = false) (hs : ∀ c t, s = c :: t → isWord c = false) (h : i ++ r = j ++ s) :
    i = j ∧ r = s := by
  induction i generalizing j with
  | nil =>
    cases j with
    | nil => exact ⟨rfl, h⟩
    | cons c j =>
      have := hr c (j ++ s) (by simpa using h)
      simp [this] at hj
  | cons c i ih =>
    cases j with
    | nil =>
      have := hs c (i ++ r) (by simpa using h.symm)
      simp [this] at hi
    | cons d j =>
      simp only [List.cons_append, List.cons.injEq] at h
      simp only [List.all_cons, Bool.and_eq_true] at hi hj
      obtain ⟨e1, e2⟩ := ih hi.2 hj.2 h.2
      exact ⟨by rw [h.1, e1], e2⟩

theorem until_split {u v r s : List Char} (hu : ')' ∉ u) (hv : ')' ∉ v) (h : u ++ ')' :: r = v ++ ')' :: s) :
    u = v ∧ r = s := by
  induction u generalizing v with
  | nil =>
    cases v with
    | nil => simpa using h
    | cons d v => simp only [List.nil_append, List.cons_append, List.cons.injEq] at h; simp [← h.1] at hv
  | cons c u ih =>
    cases v with
    | nil => simp only [List.nil_append, List.cons_append, List.cons.injEq] at h; simp [h.1] at hu
    | cons d v =>
      simp only [List.cons_append, List.cons.injEq] at h
      simp only [List.mem_cons, not_or] at hu hv
      obtain ⟨e1, e2⟩ := ih hu.2 hv.2 h.2
      exact ⟨by rw [h.1, e1], e2⟩

theorem open_notWord : isWord '(' = false := by decide

theorem name_split {a b r s : List Char} (ha : IsName a) (hb : IsName b) (hr : Delim r) (hs : Delim s)
    (h : a ++ r = b ++ s) : a = b ∧ r = s := by
  obtain ⟨i, t, rfl, hi0, hi, ht⟩ := ha
  obtain ⟨j, q, rfl, hj0, hj, hq⟩ := hb
  have f1 : ∀ c y, t ++ r = c :: y → isWord c = false := by
    intro c y hc
    rcases ht with rfl | ⟨u, rfl, _⟩
    · exact (hr c y (by simpa using hc)).1
    · simp only [List.cons_append, List.cons.injEq] at hc; rw [← hc.1]; exact open_notWord
  have f2 : ∀ c y, q ++ s = c :: y → isWord c = false := by
    intro c y hc
    rcases hq with rfl | ⟨u, rfl, _⟩
    · exact (hs c y (by simpa using hc)).1
    · simp only [List.cons_append, List.cons.injEq] at hc; rw [← hc.1]; exact open_notWord
  obtain ⟨rfl, h2⟩ := word_split hi hj f1 f2 (by simpa using h)
  rcases ht with rfl | ⟨u, rfl, hu, _⟩ <;> rcases hq with rfl | ⟨v, rfl, hv, _⟩
  · exact ⟨rfl, by simpa using h2⟩
  · exact absurd rfl (hr '(' _ (by simpa using h2)).2
  · exact absurd rfl (hs '(' _ (by simpa using h2.symm)).2
  · simp only [List.cons_append, List.append_assoc, List.nil_append, List.cons.injEq, true_and] at h2
    obtain ⟨rfl, e⟩ := until_split hu hv h2
    exact ⟨rfl, e⟩

/-- A name is not the start of a call of `abs` or `divmod`. -/
theorem name_not_call {a r k s : List Char} (ha : IsName a) (hr : Delim r) (hk : k.all isWord)
    (hk2 : k = ['a', 'b', 's'] ∨ k = ['d', 'i', 'v', 'm', 'o', 'd']) (h : a ++ r = k ++ '(' :: s) : False := by
  obtain ⟨i, t, rfl, hi0, hi, ht⟩ := ha
  have f1 : ∀ c y, t ++ r = c :: y → isWord c = false := by
    intro c y hc
    rcases ht with rfl | ⟨u, rfl, _⟩
    · exact (hr c y (by simpa using hc)).1
    · simp only [List.cons_append, List.cons.injEq] at hc; rw [← hc.1]; exact open_notWord
  obtain ⟨rfl, h2⟩ := word_split (s := '(' :: s) hi hk f1 (fun c y hc => by
    rw [← (List.cons.inj hc).1]; exact open_notWord) (by simpa using h)
  rcases ht with rfl | ⟨u, rfl, hu, _, h3, h4⟩
  · exact (hr '(' s (by simpa using h2)).2 rfl
  · rcases hk2 with e | e
    · exact h3 e
    · exact h4 e

theorem name_start {a : List Char} (ha : IsName a) (r : List Char) : ∃ c t, a ++ r = c :: t ∧ isWord c = true := by
  obtain ⟨i, t, rfl, hi0, hi, _⟩ := ha
  cases i with
  | nil => exact absurd rfl hi0
  | cons c i =>
    simp only [List.all_cons, Bool.and_eq_true] at hi
    exact ⟨c, _, rfl, hi.1⟩

/-- The atoms of names: texts of values and names of functions are names, all different. -/
structure Atoms (w : World V) (env : Env V A F) : Prop where
  text : ∀ v, IsName (w.text v)
  name : ∀ f, IsName (env.name f)
  textInj : ∀ u v, w.text u = w.text v → u = v
  nameInj : ∀ f g, env.name f = env.name g → f = g
  disjoint : ∀ v f, w.text v ≠ env.name f

theorem render_start (w : World V) (env : Env V A F) (h : Atoms w env) (n : NExp V F) (r : List Char) :
    Start (n.render w env ++ r) := by
  cases n with
  | lit v => obtain ⟨c, t, e, hc⟩ := name_start (h.text v) r; exact ⟨c, t, e, .inl hc⟩
  | fn f => obtain ⟨c, t, e, hc⟩ := name_start (h.name f) r; exact ⟨c, t, e, .inl hc⟩
  | bin op a b => exact ⟨'(', _, rfl, .inr rfl⟩
  | call a b => exact ⟨'d', _, rfl, .inl (by decide)⟩
  | un op e =>
    cases op with
    | neg => exact ⟨'(', _, rfl, .inr rfl⟩
    | pos => exact ⟨'(', _, rfl, .inr rfl⟩
    | abs => exact ⟨'a', _, rfl, .inl (by decide)⟩

theorem symbol_delim (op : BinOp) (h : op ≠ .divmod) (r : List Char) : Delim (symbol op ++ r) := by
  intro c t e
  cases op <;> simp only [symbol, List.cons_append, List.cons.injEq] at e <;> first | (exact absurd rfl h) | (rw [← e.1]; decide)

theorem delim_close (r : List Char) : Delim (')' :: r) := by
  intro c t e; simp only [List.cons.injEq] at e; rw [← e.1]; decide
theorem delim_comma (r : List Char) : Delim (',' :: r) := by
  intro c t e; simp only [List.cons.injEq] at e; rw [← e.1]; decide

theorem start_not (c : Char) (r : List Char) (h : Start (c :: r)) (h1 : isWord c = false) (h2 : c ≠ '(') : False := by
  obtain ⟨d, t, e, hd⟩ := h
  simp only [List.cons.injEq] at e
  rw [← e.1] at hd
  rcases hd with hd | hd
  · rw [h1] at hd; cases hd
  · exact h2 hd

/-- Symbols can be read off. -/
theorem symbol_split (a b : BinOp) (ha : a ≠ .divmod) (hb : b ≠ .divmod) (r s : List Char) (hr : Start r) (hs : Start s)
    (h : symbol a ++ r = symbol b ++ s) : a = b ∧ r = s := by
  cases a <;> cases b <;> simp [symbol] at h ha hb ⊢ <;>
    first
    | exact h
    | (subst h; exact (start_not _ _ hr (by decide) (by decide)).elim)
    | (subst h; exact (start_not _ _ hs (by decide) (by decide)).elim)

/-- **C83.**  Names can be read in one way only. -/
theorem render_split (w : World V) (env : Env V A F) (h : Atoms w env) (m n : NExp V F) (hm : m.Ok) (hn : n.Ok)
    (r s : List Char) (hr : Delim r) (hs : Delim s) (he : m.render w env ++ r = n.render w env ++ s) :
    m = n ∧ r = s := by
  have notOpen : ∀ {a : List Char} (ha : IsName a) (x y : List Char), a ++ x = '(' :: y → False := by
    intro a ha x y e
    obtain ⟨c, t, e', hc⟩ := name_start ha x
    rw [e, List.cons.injEq] at e'
    rw [← e'.1, open_notWord] at hc
    cases hc
  have notAbs : ∀ {a : List Char} (ha : IsName a) (x y : List Char), Delim x → a ++ x = ['a', 'b', 's', '('] ++ y → False :=
    fun ha x y hx e => name_not_call (k := ['a', 'b', 's']) ha hx (by decide) (.inl rfl) e
  have notDiv : ∀ {a : List Char} (ha : IsName a) (x y : List Char), Delim x → a ++ x = symbol .divmod ++ y → False :=
    fun ha x y hx e => name_not_call (k := ['d', 'i', 'v', 'm', 'o', 'd']) ha hx (by decide) (.inr rfl) e
  -- an operand does not start with a sign
  have notSign : ∀ (k : NExp V F) (x y : List Char) (c : Char), isWord c = false → c ≠ '(' →
      k.render w env ++ x = c :: y → False := by
    intro k x y c h1 h2 e
    have := render_start w env h k x
    rw [e] at this
    exact start_not c y this h1 h2
  have atom : ∀ {a : List Char} (ha : IsName a) (k : NExp V F) (x y : List Char), Delim x → a ++ x = k.render w env ++ y →
      (∃ v, k = .lit v) ∨ ∃ f, k = .fn f := by
    intro a ha k x y hx e
    cases k with
    | lit v => exact .inl ⟨v, rfl⟩
    | fn f => exact .inr ⟨f, rfl⟩
    | bin op l r => exact (notOpen ha x _ e).elim
    | call l r =>
      rw [NExp.render, List.append_assoc] at e
      exact (notDiv ha x _ hx e).elim
    | un op k =>
      cases op with
      | neg => exact (notOpen ha x _ e).elim
      | pos => exact (notOpen ha x _ e).elim
      | abs =>
        rw [NExp.render, List.append_assoc] at e
        exact (notAbs ha x _ hx e).elim
  induction m generalizing n r s with
  | lit u =>
    rcases atom (h.text u) n r s hr he with ⟨v, rfl⟩ | ⟨f, rfl⟩
    · obtain ⟨e, e2⟩ := name_split (h.text u) (h.text v) hr hs he
      exact ⟨by rw [h.textInj u v e], e2⟩
    · exact absurd (name_split (h.text u) (h.name f) hr hs he).1 (h.disjoint u f)
  | fn f =>
    rcases atom (h.name f) n r s hr he with ⟨v, rfl⟩ | ⟨g, rfl⟩
    · exact absurd (name_split (h.name f) (h.text v) hr hs he).1.symm (h.disjoint v f)
    · obtain ⟨e, e2⟩ := name_split (h.name f) (h.name g) hr hs he
      exact ⟨by rw [h.nameInj f g e], e2⟩
  | bin op a b ia ib =>
    obtain ⟨o1, ha, hb⟩ := hm
    cases n with
    | lit v => exact (notOpen (h.text v) s _ he.symm).elim
    | fn f => exact (notOpen (h.name f) s _ he.symm).elim
    | bin op' a' b' =>
      obtain ⟨o2, ha', hb'⟩ := hn
      simp only [NExp.render, List.cons_append, List.append_assoc, List.cons.injEq, true_and, List.nil_append] at he
      obtain ⟨rfl, e1⟩ := ia a' ha ha' _ _ (symbol_delim op o1 _) (symbol_delim op' o2 _) he
      obtain ⟨rfl, e2⟩ := symbol_split op op' o1 o2 _ _ (render_start w env h b _) (render_start w env h b' _) e1
      obtain ⟨rfl, e3⟩ := ib b' hb hb' _ _ (delim_close _) (delim_close _) e2
      exact ⟨rfl, (List.cons.inj e3).2⟩
    | call a' b' =>
      simp only [NExp.render, symbol, List.cons_append, List.cons.injEq] at he
      exact absurd he.1 (by decide)
    | un op' k =>
      cases op' with
      | neg =>
        simp only [NExp.render, List.cons_append, List.append_assoc, List.cons.injEq, true_and] at he
        exact (notSign a _ _ '-' (by decide) (by decide) he).elim
      | pos =>
        simp only [NExp.render, List.cons_append, List.append_assoc, List.cons.injEq, true_and] at he
        exact (notSign a _ _ '+' (by decide) (by decide) he).elim
      | abs =>
        simp only [NExp.render, List.cons_append, List.cons.injEq] at he
        exact absurd he.1 (by decide)
  | call a b ia ib =>
    obtain ⟨ha, hb⟩ := hm
    cases n with
    | lit v =>
      have he' := he.symm
      rw [NExp.render, NExp.render, List.append_assoc] at he'
      exact (notDiv (h.text v) s _ hs he').elim
    | fn f =>
      have he' := he.symm
      rw [NExp.render, NExp.render, List.append_assoc] at he'
      exact (notDiv (h.name f) s _ hs he').elim
    | bin op' a' b' =>
      simp only [NExp.render, symbol, List.cons_append, List.cons.injEq] at he
      exact absurd he.1 (by decide)
    | call a' b' =>
      obtain ⟨ha', hb'⟩ := hn
      simp only [NExp.render, List.append_assoc, List.cons_append, List.nil_append] at he
      have he := List.append_cancel_left he
      obtain ⟨rfl, e1⟩ := ia a' ha ha' _ _ (delim_comma _) (delim_comma _) he
      obtain ⟨rfl, e3⟩ := ib b' hb hb' _ _ (delim_close _) (delim_close _) (List.cons.inj e1).2
      exact ⟨rfl, (List.cons.inj e3).2⟩
    | un op' k =>
      cases op' <;> simp only [NExp.render, symbol, List.cons_append, List.cons.injEq] at he <;>
        exact absurd he.1 (by decide)
  | un op k ik =>
    cases n with
    | lit v =>
      have he' := he.symm
      cases op with
      | neg => exact (notOpen (h.text v) s _ he').elim
      | pos => exact (notOpen (h.text v) s _ he').elim
      | abs =>
        rw [NExp.render, NExp.render, List.append_assoc] at he'
        exact (notAbs (h.text v) s _ hs he').elim
    | fn f =>
      have he' := he.symm
      cases op with
      | neg => exact (notOpen (h.name f) s _ he').elim
      | pos => exact (notOpen (h.name f) s _ he').elim
      | abs =>
        rw [NExp.render, NExp.render, List.append_assoc] at he'
        exact (notAbs (h.name f) s _ hs he').elim
    | bin op' a' b' =>
      cases op with
      | neg =>
        simp only [NExp.render, List.cons_append, List.append_assoc, List.cons.injEq, true_and] at he
        exact (notSign a' _ _ '-' (by decide) (by decide) he.symm).elim
      | pos =>
        simp only [NExp.render, List.cons_append, List.append_assoc, List.cons.injEq, true_and] at he
        exact (notSign a' _ _ '+' (by decide) (by decide) he.symm).elim
      | abs =>
        simp only [NExp.render, List.cons_append, List.cons.injEq] at he
        exact absurd he.1 (by decide)
    | call a' b' =>
      cases op <;> simp only [NExp.render, symbol, List.cons_append, List.cons.injEq] at he <;>
        exact absurd he.1 (by decide)
    | un op' k' =>
      have hk : k.Ok := hm
      have hk' : k'.Ok := hn
      cases op <;> cases op' <;>
        simp only [NExp.render, List.cons_append, List.append_assoc, List.nil_append, List.cons.injEq, true_and] at he <;>
        first
        | (exact absurd he.1 (by decide))
        | (obtain ⟨rfl, e3⟩ := ik k' hk hk' _ _ (delim_close _) (delim_close _) he
           exact ⟨rfl, (List.cons.inj e3).2⟩)

/-- **C83.**  Two functions with the same name compute the same. -/
theorem name_determines (w : World V) (env : Env V A F) (h : Atoms w env) (d e : PExp V F) (o p : Obj V A)
    (hd : build w env d = .ok o) (he : build w env e = .ok p) (hn : o.text w = p.text w) (x : A) : o.call x = p.call x := by
  obtain ⟨m, m0, m1, m2⟩ := build_name w env d o hd
  obtain ⟨n, n0, n1, n2⟩ := build_name w env e p he
  have hnil : Delim [] := fun c t e => by cases e
  obtain ⟨rfl, _⟩ := render_split w env h m n m0 n0 [] [] hnil hnil (by rw [← m1, ← n1, hn])
  rw [m2, n2]

/-- **C83 (deviation).**  A name that shows `divmod` computes the remainder. -/
theorem divmod_name (w : World V) (env : Env V A F) (v : V) (f : F) :
    ∃ o, build w env (.bin .divmod (.lit v) (.fn f)) = .ok o ∧
      o.text w = symbol .divmod ++ w.text v ++ [','] ++ env.name f ++ [')'] ∧
      ∀ x, o.call x = w.bin .mod v (env.fn f x) :=
  ⟨_, rfl, rfl, fun _ => rfl⟩

/-- **C83 (deviation).**  Without different names (functions without `name` take the name of the Python
function, which is the same for all lambda expressions) the name does not determine what is computed. -/
theorem same_name (w : World V) (f g : A → V) (x : A) (hx : f x ≠ g x) :
    ∃ (env : Env V A Bool) (o p : Obj V A), build w env (.fn true) = .ok o ∧ build w env (.fn false) = .ok p ∧
      o.text w = p.text w ∧ o.call x ≠ p.call x :=
  ⟨⟨fun _ => "<lambda>".toList, fun b => if b then f else g⟩, _, _, rfl, rfl, rfl, by simpa [Obj.call] using hx⟩

/-! ## Cases -/

/-- Integers, with arithmetic in which comparisons give 0 or 1. -/
def intBin : BinOp → Int → Int → Int
  | .mul, a, b => a * b | .div, a, b => a / b | .floordiv, a, b => a / b | .mod, a, b => a % b
  | .divmod, a, b => 1000 * (a / b) + a % b
  | .add, a, b => a + b | .sub, a, b => a - b | .pow, a, b => a ^ b.toNat
  | .lt, a, b => if a < b then 1 else 0 | .le, a, b => if a ≤ b then 1 else 0
  | .gt, a, b => if b < a then 1 else 0 | .ge, a, b => if b ≤ a then 1 else 0
  | .eq, a, b => if a = b then 1 else 0 | .ne, a, b => if a = b then 0 else 1
  | .and, a, b => if a = 0 then 0 else b | .or, a, b => if a = 0 then b else a

def intWorld : World Int where
  bin := intBin
  un := fun o a => match o with | .neg => -a | .pos => a | .abs => a.natAbs
  text := fun a => (toString a).toList

theorem intWorld_mirrors : intWorld.Mirrors := by
  refine ⟨fun a b => rfl, fun a b => rfl, fun a b => ?_, fun a b => ?_⟩
  · show (if a = b then (1 : Int) else 0) = if b = a then 1 else 0
    by_cases h : a = b
    · subst h; rfl
    · rw [if_neg h, if_neg fun e => h e.symm]
  · show (if a = b then (0 : Int) else 1) = if b = a then 0 else 1
    by_cases h : a = b
    · subst h; rfl
    · rw [if_neg h, if_neg fun e => h e.symm]

def intEnv : Env Int Int Bool where
  name := fun b => if b then "f(x0)".toList else "g".toList
  fn := fun b x => if b then 2 * x else x + 1

/-- `3 < abs(f - 2 * g)`. -/
def exp1 : PExp Int Bool := .bin .lt (.lit 3) (.un .abs (.bin .sub (.fn true) (.bin .mul (.lit 2) (.fn false))))

example : exp1.noDivmod = true ∧ exp1.noPlainAnd = true ∧ exp1.hasFn = true := by decide

example : ∃ o, build intWorld intEnv exp1 = .ok o ∧ o.text intWorld = "(abs((f(x0)-(2*g)))>3)".toList ∧
    ∀ x, o.call x = if 3 < ((2 * x - 2 * (x + 1) : Int).natAbs : Int) then 1 else 0 :=
  ⟨_, rfl, rfl, fun _ => rfl⟩

/-- Two values as texts, two functions: all names are different. -/
def boolWorld : World Bool where
  bin := fun _ a b => a && b
  un := fun _ a => !a
  text := fun b => if b then "True".toList else "False".toList

def boolEnv : Env Bool Bool Bool where
  name := fun b => if b then "diff_el(phi,theta)".toList else "g".toList
  fn := fun b x => b == x

example : Atoms boolWorld boolEnv where
  text := fun v => ⟨_, [], (List.append_nil _).symm, by cases v <;> decide, by cases v <;> decide, .inl rfl⟩
  name := fun f => by
    cases f with
    | false => exact ⟨_, [], (List.append_nil _).symm, by decide, by decide, .inl rfl⟩
    | true => exact ⟨"diff_el".toList, "(phi,theta)".toList, by decide, by decide, by decide,
        .inr ⟨"phi,theta".toList, by decide, by decide, by decide, by decide, by decide⟩⟩
  textInj := by decide
  nameInj := by decide
  disjoint := by decide

end SC.Lazy
