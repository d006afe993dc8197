import Verif.Expression.Props
/-! # C33: consequences, deviations and concrete cases -/
namespace SC.Expression

variable {V P : Type}

/-- C33: with up to three fixed placeholders (and the target `{}`) the calculated value is the value
of the formula, the target standing for the data and every other placeholder for its own dataset,
in whatever order the set of names is iterated. -/
theorem calculate_spec_partial (A : Alg V) (signals : List (Str × P)) (sibling : Str → P) (read : P → V)
    {t : Form} {s w : Str} (h : Writes braces .sum t s) (hw : Blank w)
    (hp : ∀ n ∈ t.vars, Placeholder n) (hk : t.Known) (hs : t.Separate)
    {varnames : List Str} (hnd : varnames.Nodup) (hset : ∀ n, n ∈ varnames ↔ n ∈ findall (s ++ w))
    (h0 : [] ∈ t.vars) (h1 : ∃ n ∈ t.vars, n ≠ []) (hlen : varnames.length ≤ 4)
    (data : V) (env : Str → Option V) (henv0 : env [] = some data)
    (henv : ∀ n ∈ t.vars, n ≠ [] → ∀ p, Stands signals sibling n p → env n = some (read p)) :
    calculate A signals sibling read (s ++ w) varnames data = denote A env t := by
  rw [calculate_values A signals sibling read h hw hp hk hs hnd hset h0 h1 (by omega) data env henv0 henv]
  apply denote_congr
  intro n _
  unfold values
  rw [if_neg]
  rw [findall_spec h hw hp] at hset
  have : (varnames.erase []).length ≤ 3 := by
    rw [List.length_erase_of_mem ((hset []).2 h0)]; omega
  rw [List.getElem?_eq_none this]
  simp

/-- C33, deviation: with four or more fixed placeholders (up to 298) there is one whose dataset is
not used: it is taken for Euler's number, because its new name is `e`. -/
theorem fourth_placeholder {t : Form} {s w : Str} (h : Writes braces .sum t s) (hw : Blank w)
    (hp : ∀ n ∈ t.vars, Placeholder n) (hk : t.Known) (hs : t.Separate)
    {varnames : List Str} (hnd : varnames.Nodup) (hset : ∀ n, n ∈ varnames ↔ n ∈ findall (s ++ w))
    (h0 : [] ∈ t.vars) (hlen : 5 ≤ varnames.length) (hlen' : varnames.length ≤ 299) :
    ∃ n ∈ t.vars, n ≠ [] ∧ ∀ (A : Alg V) (signals : List (Str × P)) (sibling : Str → P) (read : P → V)
      (data : V) (env : Str → Option V), env [] = some data →
      (∀ n ∈ t.vars, n ≠ [] → ∀ p, Stands signals sibling n p → env n = some (read p)) →
      calculate A signals sibling read (s ++ w) varnames data =
        denote A (fun m => if m = n then some A.e else env m) t := by
  have hset' := hset
  rw [findall_spec h hw hp] at hset'
  have hl : (varnames.erase []).length = varnames.length - 1 :=
    List.length_erase_of_mem ((hset' []).2 h0)
  have h3 : 3 < (varnames.erase []).length := by omega
  have hmem : (varnames.erase [])[3] ∈ varnames.erase [] := List.getElem_mem h3
  have hne : (varnames.erase [])[3] ≠ [] := fun e => hnd.not_mem_erase (e ▸ hmem)
  have hv : (varnames.erase [])[3] ∈ t.vars := (hset' _).1 (List.mem_of_mem_erase hmem)
  refine ⟨_, hv, hne, ?_⟩
  intro A signals sibling read data env henv0 henv
  rw [calculate_values A signals sibling read h hw hp hk hs hnd hset h0 ⟨_, hv, hne⟩ hlen' data env henv0 henv]
  apply denote_congr
  intro m _
  unfold values
  rw [List.getElem?_eq_getElem h3]
  simp only [Option.some.injEq]
  by_cases hm : m = (varnames.erase [])[3]
  · rw [if_pos hm, if_pos hm.symm]
  · rw [if_neg hm, if_neg (Ne.symm hm)]

/-- C33, deviation: a formula of the target alone is not evaluated at all: the data is returned
unchanged. -/
theorem target_alone (A : Alg V) (signals : List (Str × P)) (sibling : Str → P) (read : P → V)
    (s : Str) (data : V) : calculate A signals sibling read s [[]] data = some data := by
  simp [calculate, parseExpression, renameLoop, prepareVariables, processData]

/-- C33: a formula without target is refused. -/
theorem no_target (A : Alg V) (signals : List (Str × P)) (sibling : Str → P) (read : P → V)
    {t : Form} {s w : Str} (h : Writes braces .sum t s) (hw : Blank w)
    (hp : ∀ n ∈ t.vars, Placeholder n) {varnames : List Str}
    (hset : ∀ n, n ∈ varnames ↔ n ∈ findall (s ++ w)) (h0 : [] ∉ t.vars) (data : V) :
    calculate A signals sibling read (s ++ w) varnames data = none := by
  rw [findall_spec h hw hp] at hset
  have : [] ∉ varnames := fun hc => h0 ((hset []).1 hc)
  simp [calculate, parseExpression, this]

/-! ## Deviations of the evaluation -/

/-- C33, deviation: missing values replaced in one operand are replaced in the other one as well.
The difference between a variable and its replacement is the difference of the replacement with
itself, whichever comes first. -/
theorem replaced_everywhere (A : Alg V) (n : Str) (hn : Free n) (σ : Store V) (v w : V) (hv : σ n = some v)
    (hw : A.fill true v = some w) (o : Char) (ho : o ∈ ['+', '-', '*', '/', '^']) :
    evaluate A (code (.bin o (.var n) (.call nanone (.var n)))) σ = A.bin o w w ∧
    evaluate A (code (.bin o (.call nanone (.var n)) (.var n))) σ = A.bin o w w := by
  obtain ⟨h1, h2, h3⟩ := var_token ⟨hn.1, hn.2.1⟩
  obtain ⟨_, _, h4, h5, h6⟩ := hn
  obtain ⟨h7, h8⟩ := op_token ho
  have evar : ∀ k rest (τ : Store V) u, τ n = some u → evalN A (k + 1) (n :: rest) τ = some (.ref n, rest, τ) := by
    intro k rest τ u hu
    simp only [evalN]
    rw [if_neg h1, if_neg (by simp [h2]), if_neg h5, if_neg h4, if_neg h6, if_pos h3, hu]
  have efill : ∀ k rest, evalN A (k + 2) (nanone :: n :: rest) σ = some (.ref n, rest, σ.set n w) := by
    intro k rest
    obtain ⟨g1, g2, g3, g4⟩ := fn_token (f := nanone) (by decide)
    rw [evalN]
    rw [if_neg g1, if_neg (by simp [g2]), if_neg g3, if_neg g4, if_pos (by decide), evar k rest σ v hv]
    simp [applyFn, fnNan, Obj.get, hv, hw]
  have hset : (σ.set n w) n = some w := by simp [Store.set]
  constructor
  · simp only [evaluate, code, List.cons_append, List.nil_append, List.reverse_cons, List.reverse_nil,
      List.length_cons, List.length_nil]
    rw [evalN, if_neg h7, if_pos h8, efill 2]
    simp only
    rw [evar 3 _ _ w hset]
    simp only [Obj.get, hset, Option.bind_some, opn]
    cases A.bin o w w <;> rfl
  · simp only [evaluate, code, List.cons_append, List.nil_append, List.reverse_cons, List.reverse_nil,
      List.length_cons, List.length_nil]
    rw [evalN, if_neg h7, if_pos h8, evar 3 _ σ v hv]
    simp only
    rw [efill 2]
    simp only [Obj.get, hset, Option.bind_some, opn]
    cases A.bin o w w <;> rfl

/-- C33, deviation: an unknown function is no error.  It evaluates to zero and leaves its argument
behind as the next operand: the sum of `a` and an unknown function of `b` evaluates to the sum of
`b` and zero. -/
theorem unknown_function (A : Alg V) {f : Str} (hf : Ident f) (hc : ¬ StartsWithConstant f)
    (hfn : f ∉ fnNames) (σ : Store V) (hσ : σ f = none) {a b : Form} {sa sb : Str}
    (ha : Writes varText .sum a sa) (hb : Writes varText .sum b sb) (hbk : b.Known) (hbs : b.Separate)
    (hav : ∀ n ∈ a.vars, Letters n) (hbv : ∀ n ∈ b.vars, Free n) (hbσ : ∀ n ∈ b.vars, (σ n).isSome) :
    eval A (f ++ '(' :: sb ++ [')']) σ = some A.zero ∧
    eval A (sa ++ '+' :: f ++ '(' :: sb ++ [')']) σ = (denote A σ b).bind fun v => A.bin '+' v A.zero := by
  have hcall : Writes varText .prim (.call f b) (f ++ '(' :: (sb ++ [')'])) := by
    simpa using Writes.call (wr := varText) (w := []) (w' := []) (w'' := []) (by simp [Blank]) hf hc
      (by simp [Blank]) hb (by simp [Blank])
  have hprod := Writes.factor (Writes.base (Writes.unsigned hcall))
  have hsum := Writes.sum ha (w := []) (by simp [Blank]) (o := '+') (Or.inl rfl) hprod
  have hbl : ∀ n ∈ b.vars, Letters n := fun n hn => ⟨(hbv n hn).1, (hbv n hn).2.1⟩
  have c1 : compile (f ++ '(' :: sb ++ [')']) = some (code b ++ [f]) := by
    have := compile_writes (Writes.term hprod) hbl (w := []) (by simp [Blank])
    simpa [code] using this
  have c2 : compile (sa ++ '+' :: f ++ '(' :: sb ++ [')']) = some (code a ++ (code b ++ [f]) ++ [['+']]) := by
    have := compile_writes hsum (by
      intro n hn
      simp only [Form.vars, List.mem_append] at hn
      rcases hn with hn | hn
      · exact hav n hn
      · exact hbl n hn) (w := []) (by simp [Blank])
    simpa [code] using this
  obtain ⟨c, s, rfl, hcα, hs⟩ := hf
  have hff : ∀ k rest, evalN A (k + 1) ((c :: s) :: rest) σ = some (.val A.zero, rest, σ) := by
    intro k rest
    have h1 : c :: s ≠ uminus := by
      intro e
      unfold uminus at e
      obtain ⟨rfl, rfl⟩ := List.cons.inj e
      rcases hs ' ' (by simp) with h | h | h | h <;> exact absurd h (by decide)
    have h2 := inOps_cons (s := s) (alpha_not_op hcα)
    have h3 : (c :: s).map Char.toUpper ≠ ['P', 'I'] := by
      intro e
      obtain ⟨d, l, e1, e2, e3⟩ := List.map_eq_cons_iff.1 e
      obtain ⟨d', rfl, e4⟩ := List.map_eq_singleton_iff.1 e3
      rcases toUpper_P e2 with rfl | rfl <;> rcases toUpper_I e4 with rfl | rfl <;>
        exact hc ⟨[], by simp [e1]⟩
    have h4 : (c :: s).map Char.toUpper ≠ ['E'] := by
      intro e
      obtain ⟨d, e1, e2⟩ := List.map_eq_singleton_iff.1 e
      rcases toUpper_E e2 with rfl | rfl <;> exact hc ⟨[], by simp [e1]⟩
    rw [evalN, if_neg h1, if_neg (by simp [h2]), if_neg h3, if_neg h4, if_neg hfn, if_pos (by simp [hcα]), hσ]
  constructor
  · unfold eval
    rw [c1]
    simp only [Option.bind_some, evaluate, List.reverse_append, List.reverse_cons,
      List.reverse_nil, List.nil_append, List.cons_append, hff, Obj.get]
  · unfold eval
    rw [c2]
    simp only [Option.bind_some, evaluate, List.reverse_append, List.reverse_cons,
      List.reverse_nil, List.nil_append, List.cons_append, List.append_assoc]
    have hev := evalN_spec A b hbk hbs (fun n hn => ⟨hbl n hn, (hbv n hn).2.2.2.2⟩) σ hbσ
      ((code a ++ (code b ++ [c :: s, ['+']])).length) (by simp; omega) (code a).reverse
    simp only [Evaluates] at hev
    rw [denote_congr A b fun n hn => look_free A σ (hbv n hn)] at hev
    rw [evalN, if_neg (by decide), if_pos (by decide)]
    obtain ⟨k, hk⟩ : ∃ k, (code a ++ (code b ++ [c :: s, ['+']])).length = k + 1 :=
      ⟨(code a).length + (code b).length + 1, by simp; omega⟩
    rw [hk] at hev ⊢
    rw [hff]
    simp only
    revert hev
    cases denote A σ b with
    | none => intro h; simp only at h; rw [h]; rfl
    | some v =>
      rintro ⟨o, σ', h1, h2, _⟩
      rw [h1]
      have h0 : (Obj.val A.zero).get σ' = some A.zero := rfl
      simp only [h2, h0, Option.bind_some, opn]
      cases A.bin '+' v A.zero <;> rfl

/-- C33, deviation from the usual convention: the sign binds more strongly than the power, so that
minus the square of `a` is evaluated as the square of minus `a`. -/
theorem sign_before_power (A : Alg V) {a b : Form} {sa sb : Str} (ha : Writes varText .prim a sa)
    (hb : Writes varText .power b sb) (hka : a.Known) (hkb : b.Known)
    (hs : (Form.bin '^' a b).Separate) (hv : ∀ n ∈ a.vars ++ b.vars, Free n) (σ : Store V)
    (hσ : ∀ n ∈ a.vars ++ b.vars, (σ n).isSome) :
    eval A ('-' :: sa ++ '^' :: sb) σ =
      ((denote A σ a).bind A.neg).bind fun v => (denote A σ b).bind fun w => A.bin '^' v w := by
  have hm : Writes varText .signed (.neg a) ([] ++ '-' :: sa) := Writes.minus (by simp [Blank]) ha
  have hp := Writes.term (Writes.factor (Writes.power hm (w := []) (by simp [Blank]) hb))
  have := eval_spec A hp (w := []) (by simp [Blank]) ⟨by decide, hka, hkb⟩
    ⟨hs.1, hs.2.1, hs.2.2.1, hs.2.2.2⟩ hv σ hσ
  simpa [denote] using this

/-! ## Concrete cases -/

/-- Integers with a missing value. -/
def ints : Alg (Option Int) where
  neg v := some (v.map (- ·))
  bin o v w := match o with
    | '+' => some (v.bind fun a => w.map fun b => a + b)
    | '-' => some (v.bind fun a => w.map fun b => a - b)
    | '*' => some (v.bind fun a => w.map fun b => a * b)
    | '^' => some (v.bind fun a => w.map fun b => a ^ b.toNat)
    | _ => none
  fn f v := if f = ['a', 'b', 's'] then some (v.map fun a => (a.natAbs : Int)) else none
  fill one v := some (some (v.getD (if one then 1 else 0)))
  pi := some 3
  e := some 2
  zero := some 0
  number s := some (some (s.foldl (fun k c => 10 * k + ((c.toNat : Int) - 48)) 0))

theorem blank_nil : Blank [] := by simp [Blank]

def lit (s : Str) : Form := .num { int := s }

theorem writes_lit {wr : Str → Str} {s : Str} (h : Digits s) : Writes wr .prim (lit s) s := by
  have : ({ int := s } : Lexeme).Ok := ⟨by simp, h, by simp, by simp⟩
  simpa [Lexeme.written, fracText, expText, lit] using
    Writes.num (wr := wr) (w := []) (l := { int := s }) blank_nil this rfl

theorem writes_var {wr : Str → Str} (n : Str) : Writes wr .prim (.var n) (wr n) := by
  simpa using Writes.var (wr := wr) (w := []) (n := n) blank_nil

/-- The formula `{} - nanone({x}) ^ 2`. -/
def sample : Form := .bin '-' (.var []) (.bin '^' (.call nanone (.var ['x'])) (lit ['2']))

theorem writes_sample : Writes braces .sum sample "{} - nanone({x})^2".toList := by
  have hcall : Writes braces .prim (.call nanone (.var ['x'])) ([' '] ++ (nanone ++ ([] ++ '(' :: (braces ['x'] ++ ([] ++ [')']))))) :=
    .call (by simp [Blank]) ⟨'n', _, rfl, rfl, by decide⟩ (by rintro ⟨s, h⟩; simp [nanone] at h) blank_nil
      (.term (.factor (.base (.unsigned (writes_var _))))) blank_nil
  have hpow := Writes.factor (Writes.power (Writes.unsigned hcall) blank_nil
    (.base (.unsigned (writes_lit (wr := braces) (s := ['2']) ⟨by simp, by decide⟩))))
  exact Writes.sum (wr := braces) (w := [' ']) (.term (.factor (.base (.unsigned (writes_var []))))) (by simp [Blank])
    (o := '-') (Or.inr rfl) hpow

/-- The hypotheses of `calculate_spec_partial` are met by `{} - nanone({x})^2`: a missing `x` counts as 1. -/
example : calculate ints [(['x'], (0 : Nat)), (['y'], 1)] (fun _ => 2)
    (fun p => if p = 0 then none else some 5) "{} - nanone({x})^2".toList [['x'], []] (some 7) = some (some 6) := by
  have h := calculate_spec_partial ints [(['x'], (0 : Nat)), (['y'], 1)] (fun _ => 2)
    (fun p => if p = 0 then none else some 5) writes_sample blank_nil
    (by intro n hn; simp [sample, Form.vars, lit] at hn; rcases hn with rfl | rfl <;> simp [Placeholder])
    (by
      refine ⟨by decide, trivial, by decide, ⟨by decide, trivial⟩, ?_⟩
      exact ⟨by simp, ⟨by simp, by decide⟩, by simp, by simp⟩)
    (by
      refine ⟨trivial, ⟨trivial, trivial, by simp [lit, Form.replaced], ?_⟩, ?_, by simp [Form.replaced]⟩
      · intro n _; simp [lit, Form.vars]
      · intro n hn; simp [Form.replaced, lit, Form.array] at hn; simp [Form.vars, hn])
    (varnames := [['x'], []]) (by decide)
    (by rw [findall_spec writes_sample blank_nil (by
          intro n hn; simp [sample, Form.vars, lit] at hn; rcases hn with rfl | rfl <;> simp [Placeholder])]
        intro n; simp [sample, Form.vars, lit]; tauto)
    (by simp [sample, Form.vars]) ⟨['x'], by simp [sample, Form.vars], by simp⟩ (by simp) (some 7)
    (fun n => if n = [] then some (some 7) else some none) rfl
    (by
      intro n hn hn0 p hp
      simp [sample, Form.vars, lit] at hn
      rcases hn with rfl | rfl
      · exact absurd rfl hn0
      · rw [stands_iff] at hp
        rw [hp]; rfl)
  rw [List.append_nil] at h
  rw [h]
  decide

/-- Running the model on texts: precedence, grouping, signs, constants, white space, exponents. -/
example : eval ints "2 + 3*4^2 - (7 - 1)".toList (fun _ => none) = some (some 44) := by decide +kernel
example : eval ints "2^3^2".toList (fun _ => none) = some (some 512) := by decide +kernel
example : eval ints "10-2-3".toList (fun _ => none) = some (some 5) := by decide +kernel
example : eval ints " abs( - var_b ) * PI".toList (fun n => if n = ['b'] then some (some 4) else none) =
    some (some 12) := by decide +kernel
example : compile "2 3".toList = none := by decide +kernel
example : compile "(2".toList = none := by decide +kernel
example : compile "2+".toList = none := by decide +kernel
example : compile "1.5e-3".toList = some ["1.5E-3".toList] := by decide +kernel
example : eval ints "-2^2".toList (fun _ => none) = some (some 4) := by decide +kernel
example : eval ints "2+foo(3)".toList (fun _ => none) = some (some 3) := by decide +kernel

/-- Four fixed placeholders, all zero: the sum is not zero. -/
example : eval ints "var_a+var_b+var_c+var_d+var_e".toList (fun _ => some (some 0)) = some (some 2) := by
  decide +kernel

/-- A missing value minus its replacement by one. -/
example : eval ints "var_b-nanone(var_b)".toList (fun _ => some none) = some (some 0) ∧
    denote ints (fun _ => some none) (.bin '-' (.var ['b']) (.call nanone (.var ['b']))) = some none := by
  decide +kernel

end SC.Expression
