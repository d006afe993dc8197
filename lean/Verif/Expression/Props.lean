import Verif.Expression.Rename
/-! # C33: the expression calculator evaluates the formula -/
namespace SC.Expression

variable {V P : Type}

/-! ## The parser and the evaluation of formulas -/

/-- C33: a text that writes a formula is compiled to the postfix form of that formula, whatever its
size and its white space. -/
theorem compile_spec {t : Form} {s w : Str} (h : Writes varText .sum t s) (hw : Blank w)
    (hv : ∀ n ∈ t.vars, n ≠ [] ∧ ∀ c ∈ n, c.isAlpha = true) : compile (s ++ w) = some (code t) :=
  compile_writes h hv hw

theorem look_free (A : Alg V) (σ : Str → Option V) {n : Str} (h : Free n) : look A σ n = σ n := by
  obtain ⟨_, _, h1, h2, _⟩ := h
  unfold look
  rw [if_neg h2, if_neg h1]

/-- C33: `MathParser.eval` gives the value of the formula (an exception when it has none), provided
the variables have values and names other than constants and functions, the functions exist, and
missing values are not replaced in one operand of a variable used in the other. -/
theorem eval_spec (A : Alg V) {t : Form} {s w : Str} (h : Writes varText .sum t s) (hw : Blank w)
    (hk : t.Known) (hs : t.Separate) (hv : ∀ n ∈ t.vars, Free n) (σ : Store V)
    (hσ : ∀ n ∈ t.vars, (σ n).isSome) : eval A (s ++ w) σ = denote A σ t := by
  unfold eval
  rw [compile_writes h (fun n hn => ⟨(hv n hn).1, (hv n hn).2.1⟩) hw]
  simp only [Option.bind_some]
  rw [evaluate_code A t hk hs (fun n hn => ⟨⟨(hv n hn).1, (hv n hn).2.1⟩, (hv n hn).2.2.2.2⟩) σ hσ]
  exact denote_congr A t fun n hn => look_free A σ (hv n hn)

/-! ## Datasets of the placeholders -/

theorem filter_single {signals : List (Str × P)} {n : Str} {x : Str × P}
    (h : signals.filter (fun x => x.1 = n) = [x]) :
    x.1 = n ∧ ∃ l r, signals = l ++ x :: r ∧ (∀ y ∈ l, y.1 ≠ n) ∧ ∀ y ∈ r, y.1 ≠ n := by
  induction signals with
  | nil => simp at h
  | cons y ys ih =>
    by_cases hy : y.1 = n
    · simp only [List.filter_cons, hy, decide_true, if_true, List.cons.injEq] at h
      obtain ⟨rfl, h⟩ := h
      refine ⟨hy, [], ys, rfl, by simp, ?_⟩
      intro z hz hzn
      have : z ∈ ys.filter (fun x => x.1 = n) := List.mem_filter.2 ⟨hz, by simp [hzn]⟩
      rw [h] at this
      simp at this
    · simp only [List.filter_cons, hy, decide_false, Bool.false_eq_true, if_false] at h
      obtain ⟨h1, l, r, rfl, h2, h3⟩ := ih h
      refine ⟨h1, y :: l, r, rfl, ?_, h3⟩
      intro z hz
      rcases List.mem_cons.1 hz with rfl | hz
      · exact hy
      · exact h2 z hz

theorem single_filter {l r : List (Str × P)} {n : Str} {p : P} (hl : ∀ y ∈ l, y.1 ≠ n)
    (hr : ∀ y ∈ r, y.1 ≠ n) : (l ++ (n, p) :: r).filter (fun x => x.1 = n) = [(n, p)] := by
  have h1 : l.filter (fun x => x.1 = n) = [] := List.filter_eq_nil_iff.2 (by simpa using hl)
  have h2 : r.filter (fun x => x.1 = n) = [] := List.filter_eq_nil_iff.2 (by simpa using hr)
  simp only [List.filter_append, List.filter_cons, h1, h2, decide_true, if_true, List.nil_append]

/-- C33: the dataset read for a placeholder is the one it stands for. -/
theorem stands_iff (signals : List (Str × P)) (sibling : Str → P) (n : Str) (p : P) :
    Stands signals sibling n p ↔ p = (varDefault signals n).getD (sibling n) := by
  constructor
  · rintro (⟨l, r, rfl, hl, hr⟩ | ⟨hno, rfl⟩)
    · unfold varDefault
      rw [single_filter hl hr]
      rfl
    · have : varDefault signals n = none := by
        unfold varDefault
        split
        · rename_i x hx
          obtain ⟨h1, l, r, h2, h3, h4⟩ := filter_single hx
          exact absurd ⟨x.2, l, r, by rw [← h1]; exact h2, h3, h4⟩ hno
        · rfl
      rw [this]; rfl
  · rintro rfl
    unfold varDefault
    split
    · rename_i x hx
      obtain ⟨h1, l, r, h2, h3, h4⟩ := filter_single hx
      left
      exact ⟨l, r, by rw [← h1]; exact h2, h3, h4⟩
    · rename_i hx
      right
      refine ⟨?_, rfl⟩
      rintro ⟨q, l, r, rfl, hl, hr⟩
      exact hx _ (single_filter hl hr)

/-! ## The variables -/

theorem foldl_set_other (read : P → V) (vars : List (Str × P)) (σ : Store V) (k : Str)
    (h : ∀ x ∈ vars, x.1 ≠ k) : (vars.foldl (fun σ x => σ.set x.1 (read x.2)) σ) k = σ k := by
  induction vars generalizing σ with
  | nil => rfl
  | cons x xs ih =>
    rw [List.foldl_cons, ih _ fun y hy => h y (by simp [hy])]
    have : k ≠ x.1 := fun e => h x (by simp) e.symm
    simp [Store.set, this]

theorem foldl_set_mem (read : P → V) (vars : List (Str × P)) (σ : Store V) {k : Str} {p : P}
    (hnd : (vars.map Prod.fst).Nodup) (h : (k, p) ∈ vars) :
    (vars.foldl (fun σ x => σ.set x.1 (read x.2)) σ) k = some (read p) := by
  induction vars generalizing σ with
  | nil => simp at h
  | cons x xs ih =>
    rw [List.foldl_cons]
    rw [List.map_cons, List.nodup_cons] at hnd
    rcases List.mem_cons.1 h with rfl | h
    · rw [foldl_set_other]
      · simp [Store.set]
      · intro y hy e
        exact hnd.1 (List.mem_map.2 ⟨y, hy, e⟩)
    · exact ih _ hnd.2 h

theorem numbered_keys (i : Nat) (names : List Str) :
    ∀ x ∈ numbered i names, ∃ k < names.length, x.2 = newName (i + k) := by
  induction names generalizing i with
  | nil => simp [numbered]
  | cons n names ih =>
    intro x hx
    rcases List.mem_cons.1 hx with rfl | hx
    · exact ⟨0, by simp, by simp⟩
    · obtain ⟨k, hk, e⟩ := ih (i + 1) x hx
      exact ⟨k + 1, by simpa using hk, by rw [e]; congr 1; omega⟩

theorem numbered_nodup (i : Nat) (names : List Str) : ((numbered i names).map Prod.snd).Nodup := by
  induction names generalizing i with
  | nil => simp [numbered]
  | cons n names ih =>
    simp only [numbered, List.map_cons, List.nodup_cons]
    refine ⟨?_, ih (i + 1)⟩
    intro h
    obtain ⟨x, hx, e⟩ := List.mem_map.1 h
    obtain ⟨k, _, e'⟩ := numbered_keys (i + 1) names x hx
    rw [e'] at e
    have := newName_injective e
    omega

theorem numbered_mem (i : Nat) (names : List Str) {n : Str} (h : n ∈ names) :
    (n, nameOf names i n) ∈ numbered i names := by
  induction names generalizing i with
  | nil => simp at h
  | cons m names ih =>
    by_cases hm : n = m
    · subst hm; simp [numbered, nameOf]
    · have hn : n ∈ names := by simpa [hm] using h
      have := ih (i + 1) hn
      have hi : (m :: names).idxOf n = names.idxOf n + 1 := List.idxOf_cons_ne _ (Ne.symm hm)
      simp only [numbered, List.mem_cons, nameOf, hi] at this ⊢
      right
      rw [show i + (names.idxOf n + 1) = i + 1 + names.idxOf n by omega]
      exact this

theorem storeOf_data (read : P → V) (data : V) (signals : List (Str × P)) (sibling : Str → P)
    (names : List Str) : storeOf read data (prepareVariables signals sibling (numbered 1 names)) ['a'] = some data := by
  unfold storeOf
  rw [foldl_set_other]
  · simp [Store.set]
  · intro x hx
    obtain ⟨y, hy, rfl⟩ := List.mem_map.1 hx
    obtain ⟨k, _, e⟩ := numbered_keys 1 names y hy
    simp only [e]
    rw [← newName_zero]
    intro h
    have := newName_injective h
    omega

theorem storeOf_name (read : P → V) (data : V) (signals : List (Str × P)) (sibling : Str → P)
    (names : List Str) {n : Str} (hn : n ∈ names) :
    storeOf read data (prepareVariables signals sibling (numbered 1 names)) (nameOf names 1 n) =
      some (read ((varDefault signals n).getD (sibling n))) := by
  unfold storeOf
  apply foldl_set_mem
  · have : (prepareVariables signals sibling (numbered 1 names)).map Prod.fst =
        (numbered 1 names).map Prod.snd := by
      simp [prepareVariables, Function.comp_def]
    rw [this]
    exact numbered_nodup 1 names
  · exact List.mem_map.2 ⟨_, numbered_mem 1 names hn, rfl⟩

/-! ## Which new names are constants or functions -/

theorem newName_lower {i : Nat} {c : Char} (h : c ∈ newName i) : c ∈ lowercase := by
  obtain ⟨s, ds, h0, h1, _⟩ := IntBase.int2base_spec lowercase '-' (by decide) i
  have e : newName i = s := by rw [newName, h0]
  rw [e] at h
  have : some c ∈ ds.map (fun i => lowercase[i]?) := by rw [← h1]; exact List.mem_map_of_mem h
  obtain ⟨d, _, hd⟩ := List.mem_map.1 this
  exact List.mem_of_getElem? hd

theorem newName_eq {i j : Nat} {f : Str} (h : newName i = f) (hf : IntBase.base2int lowercase f = .ok j) :
    i = j := by
  have := newName_value i
  rw [h, hf] at this
  simpa using this.symm

theorem newName_E {i : Nat} (h : (newName i).map Char.toUpper = ['E']) : i = 4 := by
  have : newName i = ['e'] := by
    obtain ⟨c, hn, h⟩ := List.map_eq_singleton_iff.1 h
    rcases toUpper_E h with rfl | rfl
    · have := newName_lower (i := i) (c := 'E') (by rw [hn]; simp)
      exact absurd this (by decide)
    · exact hn
  exact newName_eq this (by decide)

theorem newName_PI {i : Nat} (h : (newName i).map Char.toUpper = ['P', 'I']) : i = 398 := by
  have : newName i = ['p', 'i'] := by
    obtain ⟨c, l, hn, h1, h2⟩ := List.map_eq_cons_iff.1 h
    obtain ⟨d, rfl, h3⟩ := List.map_eq_singleton_iff.1 h2
    have hc := newName_lower (i := i) (c := c) (by rw [hn]; simp)
    have hd := newName_lower (i := i) (c := d) (by rw [hn]; simp)
    rcases toUpper_P h1 with rfl | rfl
    · exact absurd hc (by decide)
    · rcases toUpper_I h3 with rfl | rfl
      · exact absurd hd (by decide)
      · exact hn
  exact newName_eq this (by decide)

theorem newName_four : newName 4 = ['e'] := by
  simp [newName, IntBase.int2base, IntBase.emit, IntBase.loopStep, lowercase]

theorem newName_44 : newName 44 = ['b', 's'] := by
  simp [newName, IntBase.int2base, IntBase.emit, IntBase.loopStep, lowercase]

theorem newName_fn {i : Nat} (h : newName i ∈ fnNames) : 299 ≤ i := by
  simp only [fnNames, nanone, nanzero, List.mem_cons, List.not_mem_nil, or_false] at h
  rcases h with h | h | h | h | h | h | h | h | h | h | h | h | h | h | h
  · have := newName_eq (j := 12389) h (by decide); omega
  · have := newName_eq (j := 1734) h (by decide); omega
  · have := newName_eq (j := 12857) h (by decide); omega
  · have := newName_eq (j := 44) h (by decide)
    subst this
    rw [newName_44] at h
    exact absurd h (by decide)
  · have := newName_eq (j := 8995196) h (by decide); omega
  · have := newName_eq (j := 8028517) h (by decide); omega
  · have := newName_eq (j := 12337) h (by decide); omega
  · have := newName_eq (j := 8135) h (by decide); omega
  · have := newName_eq (j := 8333) h (by decide); omega
  · have := newName_eq (j := 154696182) h (by decide); omega
  · have := newName_eq (j := 4022288336) h (by decide); omega
  · have := newName_eq (j := 213629) h (by decide); omega
  · have := newName_eq (j := 144462565) h (by decide); omega
  · have := newName_eq (j := 299) h (by decide); omega
  · have := newName_eq (j := 8472423) h (by decide); omega

/-! ## The calculation of a signal -/

theorem mem_holes {ps : List Piece} {n : Str} : n ∈ holes ps ↔ Piece.hole n ∈ ps := by
  induction ps with
  | nil => simp [holes]
  | cons p ps ih => cases p <;> simp [holes, ih]

/-- The new name of every placeholder. -/
def newNames (varnames : List Str) (n : Str) : Str :=
  if n = [] then ['a'] else nameOf (varnames.erase []) 1 n

theorem parseExpression_render {ps : List Piece} (hp : ∀ p ∈ ps, p.Ok) {varnames : List Str}
    (hset : ∀ n, n ∈ varnames ↔ n ∈ holes ps) (h0 : [] ∈ holes ps) :
    parseExpression (render ps) varnames =
      some (render (ps.map (Piece.fill (fun n => varText (newNames varnames n)))),
        numbered 1 (varnames.erase [])) := by
  unfold parseExpression
  rw [if_pos ((hset []).2 h0), replace_render (by simp [Placeholder]) hp, renameLoop_render]
  · rw [List.map_map]
    congr 3
    apply List.map_congr_left
    intro p hpm
    cases p with
    | text s => rfl
    | hole n =>
      simp only [Function.comp, Piece.put, Piece.fill, newNames]
      by_cases h : n = []
      · rw [if_pos h, if_pos h]; rfl
      · have hm : n ∈ varnames := (hset n).2 (mem_holes.2 hpm)
        rw [if_neg h, if_neg h]
        simp only [Piece.assign]
        rw [if_pos ((List.mem_erase_of_ne h).2 hm)]
  · intro n hn
    have := (hset n).1 (List.mem_of_mem_erase hn)
    exact hp (.hole n) (mem_holes.1 this)
  · intro p hpm
    obtain ⟨q, hq, rfl⟩ := List.mem_map.1 hpm
    exact put_ok (letters_no_brace (n := ['a']) ⟨by simp, by decide⟩) (hp q hq)

theorem newNames_letters (varnames : List Str) (n : Str) : Letters (newNames varnames n) := by
  unfold newNames
  split
  · exact ⟨by simp, by decide⟩
  · exact newName_letters _

theorem newNames_injective {varnames : List Str} {m n : Str} (hm : m ∈ varnames)
    (he : newNames varnames m = newNames varnames n) : m = n := by
  unfold newNames at he
  by_cases hm0 : m = []
  · by_cases hn0 : n = []
    · rw [hm0, hn0]
    · rw [if_pos hm0, if_neg hn0, ← newName_zero] at he
      have := newName_injective he
      omega
  · by_cases hn0 : n = []
    · rw [if_neg hm0, if_pos hn0, ← newName_zero] at he
      have := newName_injective he
      omega
    · rw [if_neg hm0, if_neg hn0] at he
      have := newName_injective he
      have hmm : m ∈ varnames.erase [] := (List.mem_erase_of_ne hm0).2 hm
      exact (List.idxOf_inj hmm).1 (by omega)

/-- C33: the names found in a template are the variables of its formula. -/
theorem findall_spec {t : Form} {s w : Str} (h : Writes braces .sum t s) (hw : Blank w)
    (hp : ∀ n ∈ t.vars, Placeholder n) : findall (s ++ w) = t.vars := by
  obtain ⟨ps, rfl, h1, h2, _⟩ := template h hp
  have : render ps ++ w = render (ps ++ [.text w]) := by simp [render, Piece.render]
  rw [this, findall_render, holes_append, h2]
  · simp [holes]
  · intro p hp
    simp only [List.mem_append, List.mem_singleton] at hp
    rcases hp with hp | rfl
    · exact h1 p hp
    · exact blank_no_brace hw

/-- C33: renaming leaves the formula as it is, the placeholders becoming variables with distinct
names, of which the target is `a`. -/
theorem parseExpression_spec {t : Form} {s w : Str} (h : Writes braces .sum t s) (hw : Blank w)
    (hp : ∀ n ∈ t.vars, Placeholder n) {varnames : List Str} (hnd : varnames.Nodup)
    (hset : ∀ n, n ∈ varnames ↔ n ∈ t.vars) (h0 : [] ∈ t.vars) :
    ∃ (e : Str) (f : Str → Str), parseExpression (s ++ w) varnames =
        some (e ++ w, (varnames.erase []).map fun n => (n, f n)) ∧
      Writes varText .sum (t.rename f) e ∧ f [] = ['a'] ∧
      ∀ m ∈ t.vars, ∀ n ∈ t.vars, f m = f n → m = n := by
  obtain ⟨ps, rfl, h1, h2, h3⟩ := template h hp
  have hps : ∀ p ∈ ps ++ [Piece.text w], p.Ok := by
    intro p hp
    simp only [List.mem_append, List.mem_singleton] at hp
    rcases hp with hp | rfl
    · exact h1 p hp
    · exact blank_no_brace hw
  have hh : holes (ps ++ [.text w]) = t.vars := by simp [holes_append, holes, h2]
  refine ⟨_, newNames varnames, ?_, h3 (newNames varnames), rfl, ?_⟩
  · have : render ps ++ w = render (ps ++ [.text w]) := by simp [render, Piece.render]
    rw [this, parseExpression_render hps (by rw [hh]; exact hset) (by rw [hh]; exact h0)]
    congr 2
    · simp [render, Piece.render, Piece.fill]
    · have key : ∀ (i : Nat) (names : List Str), names.Nodup →
          numbered i names = names.map fun n => (n, nameOf names i n) := by
        intro i names
        induction names generalizing i with
        | nil => intro _; rfl
        | cons m names ih =>
          intro hn
          rw [List.nodup_cons] at hn
          simp only [numbered, List.map_cons, ih (i + 1) hn.2]
          congr 1
          · simp [nameOf]
          · apply List.map_congr_left
            intro n hn'
            have : n ≠ m := by rintro rfl; exact hn.1 hn'
            have hi : (m :: names).idxOf n = names.idxOf n + 1 := List.idxOf_cons_ne _ (Ne.symm this)
            simp only [nameOf, hi]
            rw [show i + 1 + names.idxOf n = i + (names.idxOf n + 1) by omega]
      rw [key 1 _ (hnd.erase _)]
      apply List.map_congr_left
      intro n hn
      have : n ≠ [] := by
        rintro rfl
        exact hnd.not_mem_erase hn
      simp [newNames, this]
  · exact fun m hm n _ => newNames_injective ((hset m).2 hm)

/-- The value of a placeholder: the fourth fixed placeholder is Euler's number. -/
def values (A : Alg V) (varnames : List Str) (env : Str → Option V) (n : Str) : Option V :=
  if (varnames.erase [])[3]? = some n then some A.e else env n

theorem calculate_values (A : Alg V) (signals : List (Str × P)) (sibling : Str → P) (read : P → V)
    {t : Form} {s w : Str} (h : Writes braces .sum t s) (hw : Blank w)
    (hp : ∀ n ∈ t.vars, Placeholder n) (hk : t.Known) (hs : t.Separate)
    {varnames : List Str} (hnd : varnames.Nodup) (hset : ∀ n, n ∈ varnames ↔ n ∈ findall (s ++ w))
    (h0 : [] ∈ t.vars) (h1 : ∃ n ∈ t.vars, n ≠ []) (hlen : varnames.length ≤ 299)
    (data : V) (env : Str → Option V) (henv0 : env [] = some data)
    (henv : ∀ n ∈ t.vars, n ≠ [] → ∀ p, Stands signals sibling n p → env n = some (read p)) :
    calculate A signals sibling read (s ++ w) varnames data = denote A (values A varnames env) t := by
  rw [findall_spec h hw hp] at hset
  obtain ⟨ps, rfl, hp1, hp2, hp3⟩ := template h hp
  have hps : ∀ p ∈ ps ++ [Piece.text w], p.Ok := by
    intro p hp
    simp only [List.mem_append, List.mem_singleton] at hp
    rcases hp with hp | rfl
    · exact hp1 p hp
    · exact blank_no_brace hw
  have hh : holes (ps ++ [.text w]) = t.vars := by simp [holes_append, holes, hp2]
  have e1 : render ps ++ w = render (ps ++ [.text w]) := by simp [render, Piece.render]
  have e2 : render ((ps ++ [Piece.text w]).map (Piece.fill (fun n => varText (newNames varnames n)))) =
      render (ps.map (Piece.fill (fun n => varText (newNames varnames n)))) ++ w := by
    simp [render, Piece.render, Piece.fill]
  unfold calculate
  rw [e1, parseExpression_render hps (by rw [hh]; exact hset) (by rw [hh]; exact h0)]
  simp only [Option.bind_some]
  obtain ⟨n1, hn1, hn1'⟩ := h1
  have hmem1 : n1 ∈ varnames.erase [] := (List.mem_erase_of_ne hn1').2 ((hset n1).2 hn1)
  have hne : prepareVariables signals sibling (numbered 1 (varnames.erase [])) ≠ [] := by
    have := numbered_mem 1 _ hmem1
    intro h
    simp only [prepareVariables, List.map_eq_nil_iff] at h
    rw [h] at this
    simp at this
  unfold processData
  rw [if_neg (by simpa using hne), e2]
  have hlen' : (varnames.erase []).length ≤ 298 := by
    rw [List.length_erase_of_mem ((hset []).2 h0)]; omega
  have hidx : ∀ n ∈ t.vars, n ≠ [] → (varnames.erase []).idxOf n < 298 ∧ n ∈ varnames.erase [] := by
    intro n hn hn'
    have hm : n ∈ varnames.erase [] := (List.mem_erase_of_ne hn').2 ((hset n).2 hn)
    have := List.idxOf_lt_length_of_mem hm
    exact ⟨by omega, hm⟩
  have hinj : ∀ m ∈ t.vars, ∀ n ∈ t.vars, newNames varnames m = newNames varnames n → m = n :=
    fun m hm n _ => newNames_injective ((hset m).2 hm)
  have hfn : ∀ n ∈ (t.rename (newNames varnames)).vars, Letters n ∧ n ∉ fnNames := by
    intro n hn
    rw [rename_vars] at hn
    obtain ⟨m, hm, rfl⟩ := List.mem_map.1 hn
    refine ⟨newNames_letters _ _, ?_⟩
    unfold newNames
    split
    · decide
    · rename_i hm0
      intro hc
      have := newName_fn hc
      have := (hidx m hm hm0).1
      omega
  have hst : ∀ n ∈ t.vars, storeOf read data (prepareVariables signals sibling (numbered 1 (varnames.erase [])))
      (newNames varnames n) = env n := by
    intro n hn
    unfold newNames
    by_cases hn0 : n = []
    · rw [if_pos hn0, storeOf_data, hn0, henv0]
    · rw [if_neg hn0, storeOf_name _ _ _ _ _ (hidx n hn hn0).2]
      exact (henv n hn hn0 _ ((stands_iff signals sibling n _).2 rfl)).symm
  have hsome : ∀ n ∈ t.vars, (env n).isSome := by
    intro n hn
    by_cases hn0 : n = []
    · rw [hn0, henv0]; rfl
    · rw [henv n hn hn0 _ ((stands_iff signals sibling n _).2 rfl)]; rfl
  unfold eval
  rw [compile_writes (hp3 (newNames varnames)) (fun n hn => (hfn n hn).1) hw]
  simp only [Option.bind_some]
  rw [evaluate_code A _ (rename_known _ t hk) (rename_separate t hinj hs) hfn, rename_denote]
  · apply denote_congr
    intro n hn
    unfold values look
    by_cases hn0 : n = []
    · have : newNames varnames n = ['a'] := by simp [newNames, hn0]
      rw [← hst n hn, this]
      rw [if_neg (by decide), if_neg (by decide), if_neg]
      intro hc
      have := List.mem_of_getElem? hc
      rw [hn0] at this
      exact hnd.not_mem_erase this
    · have e : newNames varnames n = newName (1 + (varnames.erase []).idxOf n) := by simp [newNames, hn0, nameOf]
      obtain ⟨hi, hm⟩ := hidx n hn hn0
      rw [← hst n hn]
      rw [if_neg (fun hc => by rw [e] at hc; have := newName_PI hc; omega)]
      by_cases h3 : (varnames.erase []).idxOf n = 3
      · have h4 : (varnames.erase [])[3]? = some n := by
          rw [← h3]
          exact List.getElem?_idxOf hm
        rw [if_pos h4, if_pos]
        rw [e, h3, newName_four]; rfl
      · rw [if_neg (fun hc => by rw [e] at hc; have := newName_E hc; omega), if_neg]
        intro hc
        apply h3
        obtain ⟨hlt, hg⟩ := List.getElem?_eq_some_iff.1 hc
        have := (hnd.erase ([] : Str)).idxOf_getElem 3 hlt
        rw [hg] at this
        exact this
  · intro n hn
    rw [rename_vars] at hn
    obtain ⟨m, hm, rfl⟩ := List.mem_map.1 hn
    rw [hst m hm]
    exact hsome m hm

end SC.Expression
