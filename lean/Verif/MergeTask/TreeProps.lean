import Verif.MergeTask.Model
import Verif.MergeTask.PlanLemmas
/-! # C72: scans, groups and their content -/
namespace SC.MergeTask
open SC.Py SC.Merge

/-! ## The scans of a task -/

theorem entriesAll_eq : ∀ (deps : List Dep), entriesAll deps = deps.flatMap entries
  | [] => rfl
  | d :: l => by
    unfold entriesAll
    rw [entriesAll_eq l, List.flatMap_cons]

/-- **C72**.  With one scan behind each dependency, at any depth, the scans are in the order of the
dependencies. -/
theorem entries_order (deps : List Dep) (es : List Entry) (h : List.Forall₂ (fun d e => entries d = [e]) deps es) : entriesAll deps = es := by
  rw [entriesAll_eq]
  induction h with
  | nil => rfl
  | cons h _ ih => rw [List.flatMap_cons, h, ih]; rfl

/-- Nested tasks have the scans of their dependencies, in order. -/
theorem entries_task (a b : List Dep) : entries (.task (a ++ b)) = entries (.task a) ++ entries (.task b) := by
  show entriesAll (a ++ b) = entriesAll a ++ entriesAll b
  rw [entriesAll_eq, entriesAll_eq, entriesAll_eq, List.flatMap_append]

-- a scan behind two tasks
example (e : Entry) : entries (.task [.task [.entry e], .path]) = [e] := rfl

/-! ## Groups with the same name -/

/-- The results with a name, in the order of the outputs. -/
def named {α : Type} (outputs : List (List (Name × α))) (k : Name) : List α :=
  outputs.flatMap fun o => (o.filter fun d => d.1 = k).map Prod.snd

theorem inner_get {α : Type} (k : Name) : ∀ (out : List (Name × α)) (g : Dict Name (List α)),
    ((out.foldl (fun groups d => groups.set d.1 (((groups.get? d.1).getD []) ++ [d.2])) g).get? k).getD [] =
      ((g.get? k).getD []) ++ (out.filter fun d => d.1 = k).map Prod.snd ∧
    ((out.foldl (fun groups d => groups.set d.1 (((groups.get? d.1).getD []) ++ [d.2])) g).get? k = none ↔
      g.get? k = none ∧ (out.filter fun d => d.1 = k) = [])
  | [], g => by simp
  | d :: out, g => by
    rw [List.foldl_cons]
    obtain ⟨h1, h2⟩ := inner_get k out (Dict.set g d.1 (((Dict.get? g d.1).getD []) ++ [d.2]))
    rw [Dict.get?_set] at h1 h2
    by_cases hk : d.1 = k
    · rw [if_pos hk] at h1 h2
      rw [List.filter_cons_of_pos (by simpa using hk), List.map_cons]
      constructor
      · rw [h1, hk]; simp
      · rw [h2]; simp
    · rw [if_neg hk] at h1 h2
      rw [List.filter_cons_of_neg (by simpa using hk)]
      exact ⟨h1, h2⟩

theorem outer_get {α : Type} (k : Name) : ∀ (outs : List (List (Name × α))) (g : Dict Name (List α)),
    ((outs.foldl (fun groups out => out.foldl (fun groups d => groups.set d.1 (((groups.get? d.1).getD []) ++ [d.2])) groups) g).get? k).getD [] =
      ((g.get? k).getD []) ++ named outs k ∧
    ((outs.foldl (fun groups out => out.foldl (fun groups d => groups.set d.1 (((groups.get? d.1).getD []) ++ [d.2])) groups) g).get? k = none ↔
      g.get? k = none ∧ named outs k = [])
  | [], g => by simp [named]
  | o :: outs, g => by
    rw [List.foldl_cons]
    obtain ⟨h1, h2⟩ := outer_get k outs (o.foldl (fun groups d => Dict.set groups d.1 (((Dict.get? groups d.1).getD []) ++ [d.2])) g)
    obtain ⟨h3, h4⟩ := inner_get k o g
    have hn : named (o :: outs) k = (o.filter fun d => d.1 = k).map Prod.snd ++ named outs k := by
      unfold named; rw [List.flatMap_cons]
    constructor
    · rw [h1, h3, hn, List.append_assoc]
    · rw [h2, h4, hn, List.append_eq_nil_iff, List.map_eq_nil_iff, and_assoc]

/-- **C72**.  The results that are merged under a name are all results with that name, in the order of
the dependencies. -/
theorem sources_spec {α : Type} (outputs : List (List (Name × α))) (k : Name) :
    (stackSources outputs).get? k = if named outputs k = [] then none else some (named outputs k) := by
  obtain ⟨h1, h2⟩ := outer_get k outputs []
  have e : Dict.get? ([] : Dict Name (List α)) k = none := rfl
  rw [e] at h1 h2
  unfold stackSources
  by_cases hn : named outputs k = []
  · rw [if_pos hn]; exact h2.2 ⟨rfl, hn⟩
  · rw [if_neg hn]
    cases hg : Dict.get? (outputs.foldl (fun groups out => out.foldl (fun groups d => Dict.set groups d.1 (((Dict.get? groups d.1).getD []) ++ [d.2])) groups) []) k with
    | none => exact absurd (h2.1 hg).2 hn
    | some l =>
      rw [hg] at h1
      simpa using h1

example : stackSources [[(['p'], 1), (['q'], 2)], [(['q'], 3)]] = [(['p'], [1]), (['q'], [2, 3])] := by decide

/-- With exactly one result in every output, the i-th result is that of the i-th dependency. -/
theorem named_one {α : Type} (k : Name) : ∀ (outputs : List (List (Name × α))) (ds : List α),
    List.Forall₂ (fun o d => (o.filter fun x => x.1 = k) = [(k, d)]) outputs ds → named outputs k = ds := by
  intro outputs ds h
  induction h with
  | nil => rfl
  | cons h _ ih =>
    unfold named at ih ⊢
    rw [List.flatMap_cons, h, ih]
    rfl

/-! ## The shape of a scan -/

/-- Words separated by blanks. -/
def joinSpace : List Name → Name
  | [] => []
  | [w] => w
  | w :: ws => w ++ ' ' :: joinSpace ws

theorem splitSpace_ne (s : Name) : splitSpace s ≠ [] := by
  cases s with
  | nil => simp [splitSpace]
  | cons c l =>
    unfold splitSpace
    cases splitSpace l with
    | nil => simp
    | cons w ws => simp only; split <;> simp

theorem splitSpace_word : ∀ (w : Name) (s : Name), ' ' ∉ w → splitSpace (w ++ ' ' :: s) = w :: splitSpace s
  | [], s, _ => by
    rw [List.nil_append]
    conv_lhs => unfold splitSpace
    have := splitSpace_ne s
    cases h : splitSpace s with
    | nil => exact absurd h this
    | cons w ws => simp
  | c :: w, s, h => by
    have hc : c ≠ ' ' := fun e => h (e ▸ List.mem_cons_self)
    have ih := splitSpace_word w s fun e => h (List.mem_cons_of_mem _ e)
    rw [List.cons_append]
    conv_lhs => unfold splitSpace
    rw [ih]
    simp [hc]

theorem splitSpace_last : ∀ (w : Name), ' ' ∉ w → splitSpace w = [w]
  | [], _ => rfl
  | c :: w, h => by
    have hc : c ≠ ' ' := fun e => h (e ▸ List.mem_cons_self)
    unfold splitSpace
    rw [splitSpace_last w fun e => h (List.mem_cons_of_mem _ e)]
    simp [hc]

/-- Splitting gives the words back. -/
theorem split_join : ∀ (ws : List Name), ws ≠ [] → (∀ w ∈ ws, ' ' ∉ w) → splitSpace (joinSpace ws) = ws
  | [w], _, h => splitSpace_last w (h w List.mem_cons_self)
  | w :: v :: ws, _, h => by
    show splitSpace (w ++ ' ' :: joinSpace (v :: ws)) = _
    rw [splitSpace_word w _ (h w List.mem_cons_self), split_join (v :: ws) (by simp) fun x hx => h x (List.mem_cons_of_mem _ hx)]

/-- **C72**.  The shape of the scan `fscan2d slowmot start step NS fastmot start step NF …` is (NF, NS). -/
theorem shape_fscan2d (m1 a1 s1 n1 m2 a2 s2 n2 : Name) (ws : List Name) (f s : Nat) (hf : intOf n2 = some f) (hs : intOf n1 = some s)
    (h : ∀ w ∈ m1 :: a1 :: s1 :: n1 :: m2 :: a2 :: s2 :: n2 :: ws, ' ' ∉ w) :
    shapeParser (joinSpace (kFscan2d :: m1 :: a1 :: s1 :: n1 :: m2 :: a2 :: s2 :: n2 :: ws)) = some (some [f, s]) := by
  unfold shapeParser
  rw [split_join _ (by simp) (by
    intro w hw
    rcases List.mem_cons.1 hw with rfl | hw
    · decide
    · exact h w hw)]
  simp [part, hf, hs]

/-- **C72**.  The shape of the scan `l2scan fastmot start end NF slowmot start end NS …` is (NF, NS + 1). -/
theorem shape_l2scan (m1 a1 s1 n1 m2 a2 s2 n2 : Name) (ws : List Name) (f s : Nat) (hf : intOf n1 = some f) (hs : intOf n2 = some s)
    (h : ∀ w ∈ m1 :: a1 :: s1 :: n1 :: m2 :: a2 :: s2 :: n2 :: ws, ' ' ∉ w) :
    shapeParser (joinSpace (kL2scan :: m1 :: a1 :: s1 :: n1 :: m2 :: a2 :: s2 :: n2 :: ws)) = some (some [f, s + 1]) := by
  unfold shapeParser
  rw [split_join _ (by simp) (by
    intro w hw
    rcases List.mem_cons.1 hw with rfl | hw
    · decide
    · exact h w hw)]
  have h1 : (kL2scan = kFscan2d) = False := by simp; decide
  simp [part, hf, hs, h1]

/-- **C72**.  The shape of any other mesh scan `cmd fastmot start end NF slowmot start end NS …` is
(NF + 1, NS + 1). -/
theorem shape_mesh (cmd m1 a1 s1 n1 m2 a2 s2 n2 : Name) (ws : List Name) (f s : Nat) (hf : intOf n1 = some f) (hs : intOf n2 = some s)
    (h : ∀ w ∈ cmd :: m1 :: a1 :: s1 :: n1 :: m2 :: a2 :: s2 :: n2 :: ws, ' ' ∉ w) (h1 : cmd ≠ kFscan2d) (h2 : cmd ≠ kL2scan) :
    shapeParser (joinSpace (cmd :: m1 :: a1 :: s1 :: n1 :: m2 :: a2 :: s2 :: n2 :: ws)) = some (some [f + 1, s + 1]) := by
  unfold shapeParser
  rw [split_join _ (by simp) h]
  simp [part, hf, hs, h1, h2]

/-- **C72**.  A command that is too short has no shape. -/
theorem shape_short (cmd : Name) (ws : List Name) (h : ∀ w ∈ cmd :: ws, ' ' ∉ w) (h1 : cmd ≠ kFscan2d) (h2 : cmd ≠ kL2scan) (hl : ws.length < 8) :
    shapeParser (joinSpace (cmd :: ws)) = some none := by
  unfold shapeParser
  rw [split_join _ (by simp) h]
  have : part (cmd :: ws) 8 = none := by
    unfold part
    rw [List.getElem?_eq_none (by simp; omega)]
    rfl
  simp [this, h1, h2]

example : intOf ['1', '0'] = some 10 ∧ intOf ['1', '.'] = none := by decide
-- the names of motors and numbers, as in a title
example : shapeParser (joinSpace ([['m','e','s','h'],['s','y'],['0'],['1'],['4'],['s','z'],['0'],['1'],['3'],['1']])) = some (some [5, 4]) := by decide

/-! ## Merging groups -/

/-- The item of a group at a path. -/
def Node.at (x : Node) : List Name → Option Node
  | [] => some x
  | k :: p => (child k x).bind fun y => y.at p

/-- An item of a merged group. -/
def Out.child (k : Name) : Out → Option Out
  | .group items => Dict.get? items k
  | _ => none

/-- The item of a merged group at a path. -/
def Out.at (x : Out) : List Name → Option Out
  | [] => some x
  | k :: p => (x.child k).bind fun y => y.at p

theorem items_get (c : Cfg) (k : Name) : ∀ (items : List (Name × Node)) (rest : List Node) (r : List (Name × Out)), mergeItems c items rest = some r →
    (Dict.get? items k = none → Dict.get? r k = none) ∧
    (∀ x, Dict.get? items k = some x → ∃ xs o, (isSoft x = false → allSome (child k) rest = some xs) ∧ mergeNode c k x xs = some o ∧ Dict.get? r k = some o)
  | [], _, r, h => by
    simp only [mergeItems, Option.some.injEq] at h
    subst h
    simp [Dict.get?]
  | (j, x) :: l, rest, r, h => by
    unfold mergeItems at h
    cases hx : (if isSoft x then some [] else allSome (child j) rest) with
    | none => simp [hx] at h
    | some xs =>
      simp only [hx] at h
      cases ho : mergeNode c j x xs with
      | none => simp [ho] at h
      | some o =>
        cases hr : mergeItems c l rest with
        | none => simp [ho, hr] at h
        | some q =>
          simp only [ho, hr, Option.some.injEq] at h
          subst h
          obtain ⟨i1, i2⟩ := items_get c k l rest q hr
          by_cases hj : j = k
          · subst hj
            constructor
            · intro hn; simp [Dict.get?] at hn
            · intro y hy
              simp only [Dict.get?, if_true, Option.some.injEq] at hy
              subst hy
              refine ⟨xs, o, ?_, ho, by simp [Dict.get?]⟩
              intro hs
              rw [hs] at hx
              simpa using hx
          · constructor
            · intro hn
              simp only [Dict.get?, if_neg hj] at hn ⊢
              exact i1 hn
            · intro y hy
              simp only [Dict.get?, if_neg hj] at hy ⊢
              exact i2 y hy

theorem vds_child (r : Option (Shape × List Mapping)) (k : Name) (o : Out) (h : r.map (fun r => Out.vds r.1 r.2) = some o) : o.child k = none := by
  cases r with
  | none => simp at h
  | some r => simp only [Option.map_some, Option.some.injEq] at h; subst h; rfl

theorem mergeNode_child (c : Cfg) (name k : Name) (x : Node) (rest : List Node) (o : Out) (h : mergeNode c name x rest = some o) :
    (child k x = none → o.child k = none) ∧
    (∀ y, child k x = some y → ∃ ys oy, (isSoft y = false → allSome (child k) rest = some ys) ∧ mergeNode c k y ys = some oy ∧ o.child k = some oy) := by
  cases x with
  | soft p =>
    simp only [mergeNode, Option.some.injEq] at h
    subst h
    simp [child, Out.child]
  | dset s b =>
    refine ⟨fun _ => ?_, fun y hy => by simp [child] at hy⟩
    simp only [mergeNode] at h
    split at h
    · simp at h
    · next l hl =>
      unfold mergeDset at h
      simp only at h
      split at h
      · exact vds_child _ k o h
      · split at h
        · simp at h
        · split at h <;> (simp only [Option.some.injEq] at h; subst h; rfl)
        · split at h
          · exact vds_child _ k o h
          · exact vds_child _ k o h
  | group items =>
    simp only [mergeNode] at h
    cases hr : mergeItems c items rest with
    | none => simp [hr] at h
    | some r =>
      simp only [hr, Option.map_some, Option.some.injEq] at h
      subst h
      exact items_get c k items rest r hr

theorem allSome_bind {α β γ : Type} (f : α → Option β) (g : β → Option γ) : ∀ (l : List α) (m : List β), allSome f l = some m →
    allSome (fun x => (f x).bind g) l = allSome g m
  | [], m, h => by simp [allSome] at h; subst h; rfl
  | x :: l, m, h => by
    unfold allSome at h
    cases hx : f x with
    | none => simp [hx] at h
    | some y =>
      cases hr : allSome f l with
      | none => simp [hx, hr] at h
      | some q =>
        simp only [hx, hr, Option.some.injEq] at h
        subst h
        have ih := allSome_bind f g l q hr
        unfold allSome
        rw [ih, hx]
        rfl

theorem merge_at (c : Cfg) : ∀ (p : List Name) (name : Name) (x : Node) (rest : List Node) (o : Out), mergeNode c name x rest = some o →
    (x.at p = none → o.at p = none) ∧
    ∀ y, x.at p = some y → ∃ ys oy, (isSoft y = false → allSome (fun z => z.at p) rest = some ys) ∧
      mergeNode c (p.getLastD name) y ys = some oy ∧ o.at p = some oy
  | [], name, x, rest, o, h => by
    refine ⟨fun hn => by simp [Node.at] at hn, ?_⟩
    intro y hy
    simp only [Node.at, Option.some.injEq] at hy
    subst hy
    refine ⟨rest, o, fun _ => ?_, h, rfl⟩
    have : ∀ l : List Node, allSome (fun z => Node.at z []) l = some l := by
      intro l
      induction l with
      | nil => rfl
      | cons a l ih => unfold allSome; rw [ih]; rfl
    exact this rest
  | k :: p, name, x, rest, o, h => by
    obtain ⟨h1, h2⟩ := mergeNode_child c name k x rest o h
    cases hc : child k x with
    | none =>
      refine ⟨fun _ => by simp [Out.at, h1 hc], fun y hy => by simp [Node.at, hc] at hy⟩
    | some z =>
      obtain ⟨ys, oz, g1, g2, g3⟩ := h2 z hc
      obtain ⟨i1, i2⟩ := merge_at c p k z ys oz g2
      constructor
      · intro hn
        simp only [Node.at, hc, Option.bind_some] at hn
        simp only [Out.at, g3, Option.bind_some]
        exact i1 hn
      · intro y hy
        simp only [Node.at, hc, Option.bind_some] at hy
        obtain ⟨zs, oy, j1, j2, j3⟩ := i2 y hy
        refine ⟨zs, oy, ?_, ?_, ?_⟩
        · intro hs
          have hz : isSoft z = false := by
            cases z with
            | soft q =>
              exfalso
              cases p with
              | nil => simp only [Node.at, Option.some.injEq] at hy; subst hy; simp [isSoft] at hs
              | cons => simp [Node.at, child] at hy
            | dset => rfl
            | group => rfl
          have := allSome_bind (child k) (fun z => Node.at z p) rest ys (g1 hz)
          rw [j1 hs] at this
          exact this
        · cases p with
          | nil => exact j2
          | cons a l =>
            have e : (k :: a :: l).getLastD name = (a :: l).getLastD k := rfl
            rw [e]; exact j2
        · simp only [Out.at, g3, Option.bind_some]
          exact j3

theorem allSome_dsets : ∀ (l : List Node) (m : List (Shape × Bool)), allSome asDset l = some m → l = m.map fun d => .dset d.1 d.2
  | [], m, h => by simp [allSome] at h; subst h; rfl
  | x :: l, m, h => by
    unfold allSome at h
    cases hx : asDset x with
    | none => simp [hx] at h
    | some y =>
      cases hr : allSome asDset l with
      | none => simp [hx, hr] at h
      | some q =>
        simp only [hx, hr, Option.some.injEq] at h
        subst h
        rw [List.map_cons, ← allSome_dsets l q hr]
        cases x with
        | dset s b => simp only [asDset, Option.some.injEq] at hx; subst hx; rfl
        | soft => simp [asDset] at hx
        | group => simp [asDset] at hx

/-- **C72**.  A data set, at any depth, is merged from the data sets of all scans at the same place, in
the order of the scans. -/
theorem merge_dset (c : Cfg) (x : Node) (rest : List Node) (o : Out) (h : mergeGroups c (x :: rest) = some o) (p : List Name) (s : Shape) (b : Bool)
    (hp : x.at p = some (.dset s b)) :
    ∃ l, allSome (fun z => z.at p) (x :: rest) = some (((s, b) :: l).map fun d => Node.dset d.1 d.2) ∧
      o.at p = mergeDset c (p.getLastD []) ((s, b) :: l) ∧ (o.at p).isSome = true := by
  obtain ⟨_, h2⟩ := merge_at c p [] x rest o h
  obtain ⟨ys, oy, g1, g2, g3⟩ := h2 _ hp
  have g1 := g1 rfl
  simp only [mergeNode] at g2
  cases hl : allSome asDset ys with
  | none => simp [hl] at g2
  | some l =>
    simp only [hl] at g2
    refine ⟨l, ?_, by rw [g3, g2], by rw [g3]; rfl⟩
    unfold allSome
    rw [hp, g1, allSome_dsets ys l hl]
    rfl

/-- **C72**.  A soft link stays a soft link at the same place. -/
theorem merge_soft (c : Cfg) (x : Node) (rest : List Node) (o : Out) (h : mergeGroups c (x :: rest) = some o) (p : List Name) (t : Name)
    (hp : x.at p = some (.soft t)) : o.at p = some (.soft (relink c.dest t)) := by
  obtain ⟨_, h2⟩ := merge_at c p [] x rest o h
  obtain ⟨ys, oy, _, g2, g3⟩ := h2 _ hp
  simp only [mergeNode, Option.some.injEq] at g2
  rw [g3, g2]

/-- **C72**.  Nothing is added. -/
theorem merge_nothing_else (c : Cfg) (x : Node) (rest : List Node) (o : Out) (h : mergeGroups c (x :: rest) = some o) (p : List Name)
    (hp : x.at p = none) : o.at p = none := (merge_at c p [] x rest o h).1 hp

/-- **C72**.  Something missing in another scan makes the merge fail. -/
theorem merge_missing (c : Cfg) (x : Node) (rest : List Node) (p : List Name) (s : Shape) (b : Bool) (hp : x.at p = some (.dset s b))
    (y : Node) (hy : y ∈ rest) (hm : y.at p = none) : mergeGroups c (x :: rest) = none := by
  cases h : mergeGroups c (x :: rest) with
  | none => rfl
  | some o =>
    obtain ⟨l, h1, _⟩ := merge_dset c x rest o h p s b hp
    obtain ⟨i, hi⟩ := List.getElem?_of_mem (List.mem_cons_of_mem x hy)
    obtain ⟨z, hz, _⟩ := (allSome_length _ _ _ h1).2 i y hi
    rw [hm] at hz
    simp at hz

/-! ## Links -/

theorem splitSlash_ne (s : Name) : splitSlash s ≠ [] := by
  cases s with
  | nil => simp [splitSlash]
  | cons c l =>
    unfold splitSlash
    cases splitSlash l with
    | nil => simp
    | cons w ws => simp only; split <;> simp

theorem splitSlash_word : ∀ (w : Name) (s : Name), '/' ∉ w → splitSlash (w ++ '/' :: s) = w :: splitSlash s
  | [], s, _ => by
    rw [List.nil_append]
    conv_lhs => unfold splitSlash
    have := splitSlash_ne s
    cases h : splitSlash s with
    | nil => exact absurd h this
    | cons w ws => simp
  | c :: w, s, h => by
    have hc : c ≠ '/' := fun e => h (e ▸ List.mem_cons_self)
    have ih := splitSlash_word w s fun e => h (List.mem_cons_of_mem _ e)
    rw [List.cons_append]
    conv_lhs => unfold splitSlash
    rw [ih]
    simp [hc]

theorem joinSlash_split : ∀ (s : Name), joinSlash (splitSlash s) = s
  | [] => rfl
  | c :: l => by
    have ih := joinSlash_split l
    unfold splitSlash
    cases h : splitSlash l with
    | nil => exact absurd h (splitSlash_ne l)
    | cons w ws =>
      rw [h] at ih
      simp only
      by_cases hc : c = '/'
      · subst hc
        rw [if_pos rfl]
        show [] ++ '/' :: joinSlash (w :: ws) = _
        rw [ih]; rfl
      · rw [if_neg hc]
        cases ws with
        | nil => simp only [joinSlash] at ih ⊢; rw [ih]
        | cons v vs => simp only [joinSlash] at ih ⊢; rw [List.cons_append, ih]

/-- **C72**.  An absolute link into the scan points to the same place in the merged scan. -/
theorem relink_absolute (dest scan t : Name) (h : '/' ∉ scan) :
    relink dest ('/' :: (scan ++ '/' :: t)) = '/' :: (dest ++ '/' :: t) := by
  unfold relink
  rw [if_pos (by rfl)]
  have : splitSlash ('/' :: (scan ++ '/' :: t)) = [] :: scan :: splitSlash t := by
    have := splitSlash_word [] (scan ++ '/' :: t) (by simp)
    rw [List.nil_append] at this
    rw [this, splitSlash_word scan t h]
  rw [this]
  simp only [List.drop_succ_cons, List.drop_zero, joinSlash_split]
  simp

/-- **C72**.  Relative links are unchanged. -/
theorem relink_relative (dest t : Name) (h : t.head? ≠ some '/') : relink dest t = t := by
  unfold relink; rw [if_neg h]

example : relink ['m'] ['/', '1', '/', 'a', '/', 'b'] = ['/', 'm', '/', 'a', '/', 'b'] := by decide

end SC.MergeTask
