import Verif.Indexing.ExpandLemmas
/-! # C01, C03: lazy stack indexing and index normalisation

Specification: `stack` and `npGet` of `Verif/Numpy/Index.lean` (materialise, then index). -/
namespace SC.Indexing
open SC.Py SC.Numpy

/-- **C01** (partial).  Whatever numpy gives for indexing the materialised stack, `getitem` gives
the same array without materialising it, and the generator is only called on the arguments at the
stack positions the index selects (once per selected position, in order).

Missing with respect to the full claim: lists of different lengths (numpy broadcasts length 1);
boolean lists on other dimensions when the stack axis is indexed by a list (`getitem_bool_list_bug`
shows the code is wrong there); indices that are full and also contain an ellipsis and non-tuple
indices of one-dimensional stacks (`getitem_full_ellipsis_raises`, `getitem_1d_raises`); and that
`getitem` raises whenever numpy does (`getitem_accepts_bad_mask` shows it does not). -/
theorem getitem_refines_numpy_partial {α β : Type} [Inhabited α] (gen : β → Arr α) (args : List β)
    (index : Idx) (axis : Int) (k m : Nat) (st b : Arr α)
    (hst : stack (args.map gen) k = some st)
    (hax : positiveaxis axis st.shape.length = some k)
    (hsup : Supported index st.shape.length)
    (hbool : ∀ f, Item.bool f ∉ index.items)
    (hlists : ListsOfLength m index.items)
    (hmask : ∀ is x, npExpand index.items st.shape.length = some is → dimEntry is k = some x →
      isAdv x = true → ∀ l, Item.blist l ∉ otherEntries is k)
    (hnp : npGet st index.items = some b) :
    ∃ r, getitem gen args index st.shape.length (some st.shape) axis = some r ∧ r.Equiv b := by
  simp only [npGet, Option.bind_eq_some_iff] at hnp
  obtain ⟨is, hexp, rs, hrs, hb⟩ := hnp
  have hp := npExpand_plain hbool hexp
  have hm := listsOfLength_expand hbool hexp hlists
  obtain ⟨r, ev, rx, h1, h2, _⟩ := getitem_expanded (gen := gen) (expand_eq hsup hbool hexp) hp hst rfl
    hax hrs (lens_of_lists hm hp hrs)
    (fun x hx hxa i hi l h => hmask is x hexp hx hxa l (h ▸ hi)) hb
  exact ⟨r, h1, h2⟩

/-- **C01** (partial, laziness).  The generator is called exactly on the arguments at the stack
positions the index selects. -/
theorem getitem_lazy_partial {α β : Type} [Inhabited α] (gen : β → Arr α) (args : List β)
    (index : Idx) (axis : Int) (k m : Nat) (st b : Arr α)
    (hst : stack (args.map gen) k = some st)
    (hax : positiveaxis axis st.shape.length = some k)
    (hsup : Supported index st.shape.length)
    (hbool : ∀ f, Item.bool f ∉ index.items)
    (hlists : ListsOfLength m index.items)
    (hmask : ∀ is x, npExpand index.items st.shape.length = some is → dimEntry is k = some x →
      isAdv x = true → ∀ l, Item.blist l ∉ otherEntries is k)
    (hnp : npGet st index.items = some b) :
    ∃ is x ps ev, npExpand index.items st.shape.length = some is ∧ dimEntry is k = some x ∧
      selectedPositions args.length x = some ps ∧
      evaluated args index st.shape.length (some st.shape) axis = some ev ∧
      ev.map some = ps.map (fun p => args[p]?) := by
  simp only [npGet, Option.bind_eq_some_iff] at hnp
  obtain ⟨is, hexp, rs, hrs, hb⟩ := hnp
  have hp := npExpand_plain hbool hexp
  have hm := listsOfLength_expand hbool hexp hlists
  obtain ⟨r, ev, rx, h1, h2, h3, h4, h5⟩ := getitem_expanded (gen := gen)
    (expand_eq hsup hbool hexp) hp hst rfl hax hrs (lens_of_lists hm hp hrs)
    (fun x hx hxa i hi l h => hmask is x hexp hx hxa l (h ▸ hi)) hb
  obtain ⟨x, n, hx, hn, hr⟩ := resolve_getElem (noNew_basic hp) (resolve_facts hp hrs).2.2.2 h3
  have hnl : n = args.length := by
    obtain ⟨sA, sB, hsA, hss, _⟩ := stack_split hst
    rw [hss, ← hsA] at hn
    simpa using hn.symm
  subst hnl
  exact ⟨is, x, _, ev, hexp, hx, selPositions_eq hr, h4, h5⟩

/-! ## A concrete stack: 3 planes of shape (2, 2), stacked along axis 1 -/

def demoGen (n : Nat) : Arr Nat := ⟨[2, 2], fun r => 100 * n + 10 * r.getD 0 0 + r.getD 1 0⟩
def demoArgs : List Nat := [5, 6, 7]
def demoStack : Arr Nat :=
  ⟨[2, 3, 2], fun r => (((demoArgs.map demoGen)[r.getD 1 0]?).getD (demoGen 5)).get (r.eraseIdx 1)⟩
/-- `[:, [2, 0], newaxis, -1]` -/
def demoIndex : Idx := .tuple [full, .ilist [2, 0], .newaxis, .int (-1)]

/-- Shape and some elements. -/
def sample {α : Type} (a : Arr α) (rs : List (List Nat)) : List Nat × List α := (a.shape, rs.map a.get)

/-- The hypotheses of the two theorems hold for a non-trivial index ... -/
example : ∃ b, npGet demoStack demoIndex.items = some b ∧
    ∃ r, getitem demoGen demoArgs demoIndex 3 (some [2, 3, 2]) 1 = some r ∧ r.Equiv b := by
  refine ⟨_, rfl, getitem_refines_numpy_partial demoGen demoArgs demoIndex 1 1 2 demoStack _ rfl
    (by decide) (by change 3 ≤ 3; decide) ?_ ⟨?_, ?_⟩ ?_ rfl⟩
  · intro f; cases f <;> decide
  · intro l hl
    simp [demoIndex, Idx.items, full] at hl
    subst hl; rfl
  · intro l hl
    simp [demoIndex, Idx.items, full] at hl
  · intro is x hexp _ _ l hl
    have : is = [full, .ilist [2, 0], .newaxis, .int (-1)] :=
      (Option.some.inj (show some [full, .ilist [2, 0], .newaxis, .int (-1)] = some is from hexp)).symm
    subst this
    simp [otherEntries, full] at hl

/-- ... and these are the values. -/
example : (getitem demoGen demoArgs demoIndex 3 (some [2, 3, 2]) 1).map
      (sample · [[0, 0, 0], [1, 0, 0], [0, 1, 0]]) = some ([2, 2, 1], [701, 501, 711]) := by decide

/-- Only planes 7 and 5 were generated. -/
example : evaluated demoArgs demoIndex 3 (some [2, 3, 2]) 1 = some [7, 5] := by decide

/-! ## Where the code differs from numpy -/

/-- With a list on the stack axis, a boolean list on another dimension is split into scalar bools,
which are 0-d masks: the result has an extra dimension and other elements than numpy's
(`st[:, [2, 0], [True, True]]`). -/
theorem getitem_bool_list_bug :
    ∃ r b, getitem demoGen demoArgs (.tuple [full, .ilist [2, 0], .blist [true, true]]) 3
        (some demoStack.shape) 1 = some r ∧
      npGet demoStack [full, .ilist [2, 0], .blist [true, true]] = some b ∧
      b.shape = [2, 2] ∧ r.shape = [2, 2, 1, 2] :=
  ⟨_, _, rfl, rfl, by decide, by decide⟩

/-- **C01 (deviation).**  A single bool on the stack axis is used as the number 0 or 1, for every
stack; numpy treats it as a mask that adds a dimension. -/
theorem getitem_bool_scalar {α β : Type} [Inhabited α] (gen : β → Arr α) (args : List β) (b : Bool)
    (rest : List Item) (hrest : rest.all (fun i => i != .newaxis && i != .ellipsis) = true)
    (shape : Option (List Nat)) :
    getitem gen args (.tuple (.bool b :: rest)) (rest.length + 1) shape 0 =
      getitem gen args (.tuple (.int (if b then 1 else 0) :: rest)) (rest.length + 1) shape 0 := by
  have hn : ∀ i ∈ rest, i ≠ .newaxis ∧ i ≠ .ellipsis := by
    intro i hi
    have := List.all_eq_true.1 hrest i hi
    simpa using this
  have hf : rest.filter (· != .newaxis) = rest := List.filter_eq_self.2 fun i hi => by simpa using (hn i hi).1
  have hany : rest.any (· == .newaxis) = false := by
    rw [List.any_eq_false]; intro i hi; simpa using (hn i hi).1
  have hell : ∀ i ∈ rest, (i == Item.ellipsis) = false := fun i hi => by simpa using (hn i hi).2
  have hfind : rest.findIdx? (· == Item.ellipsis) = none := List.findIdx?_eq_none_iff.2 hell
  have hexp : ∀ x : Item, x ≠ .newaxis → x ≠ .ellipsis →
      expand (.tuple (x :: rest)) (rest.length + 1) = some (.tuple (x :: rest)) := by
    intro x h1 h2
    have hnx : (x != .newaxis) = true := by simpa using h1
    have hex : (x == .ellipsis) = false := by simpa using h2
    simp [expand, expandTuple, List.filter_cons, hnx, hf, List.findIdx?_cons, hex, hfind]
  have hnew : ∀ x : Item, x ≠ .newaxis → extractNewaxis (x :: rest) = some (x :: rest, []) := by
    intro x h1
    have : ((x :: rest).any (· == .newaxis)) = false := by
      rw [List.any_cons, hany]; simpa using h1
    simp [extractNewaxis, this]
  have hexpT : ∀ (x : Item) (n : Nat), x ≠ .newaxis → x ≠ .ellipsis →
      expandTuple (x :: rest) n = if rest.length + 1 > n then none
        else some (x :: (rest ++ List.replicate (n - (rest.length + 1)) full)) := by
    intro x n h1 h2
    have hnx : (x != .newaxis) = true := by simpa using h1
    have hex : (x == .ellipsis) = false := by simpa using h2
    simp only [expandTuple, List.filter_cons, hnx, hf, List.findIdx?_cons, hex, hfind, if_true,
      List.length_cons]
    rfl
  have hao : ∀ (l : List Item) (n : Nat),
      (axesorder (.bool b :: l) n) = (axesorder (.int (if b then 1 else 0) :: l) n).map
        fun p => (p.1, .bool b :: l.filter (· != .newaxis)) := by
    intro l n
    have hil : ∀ x : Item, isAdv x = false → x ≠ .newaxis →
        (List.range ((x :: l).filter (· != .newaxis)).length).filter
          (fun i => (((x :: l).filter (· != .newaxis))[i]?).elim false isAdv) =
        (List.range ((l.filter (· != .newaxis)).length + 1)).filter (fun i =>
          if i = 0 then false else ((l.filter (· != .newaxis))[i - 1]?).elim false isAdv) := by
      intro x h1 h2
      have hnx : (x != .newaxis) = true := by simpa using h2
      simp only [List.filter_cons, hnx, if_true, List.length_cons]
      refine List.filter_congr fun i _ => ?_
      cases i with
      | zero => simp [h1]
      | succ i => simp
    simp only [axesorder]
    rw [hil (.bool b) rfl (by simp), hil (.int (if b then 1 else 0)) rfl (by simp), Option.map_map]
    simp only [List.map_cons, axesOrderItem]
    rfl
  have hse : ∀ (s : List Nat) (l : List Item) (a : Ax), shapeEntry s (.bool b :: l) a =
      shapeEntry s (.int (if b then 1 else 0) :: l) a := by
    intro s l a
    cases a with
    | new j => rfl
    | adv j =>
      simp only [shapeEntry, lenAdv]
      cases s with
      | nil => simp
      | cons n s => simp [List.filter_cons, lenAdv1]
    | dim k =>
      cases k with
      | zero => simp only [shapeEntry, List.getElem?_cons_zero]; cases s[0]? <;> rfl
      | succ k => simp [shapeEntry]
  have hshape : shapeAfter shape (.bool b :: rest) (rest.length + 1) =
      shapeAfter shape (.int (if b then 1 else 0) :: rest) (rest.length + 1) := by
    simp only [shapeAfter, hexpT _ _ (by simp : Item.bool b ≠ .newaxis) (by simp),
      hexpT _ _ (by simp : Item.int (if b then 1 else 0) ≠ .newaxis) (by simp)]
    split
    · rfl
    · simp only [Option.bind_some, hao, Option.bind_map]
      simp only [axesorder, Option.bind_map]
      congr 1
      funext s
      simp only [Function.comp]
      have hnx : (Item.int (if b then 1 else 0) != .newaxis) = true := by simp
      simp only [List.filter_cons, hnx, if_true]
      congr 1
      funext a
      exact hse _ _ _
  have hea : ∀ x : Item, dimChanging x = .int 0 → extractAxis (x :: rest) 0 shape =
      (extractAxis (.int 0 :: rest) 0 shape).map fun sp => { sp with indexaxis := x } := by
    intro x hx
    have hadv : isAdv x = false := by cases x <;> simp_all [dimChanging, isAdv, full]
    have htr : trimIndex x = .int 0 := by cases x <;> simp_all [dimChanging, trimIndex, full]
    have hp : positiveaxis 0 (rest.length + 1) = some 0 := by simp [positiveaxis]
    have hi : iadvOf (x :: rest) = iadvOf (.int 0 :: rest) := by
      simp only [iadvOf, List.map_cons, hx, List.length_cons]
      rfl
    simp only [extractAxis, List.length_cons, hp, Option.bind_some, List.getElem?_cons_zero,
      List.eraseIdx_zero, List.tail_cons, hi, hadv, List.map_cons, htr]
    have h0 : isAdv (.int 0) = false := rfl
    have h1 : trimIndex (.int 0) = .int 0 := rfl
    simp only [h0, h1, Bool.false_eq_true, if_false]
    simp only [Option.map_bind]
    congr 1
    funext sh
    simp only [Function.comp, Option.map_bind]
    congr 1
    funext iadv
    simp only [Function.comp, Option.map_bind]
    congr 1
    funext s1
    simp only [Function.comp, Option.map_bind]
    congr 1
  have hsplit : extractAxis (.bool b :: rest) 0 shape =
      (extractAxis (.int (if b then 1 else 0) :: rest) 0 shape).map
        fun sp => { sp with indexaxis := .bool b } := by
    rw [hea (.bool b) rfl, hea (.int (if b then 1 else 0)) rfl, Option.map_map]
    congr 1
  simp only [getitem, hexp _ (by simp : Item.bool b ≠ .newaxis) (by simp),
    hexp _ (by simp : Item.int (if b then 1 else 0) ≠ .newaxis) (by simp),
    hnew _ (by simp : Item.bool b ≠ .newaxis), hnew _ (by simp : Item.int (if b then 1 else 0) ≠ .newaxis),
    hshape, Option.bind_some, hsplit, Option.bind_map]
  cases hsp : extractAxis (.int (if b then 1 else 0) :: rest) 0 shape with
  | none => rfl
  | some sp =>
    have hax : sp.indexaxis = .int (if b then 1 else 0) := by
      rw [hea (.int (if b then 1 else 0)) rfl] at hsp
      obtain ⟨q, -, rfl⟩ := Option.map_eq_some_iff.1 hsp
      rfl
    simp only [Option.bind_some, Function.comp, hax]
    have h1 : selectArgs args sp.shapeaxis (.bool b) =
        selectArgs args sp.shapeaxis (.int (if b then 1 else 0)) := rfl
    rw [h1]
    congr 1
    funext sel
    congr 1
    simp [planes, hax, isAdv]

/-- The same index in numpy has another shape. -/
theorem bool_scalar_numpy : ∃ r b, getitem demoGen demoArgs (.tuple [.bool true, full, full]) 3
    (some [3, 2, 2]) 0 = some r ∧ npGet (⟨[3, 2, 2], fun _ => 0⟩ : Arr Nat) [.bool true, full, full, full] = some b ∧
      r.shape = [2, 2] ∧ b.shape = [1, 3, 2, 2] := ⟨_, _, rfl, rfl, by decide, by decide⟩

/-- **C03.**  `fulldim` is the number of entries of the expanded index. -/
theorem fulldim_spec (is is' : List Item) (n : Nat)
    (hbool : ∀ f, Item.bool f ∉ is) (hell : is.count .ellipsis ≤ 1)
    (h : expandTuple is n = some is') : fulldim is n = is'.length := by
  obtain ⟨hle, hp, hl, hc⟩ := expandTuple_facts hell hbool h
  have e1 : (is.filter (· == Item.newaxis)).length = is.count .newaxis := by
    rw [List.count, List.countP_eq_length_filter]
  have e2 : (is'.filter (· == Item.newaxis)).length = is'.count .newaxis := by
    rw [List.count, List.countP_eq_length_filter]
  have e3 := List.length_eq_length_filter_add (l := is') (fun i => i != Item.newaxis)
  have e4 : is'.filter (fun i => !(i != Item.newaxis)) = is'.filter (· == Item.newaxis) := by
    congr 1; funext i; cases i <;> rfl
  rw [e4] at e3
  simp only [fulldim]
  omega

/-- An index with one entry per dimension plus an ellipsis is refused; numpy accepts it. -/
theorem getitem_full_ellipsis_raises :
    getitem demoGen demoArgs (.tuple [.int 0, .int 0, .ellipsis, .int 0]) 3 (some demoStack.shape) 1 =
      none ∧
    ∃ b, npGet demoStack [.int 0, .int 0, .ellipsis, .int 0] = some b ∧ b.shape = [] :=
  ⟨by rfl, _, rfl, by decide⟩

/-- A stack with one dimension cannot be indexed by anything but a tuple, an ellipsis or newaxis. -/
theorem getitem_1d_raises {α β : Type} [Inhabited α] (gen : β → Arr α) (args : List β) (i : Item)
    (hi : i ≠ .ellipsis ∧ i ≠ .newaxis) (nd : Nat) (hnd : nd ≤ 1) (sh : Option (List Nat)) (axis : Int) :
    getitem gen args (.one i) nd sh axis = none := by
  have h : ¬ 1 < nd := by omega
  unfold getitem
  cases i with
  | ellipsis => exact absurd rfl hi.1
  | newaxis => exact absurd rfl hi.2
  | _ => simp [expand, h]

/-- ... although numpy indexes the materialised stack without trouble. -/
example : ∃ st b, stack ([1, 2, 3].map fun n => (⟨[], fun _ => n⟩ : Arr Nat)) 0 = some st ∧
    npGet st [.int 1] = some b ∧ b.get [] = 2 := ⟨_, _, rfl, rfl, rfl⟩

/-- An all-true mask of the wrong length on the stack axis is accepted; numpy raises. -/
theorem getitem_accepts_bad_mask :
    (getitem demoGen demoArgs (.tuple [.blist [true, true], full, full]) 3 (some [3, 2, 2]) 0).isSome ∧
    ∀ st, stack (demoArgs.map demoGen) 0 = some st → npGet st [.blist [true, true], full, full] = none := by
  refine ⟨by decide, ?_⟩
  intro st h
  have : st = ⟨[3, 2, 2], fun r => (((demoArgs.map demoGen)[r.getD 0 0]?).getD (demoGen 5)).get (r.eraseIdx 0)⟩ :=
    (Option.some.inj h).symm
  subst this
  rfl

/-! ## C03: index normalisation -/

/-- **C03**.  `expand` does not change the selection. -/
theorem expand_same_selection {α : Type} (a : Arr α) (index : Idx) (is : List Item)
    (hsup : Supported index a.shape.length) (hbool : ∀ f, Item.bool f ∉ index.items)
    (b : Arr α) (hb : npGet a index.items = some b)
    (h : expand index a.shape.length = some (.tuple is)) : npGet a is = some b := by
  simp only [npGet, Option.bind_eq_some_iff] at hb
  obtain ⟨is', hexp, rs, hrs, hb⟩ := hb
  rw [expand_eq hsup hbool hexp] at h
  simp only [Option.some.injEq, Idx.tuple.injEq] at h
  subst h
  rw [npGet_of_resolve hrs, hb]

/-- **C03**.  An expanded tuple has one entry per dimension, no ellipsis, the same new axes, and
expanding it again does nothing. -/
theorem expand_one_per_dim (is is' : List Item) (n : Nat)
    (hbool : ∀ f, Item.bool f ∉ is) (hell : is.count .ellipsis ≤ 1)
    (h : expandTuple is n = some is') :
    (is'.filter (· != .newaxis)).length = n ∧ Item.ellipsis ∉ is' ∧
      is'.count .newaxis = is.count .newaxis ∧ expandTuple is' n = some is' := by
  obtain ⟨hle, hp, hl, hc⟩ := expandTuple_facts hell hbool h
  have hcc : countConsuming is' = n := by rw [countConsuming_noNew hp]; exact hl
  exact ⟨hl, fun hm => (hp _ hm).1 rfl, hc, expandTuple_self hp hcc⟩

example : expandTuple [.int 1, .ellipsis, .newaxis, .ilist [0, 1]] 4 =
    some [.int 1, full, full, .newaxis, .ilist [0, 1]] := by decide

/-- **C03**.  `positiveaxis` is Python's normalisation of an axis. -/
theorem positiveaxis_spec (axis : Int) (ndim k : Nat) :
    positiveaxis axis ndim = some k ↔ k < ndim ∧ (axis = k ∨ axis = k - ndim) := by
  unfold positiveaxis
  generalize hg : (if axis < 0 then axis + (ndim : Int) else axis) = a
  simp only
  constructor
  · intro h
    split at h
    · simp at h
    · simp only [Option.some.injEq] at h
      split at hg <;> omega
  · rintro ⟨h1, h2⟩
    have : a = k := by split at hg <;> omega
    subst this
    rw [if_neg (by omega)]
    simp

example : positiveaxis (-1) 3 = some 2 ∧ positiveaxis 3 3 = none := by decide

/-- **C03**.  `axisindex` finds the entry of dimension `k`: it is not a new axis and exactly `k`
entries in front of it are not new axes. -/
theorem axisindex_spec (is : List Item) (axis : Int) (ndim k p : Nat)
    (hk : positiveaxis axis ndim = some k) (h : axisindex is axis ndim = some p) :
    ((is.take p).filter (· != .newaxis)).length = k ∧ is[p]? = dimEntry is k ∧
      is[p]? ≠ none ∧ is[p]? ≠ some .newaxis := by
  simp only [axisindex, hk, Option.bind_some] at h
  obtain ⟨h1, h2, h3⟩ := cumNonNew_find (c := 0) (k := k) (by rw [Nat.zero_add]; exact h)
  refine ⟨by simpa using h1, ?_, h2, h3⟩
  have hp : p < is.length := by
    by_contra hc
    exact h2 (List.getElem?_eq_none (by omega))
  have hsplit : is = is.take p ++ is[p] :: is.drop (p + 1) := by
    rw [List.getElem_cons_drop, List.take_append_drop]
  have hne : is[p] ≠ .newaxis := fun h => h3 (by rw [List.getElem?_eq_getElem hp, h])
  rw [List.getElem?_eq_getElem hp]
  unfold dimEntry
  conv => rhs; rw [hsplit]
  have h1' : ((is.take p).filter (· != .newaxis)).length = k := by simpa using h1
  rw [List.filter_append, List.getElem?_append_right (by omega), h1', Nat.sub_self, List.filter_cons,
    if_pos (by simpa using hne)]
  rfl

example : axisindex [.newaxis, full, .newaxis, .int 3] (-1) 2 = some 3 := by decide

/-- **C03**.  Replacing the entry of one dimension leaves the entries of the other dimensions and the
new axes alone. -/
theorem replace_one (is : List Item) (axis : Int) (ndim k : Nat) (x : Item) (is' : List Item)
    (hx : x ≠ .newaxis) (hk : positiveaxis axis ndim = some k)
    (h : replaceLoop is ndim [(axis, x)] = some is') :
    (is'.filter (· != .newaxis)) = (is.filter (· != .newaxis)).set k x ∧
      is'.map (· == .newaxis) = is.map (· == .newaxis) := by
  simp only [replaceLoop, Option.bind_eq_some_iff] at h
  obtain ⟨p, hp, h⟩ := h
  simp only [Option.some.injEq] at h
  subst h
  obtain ⟨h1, h2, h3, h4⟩ := axisindex_spec is axis ndim k p hk hp
  have hpl : p < is.length := by
    by_contra hc
    exact h3 (List.getElem?_eq_none (by omega))
  have hne : is[p] ≠ .newaxis := fun h => h4 (by rw [List.getElem?_eq_getElem hpl, h])
  have hsplit : is = is.take p ++ is[p] :: is.drop (p + 1) := by
    rw [List.getElem_cons_drop, List.take_append_drop]
  have hset : is.set p x = is.take p ++ x :: is.drop (p + 1) := by
    rw [List.set_eq_take_append_cons_drop, if_pos hpl]
  constructor
  · rw [hset, List.filter_append, List.filter_cons, if_pos (by simpa using hx)]
    conv => rhs; rw [hsplit]
    rw [List.filter_append, List.filter_cons, if_pos (by simpa using hne),
      List.set_append_right _ _ (by omega), h1, Nat.sub_self]
    rfl
  · rw [hset]
    conv => rhs; rw [hsplit]
    rw [List.map_append, List.map_append, List.map_cons, List.map_cons]
    have e1 : (x == Item.newaxis) = false := by simpa using hx
    have e2 : (is[p] == Item.newaxis) = false := by simpa using hne
    rw [e1, e2]

example : replaceLoop [.newaxis, full, .newaxis, .int 3] 2 [(1, .ilist [4, 5])] =
    some [.newaxis, full, .newaxis, .ilist [4, 5]] := by decide

/-- **C03** (partial: lists of equal length).  Dropping the new axes, indexing, and applying the
operators returned by `extract_newaxis` is the same as indexing. -/
theorem extract_newaxis_same_selection_partial {α : Type} (a : Arr α) (is : List Item) (m : Nat)
    (hp : Plain is) (hlists : ListsOfLength m is) (hfull : countConsuming is = a.shape.length)
    (b : Arr α) (hb : npGet a is = some b) :
    ∃ is' ops b' z, extractNewaxis is = some (is', ops) ∧ is' = is.filter (· != .newaxis) ∧
      npGet a is' = some b' ∧ applyOps b' ops = some z ∧ z.Equiv b := by
  simp only [npGet, Option.bind_eq_some_iff] at hb
  obtain ⟨is', hexp, rs, hrs, hb⟩ := hb
  rw [npExpand_self hfull (fun h => (hp _ h).1 rfl)] at hexp
  simp only [Option.some.injEq] at hexp
  subst hexp
  have hm := lens_of_lists hlists hp hrs
  obtain ⟨f1, f2, f3, f4⟩ := resolve_facts hp hrs
  obtain ⟨g1, g2, g3, g4, g5, g6⟩ := mask_facts (rs := rs)
  obtain ⟨ops, hops, hrest⟩ := extractNewaxis_spec hp hrs hm
  obtain ⟨b0, hb0⟩ : ∃ b0, indexRes a (rNoNew rs) = some b0 := by
    by_cases ha : (rNoNew rs).any Res.isMany
    · obtain ⟨b', hb', _⟩ := indexRes_adv a (rs := rNoNew rs) (m := m) ha (by rw [g4]; exact hm)
      exact ⟨b', hb'⟩
    · exact ⟨_, indexRes_basic a (by simpa using ha)⟩
  obtain ⟨z, hz, hze⟩ := hrest α a b0 b0 b hb0 hb ⟨rfl, fun _ _ => rfl⟩
  exact ⟨_, ops, b0, z, hops, rfl, by rw [npGet_of_resolve f4, hb0], hz, hze⟩

example : extractNewaxis [full, .newaxis, .ilist [0, 1], .newaxis, .int 0] =
    some ([full, .ilist [0, 1], .int 0],
      [.transpose [1, 0], .index [full, full, .newaxis, .newaxis]]) := by decide

/-- **C03**.  `move_axis(ndim, i1, i2)` is the transposition that takes dimension `i1` to position
`i2` and keeps the order of the others, and moving back undoes it. -/
theorem move_axis_spec (ndim i1 i2 : Nat) (h1 : i1 < ndim) (h2 : i2 < ndim) (axes : List Nat)
    (h : moveAxis ndim i1 i2 = some axes) :
    axes.Perm (List.range ndim) ∧ axes[i2]? = some i1 ∧
      axes.eraseIdx i2 = (List.range ndim).filter (· != i1) ∧
      ∃ back, moveAxis ndim i2 i1 = some back ∧
        back.map (fun p => axes[p]?) = (List.range ndim).map some := by
  unfold moveAxis at h ⊢
  split at h
  · simp at h
  · rename_i hne
    simp only [Option.some.injEq] at h
    subst h
    have hl : ((List.range ndim).eraseIdx i1).length = ndim - 1 := by
      rw [List.length_eraseIdx_of_lt (by simpa using h1)]; simp
    have hle : i2 ≤ ((List.range ndim).eraseIdx i1).length := by omega
    refine ⟨moveAxes_perm h1 h2, ?_, ?_, ?_⟩
    · rw [List.getElem?_insertIdx_self, if_pos hle]
    · rw [List.eraseIdx_insertIdx_self]; exact range_eraseIdx h1
    · refine ⟨_, by rw [if_neg (fun h => hne h.symm)], ?_⟩
      exact moveAxis_back h1 h2

example : moveAxis 4 0 2 = some [1, 2, 0, 3] ∧ moveAxis 4 2 0 = some [2, 0, 1, 3] := by decide

end SC.Indexing
