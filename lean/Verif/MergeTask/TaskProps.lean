import Verif.MergeTask.TreeProps
import Verif.Common.Sort
/-! # C72: stacks and mosaics of scans -/
namespace SC.MergeTask
open SC.Py SC.Merge SC.Common

/-- What `numpy.argsort` gives: every index once, in the order of the values. -/
structure IsArgsort (argsort : List Rat → List Nat) : Prop where
  perm : ∀ l, (argsort l).Perm (List.range l.length)
  sorted : ∀ l, ((argsort l).map fun i => l.getD i 0).Pairwise (· ≤ ·)

-- there is such a function
example : IsArgsort fun l => stableSort (fun i => l.getD i 0) (List.range l.length) :=
  ⟨fun l => stableSort_perm _ _, fun l => by rw [List.pairwise_map]; exact stableSort_sorted _ _⟩

/-- The scan shape follows from the first scan. -/
theorem shape_first (parser : Name → Option (Option Shape)) (e : Entry) (es : List Entry) (groups : Dict Name (List Data)) (s : Shape)
    (h : parser e.title = some (some s)) : scanShapeOf parser (e :: es) groups = some s := by
  unfold scanShapeOf scanShape; simp [h]

theorem addShapes_get (shape : Shape) : ∀ (l : List Data) (map : ShapeMap) (s : Shape),
    (s ∈ l.map Data.shape ∨ map.get s = shape) → (addShapes shape l map).get s = shape
  | [], map, s, h => by
    rcases h with h | h
    · simp at h
    · exact h
  | d :: l, map, s, h => by
    show (addShapes shape l ((.tuple d.shape, shape) :: map)).get s = shape
    apply addShapes_get shape l
    by_cases hd : s = d.shape
    · right; subst hd; simp [ShapeMap.get, List.lookup]
    · rcases h with h | h
      · rw [List.map_cons, List.mem_cons] at h
        exact Or.inl (h.resolve_left hd)
      · right
        have : (Key.tuple s == Key.tuple d.shape) = false := by simpa using hd
        unfold ShapeMap.get at h ⊢
        rw [List.lookup, this]
        exact h

theorem stackLoop_get (shape : Shape) (pos : Bool) (axes0 : List (Name × Axis)) (dest k : Name) :
    ∀ (groups : List (Name × List Data)) (map : ShapeMap) (r : List (Name × Merged)), stackLoop shape pos axes0 dest groups map = some r →
    ∀ l, Dict.get? groups k = some l → ∃ map' o,
      mergeGroups ⟨addShapes shape l map', none, decide (l.length = 1) && !pos, 2, dest⟩ (l.map Data.node) = some o ∧
      Dict.get? r k = some ⟨axes0 ++ dimAxes shape.reverse, l, o⟩
  | [], _, _, _, l, hl => by simp [Dict.get?] at hl
  | (j, m) :: g, map, r, h, l, hl => by
    unfold stackLoop at h
    simp only at h
    split at h
    · next o q ho hq =>
      simp only [Option.some.injEq] at h
      subst h
      by_cases hj : j = k
      · subst hj
        simp only [Dict.get?, if_true, Option.some.injEq] at hl
        subst hl
        exact ⟨map, o, ho, by simp [Dict.get?]⟩
      · simp only [Dict.get?, if_neg hj] at hl ⊢
        exact stackLoop_get shape pos axes0 dest k g _ q hq l hl
    · simp at h

theorem stackLoop_empty (shape : Shape) (pos : Bool) (axes0 : List (Name × Axis)) (dest k : Name) (groups : List (Name × List Data)) (map : ShapeMap)
    (h : Dict.get? groups k = some []) : stackLoop shape pos axes0 dest groups map = none := by
  cases hr : stackLoop shape pos axes0 dest groups map with
  | none => rfl
  | some r =>
    obtain ⟨map', o, h1, _⟩ := stackLoop_get shape pos axes0 dest k groups map r hr [] h
    simp [mergeGroups] at h1

theorem reorder_get {α : Type} (idx : List Nat) (k : Name) : ∀ (g r : List (Name × List α)), reorder idx g = some r →
    ∀ l, Dict.get? g k = some l → ∃ l', pick idx l = some l' ∧ Dict.get? r k = some l'
  | [], _, _, l, hl => by simp [Dict.get?] at hl
  | (j, m) :: g, r, h, l, hl => by
    unfold reorder at h
    split at h
    · next m' q hm hq =>
      simp only [Option.some.injEq] at h
      subst h
      by_cases hj : j = k
      · subst hj
        simp only [Dict.get?, if_true, Option.some.injEq] at hl
        subst hl
        exact ⟨m', hm, by simp [Dict.get?]⟩
      · simp only [Dict.get?, if_neg hj] at hl ⊢
        exact reorder_get idx k g q hq l hl
    · simp at h

theorem pick_spec {α : Type} (idx : List Nat) (l l' : List α) (h : pick idx l = some l') :
    l'.length = idx.length ∧ ∀ (i j : Nat), idx[i]? = some j → l'[i]? = l[j]? := by
  obtain ⟨h1, h2⟩ := allSome_length _ _ _ h
  refine ⟨h1, fun i j hj => ?_⟩
  obtain ⟨y, hy, hy'⟩ := h2 i j hj
  rw [hy', hy]

theorem allNumbers_spec : ∀ (l : List (Option Rat)) (ps : List Rat), allNumbers l = some ps → l = ps.map some
  | [], ps, h => by simp [allNumbers, allSome] at h; subst h; rfl
  | x :: l, ps, h => by
    unfold allNumbers allSome at h
    cases x with
    | none => simp at h
    | some a =>
      cases hr : allSome id l with
      | none => simp [hr] at h
      | some q =>
        simp only [id, hr, Option.some.injEq] at h
        subst h
        rw [allNumbers_spec l q hr]
        rfl

theorem allNumbers_map : ∀ (ps : List Rat), allNumbers (ps.map some) = some ps
  | [] => rfl
  | a :: ps => by
    have ih := allNumbers_map ps
    unfold allNumbers at ih ⊢
    rw [List.map_cons]
    unfold allSome
    rw [ih]
    rfl

/-- Data sets at a place in the results of all scans. -/
def HasDsets (p : List Name) (pre : Shape) (ds : List Data) (lens : List Nat) : Prop :=
  List.Forall₂ (fun (d : Data) (N : Nat) => d.shape = pre ++ [N] ∧ d.node.at p = some (.dset (pre ++ [N]) false)) ds lens

theorem HasDsets.get {p : List Name} {pre : Shape} {ds : List Data} {lens : List Nat} (h : HasDsets p pre ds lens) :
    ds.length = lens.length ∧ ∀ (i : Nat) (d : Data), ds[i]? = some d → ∃ N, lens[i]? = some N ∧ d.shape = pre ++ [N] ∧ d.node.at p = some (.dset (pre ++ [N]) false) := by
  refine ⟨h.length_eq, fun i d hd => ?_⟩
  have hi : i < ds.length := (List.getElem?_eq_some_iff.1 hd).1
  have hi' : i < lens.length := h.length_eq ▸ hi
  have := (List.forall₂_iff_get.1 h).2 i hi hi'
  have e : ds.get ⟨i, hi⟩ = d := (List.getElem?_eq_some_iff.1 hd).2
  rw [e] at this
  exact ⟨lens[i], List.getElem?_eq_getElem hi', this⟩

theorem allSome_at (p : List Name) (pre : Shape) (ds : List Data) (lens : List Nat) (h : HasDsets p pre ds lens) :
    allSome (fun z : Node => z.at p) (ds.map Data.node) = some (lens.map fun N => .dset (pre ++ [N]) false) := by
  unfold HasDsets at h
  induction h with
  | nil => rfl
  | cons h _ ih =>
    rw [List.map_cons, List.map_cons]
    unfold allSome
    rw [ih, h.2]

theorem dset_inj : ∀ (l : List (Shape × Bool)) (shapes : List Shape),
    (l.map fun d => Node.dset d.1 d.2) = shapes.map (fun s => Node.dset s false) → l = shapes.map fun s => (s, false)
  | [], [], _ => rfl
  | [], _ :: _, h => by simp at h
  | _ :: _, [], h => by simp at h
  | (s, b) :: l, t :: ts, h => by
    rw [List.map_cons, List.map_cons, List.cons.injEq] at h
    have e := h.1
    simp only [Node.dset.injEq] at e
    rw [dset_inj l ts h.2, List.map_cons, e.1, e.2]

theorem merged_dset (c : Cfg) (p : List Name) (pre : Shape) (ds : List Data) (lens : List Nat) (h : HasDsets p pre ds lens) (o : Out)
    (ho : mergeGroups c (ds.map Data.node) = some o) :
    lens ≠ [] ∧ o.at p = mergeDset c (p.getLastD []) (lens.map fun N => (pre ++ [N], false)) ∧ (o.at p).isSome = true := by
  have ha := allSome_at p pre ds lens h
  unfold HasDsets at h
  cases h with
  | nil => simp [mergeGroups] at ho
  | @cons d N ds lens h _ =>
    obtain ⟨l, h1, h2, h3⟩ := merge_dset c d.node (ds.map Data.node) o ho p _ _ h.2
    rw [List.map_cons] at ha
    rw [h1, Option.some.injEq] at ha
    have := dset_inj ((pre ++ [N], false) :: l) ((N :: lens).map fun N => pre ++ [N]) (by rw [ha, List.map_map]; rfl)
    rw [this, List.map_map] at h2
    exact ⟨by simp, h2, h3⟩

/-- A stack of mesh scans: element (y, x) of the i-th image is point y * fast + x of the i-th scan. -/
def IsMeshStack (fast slow : Nat) (pre : Shape) (lens : List Nat) (o : Option Out) : Prop :=
  ∃ ms, o = some (.vds [lens.length, slow, fast] ms) ∧
    ∀ i p e, readAt ms 0 p = some (i, e) ↔
      i < lens.length ∧ ∃ y x, y < min (lens.getD i 0 / fast) slow ∧ x < fast ∧ p = [i, y, x] ∧ e = (pre.map fun _ => 0) ++ [y * fast + x]

theorem mesh_stack (c : Cfg) (name : Name) (ht : c.tile = none) (hn : c.nscandim = 2) (fast slow : Nat) (pre : Shape) (lens : List Nat) (hne : lens ≠ [])
    (hst : c.nostack = false ∨ lens.length ≠ 1) (h : pre.prod = 1) (hl : pre.length ≤ 1) (hf : 0 < fast) (hs : 0 < slow)
    (hmap : ∀ N ∈ lens, c.map.get (pre ++ [N]) = [fast, slow]) (hN : ∀ N ∈ lens, fast ≤ N) :
    IsMeshStack fast slow pre lens (mergeDset c name (lens.map fun N => (pre ++ [N], false))) := by
  obtain ⟨ms, h1, h2⟩ := stack_mesh_pre pre h c.map c.nscandim fast slow lens hne (by omega) hf hs hmap hN
  refine ⟨ms, ?_, h2⟩
  unfold mergeDset
  have e : (lens.map fun N => (pre ++ [N], false)).map Prod.fst = lens.map fun N => pre ++ [N] := by rw [List.map_map]; rfl
  obtain ⟨m, hm, hml⟩ := maxShape_some (lens.map fun N => pre ++ [N]) (pre.length + 1) (by simpa using hne) (by simp)
  simp only [ht, e, hm]
  cases m with
  | nil => simp at hml
  | cons a m =>
    simp only
    split
    · next s hb hs' =>
      exfalso
      rcases hst with g | g
      · rw [hb] at g; simp at g
      · have := congrArg List.length hs'
        rw [List.length_map] at this
        exact g this
    · rw [h1]; rfl

theorem HasDsets.pick {p : List Name} {pre : Shape} {ds : List Data} {lens : List Nat} (h : HasDsets p pre ds lens) (idx : List Nat) (l' : List Data)
    (hl : MergeTask.pick idx ds = some l') : HasDsets p pre l' (idx.map fun j => lens.getD j 0) := by
  obtain ⟨h1, h2⟩ := pick_spec idx ds l' hl
  obtain ⟨_, hg⟩ := h.get
  unfold HasDsets
  rw [List.forall₂_iff_get]
  refine ⟨by rw [h1, List.length_map], ?_⟩
  intro i hi hi'
  have hi'' : i < idx.length := h1 ▸ hi
  have e := h2 i idx[i] (List.getElem?_eq_getElem hi'')
  rw [List.getElem?_eq_getElem hi] at e
  obtain ⟨N, hN, hs, hd⟩ := hg _ _ e.symm
  have : (idx.map fun j => lens.getD j 0).get ⟨i, hi'⟩ = N := by
    simp [List.getD_eq_getElem?_getD, hN]
  rw [this]
  exact ⟨hs, hd⟩

/-- **C72**.  Scans are stacked in the order of a motor: with one scan behind each dependency, the axis of
the stack has the positions in increasing order, and the i-th image of every signal comes from the scan
with the i-th position. -/
theorem stack_sorted (argsort : List Rat → List Nat) (ha : IsArgsort argsort) (parser : Name → Option (Option Shape)) (name dest : Name)
    (deps : List Dep) (es : List Entry) (outputs : List (List (Name × Data))) (r : List (Name × Merged))
    (hr : stackTask argsort parser (some name) dest deps outputs = some r)
    (he : List.Forall₂ (fun d e => entries d = [e]) deps es)
    (ps : List Rat) (hp : List.Forall₂ (fun (e : Entry) x => e.positioners.get? name = some x) es ps)
    (e0 : Entry) (h0 : es.head? = some e0) (fast slow : Nat) (hshape : parser e0.title = some (some [fast, slow])) (hf : 0 < fast) (hs : 0 < slow)
    (k : Name) (ds : List Data) (hk : List.Forall₂ (fun o d => (o.filter fun x => x.1 = k) = [(k, d)]) outputs ds)
    (p : List Name) (pre : Shape) (h : pre.prod = 1) (hl : pre.length ≤ 1) (lens : List Nat) (hd : HasDsets p pre ds lens) (hN : ∀ N ∈ lens, fast ≤ N)
    (hlen : outputs.length = deps.length) :
    ∃ (idx : List Nat) (m : Merged), idx.Perm (List.range deps.length) ∧ (idx.map fun j => ps.getD j 0).Pairwise (· ≤ ·) ∧ Dict.get? r k = some m ∧
      m.axes = (name, .positions (idx.map fun (j : Nat) => ps[j]?)) :: dimAxes [slow, fast] ∧
      m.sources.length = deps.length ∧ (∀ (i j : Nat), idx[i]? = some j → m.sources[i]? = ds[j]?) ∧
      IsMeshStack fast slow pre (idx.map fun j => lens.getD j 0) (m.out.at p) := by
  have hes := entries_order deps es he
  cases es with
  | nil => simp at h0
  | cons e1 es =>
  simp only [List.head?_cons, Option.some.injEq] at h0
  subst h0
  have hax : stackAxis name (e1 :: es) = ps.map some := by
    have : ∀ (es : List Entry) (ps : List Rat), List.Forall₂ (fun (e : Entry) x => e.positioners.get? name = some x) es ps → stackAxis name es = ps.map some := by
      intro es ps hp
      induction hp with
      | nil => rfl
      | cons g _ ih =>
        unfold stackAxis at ih ⊢
        rw [List.map_cons, ih, g]; rfl
    exact this _ _ hp
  have hnp : ps.length = deps.length := by rw [← hp.length_eq, ← he.length_eq]
  have hnd : ds.length = deps.length := by rw [← hk.length_eq, hlen]
  have hnl : lens.length = deps.length := by rw [← hd.get.1, hnd]
  unfold stackTask at hr
  simp only [hes, shape_first parser e1 es _ _ hshape, hax, allNumbers_map] at hr
  have hperm := ha.perm ps
  have hsort := ha.sorted ps
  rw [hnp] at hperm
  generalize argsort ps = idx at hr hperm hsort
  cases hro : reorder idx (stackSources outputs) with
  | none => simp [hro] at hr
  | some groups' =>
  cases hpi : pick idx (ps.map some) with
  | none => simp [hro, hpi] at hr
  | some axis' =>
  simp only [hro, hpi] at hr
  have hidx : idx.length = deps.length := by rw [hperm.length_eq, List.length_range]
  have hds : ds ≠ [] := by
    intro e
    rw [e] at hnd
    have := he.length_eq
    simp at hnd this
    omega
  have hsrc : Dict.get? (stackSources outputs) k = some ds := by
    rw [sources_spec, named_one k outputs ds hk, if_neg hds]
  obtain ⟨l', hl', hg⟩ := reorder_get idx k _ _ hro ds hsrc
  obtain ⟨map', o, ho, hm⟩ := stackLoop_get _ _ _ _ k groups' [] r hr l' hg
  obtain ⟨hl1, hl2⟩ := pick_spec idx ds l' hl'
  have hd' := hd.pick idx l' hl'
  obtain ⟨hne, hat, _⟩ := merged_dset _ p pre l' _ hd' o ho
  refine ⟨idx, _, hperm, hsort, hm, ?_, by show l'.length = _; rw [hl1, hidx], hl2, ?_⟩
  · show [(name, Axis.positions axis')] ++ dimAxes [fast, slow].reverse = _
    have : axis' = idx.map fun (j : Nat) => ps[j]? := by
      obtain ⟨a1, a2⟩ := pick_spec idx _ axis' hpi
      obtain ⟨b1, b2⟩ := allSome_length _ _ _ hpi
      apply List.ext_getElem?
      intro i
      cases hi : idx[i]? with
      | none =>
        rw [List.getElem?_map, hi, List.getElem?_eq_none]
        · rfl
        · rw [a1]; exact List.getElem?_eq_none_iff.1 hi
      | some j =>
        obtain ⟨y, hy, hy'⟩ := b2 i j hi
        rw [List.getElem?_map, hi, hy']
        rw [List.getElem?_map] at hy
        cases hj : ps[j]? with
        | none => rw [hj] at hy; simp at hy
        | some q => rw [hj] at hy; simp only [Option.map_some, Option.some.injEq] at hy ⊢; rw [← hy, hj]
    rw [this]; rfl
  · show IsMeshStack fast slow pre _ (o.at p)
    rw [hat]
    refine mesh_stack _ _ rfl rfl fast slow pre _ hne (Or.inl (by simp)) h hl hf hs ?_ ?_
    · intro N hN'
      apply addShapes_get
      left
      obtain ⟨i, hi⟩ := List.getElem?_of_mem hN'
      have hi' : i < l'.length := by rw [hd'.length_eq]; exact (List.getElem?_eq_some_iff.1 hi).1
      obtain ⟨M, hM, hsM, _⟩ := hd'.get.2 i l'[i] (List.getElem?_eq_getElem hi')
      rw [hi, Option.some.injEq] at hM
      rw [hM, ← hsM]
      exact List.mem_map_of_mem (List.getElem_mem hi')
    · intro N hN'
      obtain ⟨j, hj, rfl⟩ := List.mem_map.1 hN'
      have : j < lens.length := by rw [hnl]; simpa using hperm.mem_iff.1 hj
      rw [List.getD_eq_getElem?_getD, List.getElem?_eq_getElem this]
      exact hN _ (List.getElem_mem this)

theorem HasDsets.mapped {p : List Name} {pre : Shape} {ds : List Data} {lens : List Nat} (h : HasDsets p pre ds lens) (shape : Shape) (map : ShapeMap) :
    ∀ N ∈ lens, (addShapes shape ds map).get (pre ++ [N]) = shape := by
  intro N hN
  apply addShapes_get
  left
  obtain ⟨i, hi⟩ := List.getElem?_of_mem hN
  have hi' : i < ds.length := by rw [h.length_eq]; exact (List.getElem?_eq_some_iff.1 hi).1
  obtain ⟨M, hM, hsM, _⟩ := h.get.2 i ds[i] (List.getElem?_eq_getElem hi')
  rw [hi, Option.some.injEq] at hM
  rw [hM, ← hsM]
  exact List.mem_map_of_mem (List.getElem_mem hi')

/-- **C72**.  When the position of a scan is unknown, the stack has the order of the dependencies. -/
theorem stack_unsorted (argsort : List Rat → List Nat) (parser : Name → Option (Option Shape)) (name dest : Name)
    (deps : List Dep) (es : List Entry) (outputs : List (List (Name × Data))) (r : List (Name × Merged))
    (hr : stackTask argsort parser (some name) dest deps outputs = some r) (he : entriesAll deps = es)
    (hp : ∃ e ∈ es, e.positioners.get? name = none)
    (e0 : Entry) (h0 : es.head? = some e0) (fast slow : Nat) (hshape : parser e0.title = some (some [fast, slow])) (hf : 0 < fast) (hs : 0 < slow)
    (k : Name) (ds : List Data) (hk : Dict.get? (stackSources outputs) k = some ds)
    (p : List Name) (pre : Shape) (h : pre.prod = 1) (hl : pre.length ≤ 1) (lens : List Nat) (hd : HasDsets p pre ds lens) (hN : ∀ N ∈ lens, fast ≤ N) :
    ∃ m : Merged, Dict.get? r k = some m ∧ m.axes = (name, .positions (es.map fun e => e.positioners.get? name)) :: dimAxes [slow, fast] ∧
      m.sources = ds ∧ IsMeshStack fast slow pre lens (m.out.at p) := by
  cases es with
  | nil => simp at h0
  | cons e1 es =>
  simp only [List.head?_cons, Option.some.injEq] at h0
  subst h0
  have hnone : allNumbers (stackAxis name (e1 :: es)) = none := by
    obtain ⟨e, he, hn⟩ := hp
    apply allSome_none
    exact ⟨none, List.mem_map.2 ⟨e, he, hn⟩, rfl⟩
  unfold stackTask at hr
  simp only [he, shape_first parser e1 es _ _ hshape, hnone] at hr
  obtain ⟨map', o, ho, hm⟩ := stackLoop_get _ _ _ _ k _ [] r hr ds hk
  obtain ⟨hne, hat, _⟩ := merged_dset _ p pre ds _ hd o ho
  refine ⟨_, hm, rfl, rfl, ?_⟩
  show IsMeshStack fast slow pre _ (o.at p)
  rw [hat]
  exact mesh_stack _ _ rfl rfl fast slow pre _ hne (Or.inl (by simp)) h hl hf hs (hd.mapped _ _) hN

/-- **C72, deviation**.  Without motor the images of several scans are stacked, but the stack has no
axis: two axes for three dimensions. -/
theorem stack_no_axis (argsort : List Rat → List Nat) (parser : Name → Option (Option Shape)) (dest : Name)
    (deps : List Dep) (outputs : List (List (Name × Data))) (r : List (Name × Merged))
    (hr : stackTask argsort parser none dest deps outputs = some r)
    (fast slow : Nat) (hshape : scanShapeOf parser (entriesAll deps) (stackSources outputs) = some [fast, slow]) (hf : 0 < fast) (hs : 0 < slow)
    (k : Name) (ds : List Data) (hk : Dict.get? (stackSources outputs) k = some ds) (h2 : 2 ≤ ds.length)
    (p : List Name) (pre : Shape) (h : pre.prod = 1) (hl : pre.length ≤ 1) (lens : List Nat) (hd : HasDsets p pre ds lens) (hN : ∀ N ∈ lens, fast ≤ N) :
    ∃ (m : Merged) (ms : List Mapping), Dict.get? r k = some m ∧ m.axes = dimAxes [slow, fast] ∧ m.axes.length = 2 ∧
      m.out.at p = some (.vds [ds.length, slow, fast] ms) := by
  unfold stackTask at hr
  simp only [hshape] at hr
  obtain ⟨map', o, ho, hm⟩ := stackLoop_get _ _ _ _ k _ [] r hr ds hk
  obtain ⟨hne, hat, _⟩ := merged_dset _ p pre ds _ hd o ho
  have hlen := hd.length_eq
  obtain ⟨ms, h3, _⟩ := mesh_stack ⟨addShapes [fast, slow] ds map', none, decide (ds.length = 1) && !false, 2, dest⟩ (p.getLastD []) rfl rfl fast slow pre
    lens hne (Or.inr (by omega)) h hl hf hs (hd.mapped _ _) hN
  refine ⟨_, ms, hm, rfl, rfl, ?_⟩
  show o.at p = _
  rw [hat, h3, hlen]

theorem single_eq (map : ShapeMap) (nsd : Nat) (s : Shape) :
    stackPlan map nsd [s] = (singlePlan map nsd s).map fun r => (1 :: r.1, r.2.map fun m => ⟨m.sel, (0, 1) :: m.block⟩) := by
  unfold stackPlan singlePlan
  simp only [maxShape, List.length_singleton]
  generalize (map.get (s.take nsd)).reverse ++ s.drop nsd = L
  show (match allSome (fun (i : Nat) => stackMapping (1 :: L) i ([s].getD i [])) [0] with
    | none => none
    | some ms => some (1 :: L, ms)) = _
  have e : allSome (fun (i : Nat) => stackMapping (1 :: L) i ([s].getD i [])) [0] = (stackMapping (1 :: L) 0 s).map fun m => [m] := by
    unfold allSome allSome
    simp only [List.getD_cons_zero]
    cases stackMapping (1 :: L) 0 s <;> rfl
  rw [e]
  unfold stackMapping
  simp only [List.tail_cons]
  cases layoutSlicing s L.reverse with
  | none => rfl
  | some sd =>
    obtain ⟨src, dst⟩ := sd
    simp only
    cases (if src = [] then some s else selectSource s src) with
    | none => rfl
    | some sel =>
      simp only
      have hc : ∀ B : Block, checkMapping (1 :: L) ⟨sel, (0, 0 + 1) :: B⟩ = (checkMapping L ⟨sel, B⟩).map fun m => ⟨m.sel, (0, 1) :: m.block⟩ := by
        intro B
        unfold checkMapping blockShape
        simp only [List.length_cons, List.map_cons, List.prod_cons, Nat.add_right_cancel_iff]
        simp only [Nat.zero_add, Nat.sub_zero, Nat.one_mul]
        split <;> rfl
      rw [hc]
      cases checkMapping L ⟨sel, if dst = [] then fromZero L else fromZero dst.reverse⟩ <;> rfl

theorem readAt_single : ∀ (ms : List Mapping) (i : Nat) (p : List Nat),
    readAt ms i p = readAt (ms.map fun m => ⟨m.sel, (0, 1) :: m.block⟩) i (0 :: p)
  | [], _, _ => rfl
  | m :: ms, i, p => by
    rw [List.map_cons]
    unfold readAt
    have h1 : inBlock ((0, 1) :: m.block) (0 :: p) = inBlock m.block p := by simp [inBlock]
    simp only [h1]
    rw [readAt_single ms (i + 1) p]
    simp [blockShape, relative, ravelC]

/-- **C72**.  A single scan without motor is reshaped to an image. -/
theorem stack_single (argsort : List Rat → List Nat) (parser : Name → Option (Option Shape)) (dest : Name)
    (deps : List Dep) (outputs : List (List (Name × Data))) (r : List (Name × Merged))
    (hr : stackTask argsort parser none dest deps outputs = some r)
    (fast slow : Nat) (hshape : scanShapeOf parser (entriesAll deps) (stackSources outputs) = some [fast, slow]) (hf : 0 < fast) (hs : 0 < slow)
    (k : Name) (d : Data) (hk : Dict.get? (stackSources outputs) k = some [d])
    (p : List Name) (pre : Shape) (h : pre.prod = 1) (hl : pre.length ≤ 1) (N : Nat) (hd : HasDsets p pre [d] [N]) (hN : fast ≤ N) :
    ∃ (m : Merged) (ms : List Mapping), Dict.get? r k = some m ∧ m.axes = dimAxes [slow, fast] ∧ m.sources = [d] ∧
      m.out.at p = some (.vds [slow, fast] ms) ∧
      ∀ q i e, readAt ms 0 q = some (i, e) ↔ i = 0 ∧ ∃ y x, y < min (N / fast) slow ∧ x < fast ∧ q = [y, x] ∧ e = (pre.map fun _ => 0) ++ [y * fast + x] := by
  unfold stackTask at hr
  simp only [hshape] at hr
  obtain ⟨map', o, ho, hm⟩ := stackLoop_get _ _ _ _ k _ [] r hr [d] hk
  obtain ⟨hne, hat, _⟩ := merged_dset _ p pre [d] _ hd o ho
  obtain ⟨ms, h1, h2⟩ := stack_mesh_pre pre h (addShapes [fast, slow] [d] map') 2 fast slow [N] (by simp) (by omega) hf hs
    (hd.mapped _ _) (by simpa using hN)
  rw [List.map_cons, List.map_nil, single_eq] at h1
  cases hsp : singlePlan (addShapes [fast, slow] [d] map') 2 (pre ++ [N]) with
  | none => simp [hsp] at h1
  | some r' =>
    obtain ⟨L, ms'⟩ := r'
    rw [hsp] at h1
    simp only [Option.map_some, Option.some.injEq, Prod.mk.injEq, List.length_singleton, List.cons.injEq, true_and] at h1
    refine ⟨_, ms', hm, rfl, rfl, ?_, ?_⟩
    · show o.at p = _
      rw [hat]
      unfold mergeDset
      have hM : maxShape [pre ++ [N]] = some (pre ++ [N]) := rfl
      simp only [List.map_cons, List.map_nil, hM]
      cases hc : pre ++ [N] with
      | nil => simp at hc
      | cons a l =>
        have hb : (decide ([d].length = 1) && !false) = true := rfl
        simp only [hb, ← hc, hsp, Option.map_some]
        rw [h1.1]
    · intro q i e
      rw [readAt_single ms' 0 q, h1.2, h2 i (0 :: q) e]
      constructor
      · rintro ⟨hi, y, x, hy, hx, hq, he⟩
        simp only [List.cons.injEq] at hq
        obtain ⟨rfl, rfl⟩ := hq
        exact ⟨rfl, y, x, by simpa using hy, hx, rfl, he⟩
      · rintro ⟨rfl, y, x, hy, hx, rfl, he⟩
        exact ⟨by simp, y, x, by simpa using hy, hx, rfl, he⟩

/-- **C72, deviation**.  Dependencies that are results instead of scans have no positions: with a motor
all groups become empty and the task fails. -/
theorem stack_no_scans (argsort : List Rat → List Nat) (ha : IsArgsort argsort) (parser : Name → Option (Option Shape)) (name dest : Name)
    (deps : List Dep) (he : ∀ d ∈ deps, d = .path) (outputs : List (List (Name × Data))) (k : Name) (hk : named outputs k ≠ []) :
    stackTask argsort parser (some name) dest deps outputs = none := by
  have hes : entriesAll deps = [] := by
    rw [entriesAll_eq, List.flatMap_eq_nil_iff]
    intro d hd
    rw [he d hd]; rfl
  unfold stackTask
  have h0 : argsort [] = [] := List.perm_nil.1 (ha.perm [])
  have hn : allNumbers (stackAxis name []) = some [] := rfl
  simp only [hes, hn, h0]
  split
  · rfl
  · split
    · next g' a' hg ha' =>
      obtain ⟨l', h1, h2⟩ := reorder_get [] k _ _ hg (named outputs k) (by rw [sources_spec, if_neg hk])
      have : l' = [] := by
        have := (pick_spec [] _ l' h1).1
        simpa using this
      rw [this] at h2
      exact stackLoop_empty _ _ _ _ k g' [] h2
    · rfl

/-- **C72, deviation**.  A result that one of the scans does not have makes the task fail when the scans
have positions. -/
theorem stack_missing (argsort : List Rat → List Nat) (ha : IsArgsort argsort) (parser : Name → Option (Option Shape)) (name dest : Name)
    (deps : List Dep) (outputs : List (List (Name × Data))) (ps : List Rat) (hp : stackAxis name (entriesAll deps) = ps.map some)
    (k : Name) (hk : named outputs k ≠ []) (hlt : (named outputs k).length < ps.length) :
    stackTask argsort parser (some name) dest deps outputs = none := by
  unfold stackTask
  simp only [hp, allNumbers_map]
  split
  · rfl
  · split
    · next g' a' hg ha' =>
      exfalso
      obtain ⟨l', h1, h2⟩ := reorder_get _ k _ _ hg (named outputs k) (by rw [sources_spec, if_neg hk])
      have hmem : (named outputs k).length ∈ argsort ps := (ha.perm ps).mem_iff.2 (List.mem_range.2 hlt)
      obtain ⟨i, hi⟩ := List.getElem?_of_mem hmem
      obtain ⟨y, hy, _⟩ := (allSome_length _ _ _ h1).2 i _ hi
      simp at hy
    · rfl

/-! ## Scalars, texts and axes -/

theorem maxShape_scalars : ∀ (n : Nat), maxShape (List.replicate (n + 1) []) = some []
  | 0 => rfl
  | n + 1 => by
    have ih := maxShape_scalars n
    rw [List.replicate_succ] at ih
    rw [List.replicate_succ, List.replicate_succ]
    unfold maxShape
    rw [ih]
    rfl

/-- **C72**.  Numbers without dimensions become a list, one per scan. -/
theorem merge_scalars (c : Cfg) (ht : c.tile = none) (name : Name) (n : Nat) :
    mergeDset c name (List.replicate (n + 1) ([], false)) = some (.scalars (n + 1)) := by
  have e : (List.replicate (n + 1) (([] : Shape), false)).map Prod.fst = List.replicate (n + 1) [] := by simp
  unfold mergeDset
  simp only [ht, e, maxShape_scalars]
  rw [List.replicate_succ]
  simp

/-- **C72**.  A text comes from the first scan, the end time from the last. -/
theorem merge_text (c : Cfg) (ht : c.tile = none) (name : Name) (n : Nat) :
    mergeDset c name (List.replicate (n + 1) ([], true)) = some (.text (if name = ['e', 'n', 'd', '_', 't', 'i', 'm', 'e'] then n else 0)) := by
  have e : (List.replicate (n + 1) (([] : Shape), true)).map Prod.fst = List.replicate (n + 1) [] := by simp
  unfold mergeDset
  simp only [ht, e, maxShape_scalars]
  rw [List.replicate_succ]
  simp [kEndTime]

/-- The axes of an image. -/
theorem image_axes (slow fast : Nat) : dimAxes [slow, fast] = [(['d', 'i', 'm', '1'], .arange slow), (['d', 'i', 'm', '2'], .arange fast)] := by
  have h1 : dimName 1 = ['d', 'i', 'm', '1'] := by decide
  have h2 : dimName 2 = ['d', 'i', 'm', '2'] := by decide
  simp [dimAxes, List.zipIdx, h1, h2]

/-- **C72**.  Without shape in the command of the first scan, that of the first fit parameter is used. -/
theorem shape_fallback (parser : Name → Option (Option Shape)) (es : List Entry) (groups : Dict Name (List Data)) (d : Data) (l : List Data)
    (h : ∀ e, es.head? = some e → parser e.title = some none) (hg : Dict.get? groups ['p','a','r','a','m','e','t','e','r','s'] = some (d :: l)) :
    scanShapeOf parser es groups = some d.shape := by
  unfold scanShapeOf
  have : scanShape parser es = some none := by
    cases es with
    | nil => rfl
    | cons e es => exact h e rfl
  rw [this]
  have hk : kParameters = ['p','a','r','a','m','e','t','e','r','s'] := rfl
  simp [hk, hg]

/-! ## Mosaics -/

theorem tileLoop_get (shape tile : Shape) (dest k : Name) :
    ∀ (groups : List (Name × List Data)) (map : ShapeMap) (r : List (Name × Merged)), tileLoop shape tile dest groups map = some r →
    ∀ l, Dict.get? groups k = some l → ∃ map' o,
      mergeGroups ⟨addShapes shape l map', some tile, false, 2, dest⟩ (l.map Data.node) = some o ∧
      Dict.get? r k = some ⟨dimAxes (List.zipWith (· * ·) shape.reverse tile.reverse), l, o⟩
  | [], _, _, _, l, hl => by simp [Dict.get?] at hl
  | (j, m) :: g, map, r, h, l, hl => by
    unfold tileLoop at h
    simp only at h
    split at h
    · next o q ho hq =>
      simp only [Option.some.injEq] at h
      subst h
      by_cases hj : j = k
      · subst hj
        simp only [Dict.get?, if_true, Option.some.injEq] at hl
        subst hl
        exact ⟨map, o, ho, by simp [Dict.get?]⟩
      · simp only [Dict.get?, if_neg hj] at hl ⊢
        exact tileLoop_get shape tile dest k g _ q hq l hl
    · simp at h

/-- **C72**.  The tiling task: scan i is in row `i / tf` and column `i % tf` of the mosaic, each tile as
high as the longest scan.  The axis along the slow direction has `slow * ts` points. -/
theorem tile_spec (parser : Name → Option (Option Shape)) (tf ts : Nat) (dest : Name) (deps : List Dep) (outputs : List (List (Name × Data)))
    (r : List (Name × Merged)) (hr : tileTask parser [tf, ts] dest deps outputs = some r)
    (fast slow : Nat) (hshape : scanShapeOf parser (entriesAll deps) (stackSources outputs) = some [fast, slow]) (hf : 0 < fast)
    (k : Name) (ds : List Data) (hk : Dict.get? (stackSources outputs) k = some ds) (hc : ds.length ≤ tf * ts)
    (p : List Name) (pre : Shape) (h : pre.prod = 1) (hl : pre.length ≤ 1) (lens : List Nat) (hd : HasDsets p pre ds lens)
    (hN : ∀ N ∈ lens, fast ≤ N ∧ N ≤ fast * slow) :
    ∃ (m : Merged) (R : Nat) (ms : List Mapping), Dict.get? r k = some m ∧ m.sources = ds ∧ m.axes = dimAxes [slow * ts, fast * tf] ∧
      m.out.at p = some (.vds [R * ts, fast * tf] ms) ∧ (∀ N ∈ lens, N / fast ≤ R) ∧ (∃ N ∈ lens, N / fast = R) ∧
      ∀ p0 p1 i e, readAt ms 0 [p0, p1] = some (i, e) ↔
        i < lens.length ∧ ∃ y x, y < lens.getD i 0 / fast ∧ x < fast ∧ p0 = i / tf * R + y ∧ p1 = i % tf * fast + x ∧
          e = (pre.map fun _ => 0) ++ [y * fast + x] := by
  unfold tileTask at hr
  simp only [hshape] at hr
  obtain ⟨map', o, ho, hm⟩ := tileLoop_get _ _ _ k _ [] r hr ds hk
  obtain ⟨hne, hat, _⟩ := merged_dset _ p pre ds _ hd o ho
  obtain ⟨R, ms, h1, h2, h3, h4⟩ := tile_mesh_pre pre h (addShapes [fast, slow] ds map') 2 fast slow tf ts lens hne (by omega) hf
    (hd.mapped _ _) hN (by rw [← hd.length_eq]; exact hc)
  refine ⟨_, R, ms, hm, rfl, rfl, ?_, ?_, ?_, h4⟩
  · show o.at p = _
    rw [hat]
    unfold mergeDset
    have e : (lens.map fun N => (pre ++ [N], false)).map Prod.fst = lens.map fun N => pre ++ [N] := by rw [List.map_map]; rfl
    simp only [e, h1, Option.map_some]
  · intro N hN'
    obtain ⟨i, hi⟩ := List.getElem?_of_mem hN'
    have := h2 i (List.getElem?_eq_some_iff.1 hi).1
    rwa [List.getD_eq_getElem?_getD, hi] at this
  · obtain ⟨i, hi, hR⟩ := h3
    refine ⟨lens[i], List.getElem_mem hi, ?_⟩
    rwa [List.getD_eq_getElem?_getD, List.getElem?_eq_getElem hi] at hR

/-- **C72, deviation**.  When no scan is complete, the mosaic is smaller than its axis. -/
theorem tile_axis_longer (parser : Name → Option (Option Shape)) (tf ts : Nat) (dest : Name) (deps : List Dep) (outputs : List (List (Name × Data)))
    (r : List (Name × Merged)) (hr : tileTask parser [tf, ts] dest deps outputs = some r)
    (fast slow : Nat) (hshape : scanShapeOf parser (entriesAll deps) (stackSources outputs) = some [fast, slow]) (hf : 0 < fast) (hts : 0 < ts)
    (k : Name) (ds : List Data) (hk : Dict.get? (stackSources outputs) k = some ds) (hc : ds.length ≤ tf * ts)
    (p : List Name) (pre : Shape) (h : pre.prod = 1) (hl : pre.length ≤ 1) (lens : List Nat) (hd : HasDsets p pre ds lens)
    (hN : ∀ N ∈ lens, fast ≤ N ∧ N < fast * slow) :
    ∃ (m : Merged) (H : Nat) (ms : List Mapping), Dict.get? r k = some m ∧ m.axes = dimAxes [slow * ts, fast * tf] ∧
      m.out.at p = some (.vds [H, fast * tf] ms) ∧ H < slow * ts := by
  obtain ⟨m, R, ms, h1, _, h3, h4, _, ⟨N, hN', hR⟩, _⟩ := tile_spec parser tf ts dest deps outputs r hr fast slow hshape hf k ds hk hc p pre h hl lens hd
    (fun N hN' => ⟨(hN N hN').1, Nat.le_of_lt (hN N hN').2⟩)
  refine ⟨m, R * ts, ms, h1, h3, h4, ?_⟩
  have hlt : R < slow := by
    rw [← hR, Nat.div_lt_iff_lt_mul hf, Nat.mul_comm]
    exact (hN N hN').2
  exact Nat.mul_lt_mul_of_pos_right hlt hts

/-! ## A case -/

/-- The results of a scan: a signal, and a link to it. -/
def exData (N : Nat) : Data := ⟨[1, N], .group [(['s'], .dset [1, N] false), (['l'], .soft ['/', '1', '/', 's'])]⟩
/-- A scan of 3 x 2 points at a position. -/
def exScan (x : Rat) : Dep := .entry ⟨['a','m','e','s','h',' ','f',' ','0',' ','1',' ','2',' ','s',' ','0',' ','1',' ','1'], [(['z'], x)]⟩
/-- The order of two positions. -/
def exSort : List Rat → List Nat
  | [a, b] => if a ≤ b then [0, 1] else [1, 0]
  | l => List.range l.length

/-- An axis of the group. -/
def exAxes (r : Option (List (Name × Merged))) (k : Name) : Option (List (Name × Axis)) := (r.bind fun r => Dict.get? r k).map Merged.axes

-- two scans, the second (incomplete) one has the lower position
example : exAxes (stackTask exSort shapeParser (some ['z']) ['m'] [exScan 5, exScan 4] [[(['p'], exData 6)], [(['p'], exData 4)]]) ['p'] =
    some [(['z'], .positions [some 4, some 5]), (['d','i','m','1'], .arange 2), (['d','i','m','2'], .arange 3)] := by decide +kernel
example : HasDsets [['s']] [1] [exData 6, exData 4] [6, 4] := .cons ⟨rfl, rfl⟩ (.cons ⟨rfl, rfl⟩ .nil)
example : List.Forall₂ (fun (o : List (Name × Data)) d => (o.filter fun x => x.1 = ['p']) = [(['p'], d)]) [[(['p'], exData 6)], [(['p'], exData 4)]] [exData 6, exData 4] :=
  .cons rfl (.cons rfl .nil)
example : List.Forall₂ (fun d e => entries d = [e]) [exScan 5] [⟨['a','m','e','s','h',' ','f',' ','0',' ','1',' ','2',' ','s',' ','0',' ','1',' ','1'], [(['z'], 5)]⟩] :=
  .cons rfl .nil
example : (tileTask shapeParser [2, 1] ['m'] [exScan 5, exScan 4] [[(['p'], exData 6)], [(['p'], exData 4)]]).isSome = true := by decide +kernel
example : (stackTask exSort shapeParser none ['m'] [exScan 5] [[(['p'], exData 6)]]).isSome = true := by decide +kernel

end SC.MergeTask
