import Verif.Indexing.AxisSplit
/-! # Helper lemmas: stacking the indexed planes equals indexing the stack (no new axes) -/
namespace SC.Indexing
open SC.Py SC.Numpy

abbrev dims (rs : List Res) : List Nat := rs.filterMap Res.dimLen?
abbrev lens (rs : List Res) : List Nat := rs.filterMap Res.len?

theorem ndims_eq (rs : List Res) : ndims rs = (dims rs).length := by
  rw [dims, dims_length, List.filter_map, List.length_map]; rfl

theorem ndims_append (rs rs' : List Res) : ndims (rs ++ rs') = ndims rs + ndims rs' := by
  simp [ndims]

section walk
variable {RA RB : List Res}

theorem walk_rest (j : Nat) {r : List Nat} (hr : r.length = ndims (RA ++ RB)) :
    walk (RA ++ RB) j r = walk RA j (r.take (ndims RA)) ++ walk RB j (r.drop (ndims RA)) := by
  rw [ndims_append] at hr
  conv => lhs; rw [← List.take_append_drop (ndims RA) r]
  exact walk_append _ _ _ _ _ (by rw [List.length_take]; omega)

theorem walk_pick (j c : Nat) {r : List Nat} (hr : r.length = ndims (RA ++ RB)) :
    walk (RA ++ .pick c :: RB) j r =
      walk RA j (r.take (ndims RA)) ++ c :: walk RB j (r.drop (ndims RA)) := by
  rw [ndims_append] at hr
  conv => lhs; rw [← List.take_append_drop (ndims RA) r]
  exact walk_append _ _ _ _ _ (by rw [List.length_take]; omega)

theorem walk_many (j : Nat) (ks : List Nat) {r : List Nat} (hr : r.length = ndims (RA ++ RB)) :
    walk (RA ++ .many ks :: RB) j r =
      walk RA j (r.take (ndims RA)) ++ ks.getD (if ks.length = 1 then 0 else j) 0 ::
        walk RB j (r.drop (ndims RA)) := by
  rw [ndims_append] at hr
  conv => lhs; rw [← List.take_append_drop (ndims RA) r]
  exact walk_append _ _ _ _ _ (by rw [List.length_take]; omega)

theorem walk_span (j i : Nat) (ks : List Nat) {r : List Nat} (hr : r.length = ndims (RA ++ RB)) :
    walk (RA ++ .span ks :: RB) j (r.insertIdx (ndims RA) i) =
      walk RA j (r.take (ndims RA)) ++ ks.getD i 0 :: walk RB j (r.drop (ndims RA)) := by
  rw [ndims_append] at hr
  have hl : (r.take (ndims RA)).length = ndims RA := by rw [List.length_take]; omega
  have : r.insertIdx (ndims RA) i = r.take (ndims RA) ++ i :: r.drop (ndims RA) := by
    conv => lhs; rw [← List.take_append_drop (ndims RA) r]
    conv => lhs; arg 2; rw [← hl]
    exact insertIdx_append _ _ _
  rw [this]
  exact walk_append _ _ _ _ _ hl

end walk

/-- Elements of the virtual stack. -/
theorem stack_get {α β : Type} {gen : β → Arr α} {args : List β} {k : Nat} {st : Arr α}
    (h : stack (args.map gen) k = some st) {c : Nat} {a : β} (ha : args[c]? = some a)
    {l1 l2 : List Nat} (hl : l1.length = k) : st.get (l1 ++ c :: l2) = (gen a).get (l1 ++ l2) := by
  unfold stack at h
  split at h
  · simp at h
  · rename_i p ps hps
    split at h
    · simp only [Option.some.injEq] at h
      subst h
      simp only
      have e1 : (l1 ++ c :: l2).getD k 0 = c := by
        rw [List.getD_eq_getElem?_getD, ← hl]; simp
      have e2 : (l1 ++ c :: l2).eraseIdx k = l1 ++ l2 := by
        rw [← hl]; exact eraseIdx_append_mid _ _ _
      rw [e1, e2, List.getElem?_map, ha]; rfl
    · simp at h

/-- The situation of `getitem` after expansion and removal of new axes: `x` indexes the stack axis
and `A`, `B` the dimensions before and after it. -/
structure Setup (α β : Type) where
  gen : β → Arr α
  args : List β
  A : List Item
  x : Item
  B : List Item
  sA : List Nat
  sB : List Nat
  RA : List Res
  rx : Res
  RB : List Res
  m : Nat
  st : Arr α
  b : Arr α
  axis : Int
  basic : Basic (A ++ x :: B)
  lenA : sA.length = A.length
  hst : stack (args.map gen) A.length = some st
  shapes : ∀ a ∈ args, (gen a).shape = sA ++ sB
  hA : resolve A sA = some RA
  hx : resolve1 args.length x = some rx
  hB : resolve B sB = some RB
  hm : ∀ l ∈ lens (RA ++ rx :: RB), l = m
  hb : indexRes st (RA ++ rx :: RB) = some b
  hax : positiveaxis axis (A ++ x :: B).length = some A.length

namespace Setup
variable {α β : Type} (S : Setup α β)

theorem basicAB : Basic (S.A ++ S.B) := fun i hi => S.basic i (by simp at hi ⊢; tauto)
theorem basicA : Basic S.A := fun i hi => S.basic i (by simp [hi])
theorem basicB : Basic S.B := fun i hi => S.basic i (by simp [hi])

theorem rest : resolve (S.A ++ S.B) (S.sA ++ S.sB) = some (S.RA ++ S.RB) :=
  resolve_append S.hA S.hB

theorem whole : resolve (S.A ++ S.x :: S.B) (S.sA ++ S.args.length :: S.sB) =
    some (S.RA ++ S.rx :: S.RB) := by
  refine resolve_append S.hA ?_
  rw [resolve_cons (S.basic _ (by simp)), S.hx, S.hB]; rfl

theorem flA : S.RA.map Res.isDim = fl S.A := (resolve_facts S.basicA.plain S.hA).1
theorem flAB : (S.RA ++ S.RB).map Res.isDim = fl (S.A ++ S.B) :=
  (resolve_facts S.basicAB.plain S.rest).1
theorem flW : (S.RA ++ S.rx :: S.RB).map Res.isDim = fl (S.A ++ S.x :: S.B) :=
  (resolve_facts S.basic.plain S.whole).1

theorem ndimsA : ndims S.RA = ctrue (fl S.A) := by
  rw [← S.flA, ctrue, List.filter_map, List.length_map]; rfl
theorem ndimsAB : ndims (S.RA ++ S.RB) = ctrue (fl (S.A ++ S.B)) := by
  rw [← S.flAB, ctrue, List.filter_map, List.length_map]; rfl

theorem anyAB : (S.RA ++ S.RB).any Res.isMany = (S.A ++ S.B).any isAdv :=
  (resolve_facts S.basicAB.plain S.rest).2.1
theorem anyW : (S.RA ++ S.rx :: S.RB).any Res.isMany = (S.A ++ S.x :: S.B).any isAdv :=
  (resolve_facts S.basic.plain S.whole).2.1

theorem advAB : advPos (S.RA ++ S.RB) = apos (fl (S.A ++ S.B)) := by rw [advPos_eq, S.flAB]
theorem advW : advPos (S.RA ++ S.rx :: S.RB) = apos (fl (S.A ++ S.x :: S.B)) := by
  rw [advPos_eq, S.flW]

theorem hmAB : ∀ l ∈ lens (S.RA ++ S.RB), l = S.m := by
  intro l hl
  apply S.hm l
  simp only [lens, List.filterMap_append, List.mem_append, List.filterMap_cons] at hl ⊢
  rcases hl with h | h
  · exact Or.inl h
  · right; split
    · exact h
    · exact List.mem_cons_of_mem _ h

theorem nsrcA : ∀ j r, (walk S.RA j r).length = S.A.length := by
  intro j r
  rw [walk_length]
  -- no new axes: every checked entry is a source dimension
  have key : ∀ (is : List Item) (s : List Nat) (rs : List Res), Basic is →
      resolve is s = some rs → nsrc rs = is.length := by
    intro is
    induction is with
    | nil =>
      intro s rs _ h
      cases s <;> simp [resolve] at h
      subst h; rfl
    | cons i is ih =>
      intro s rs hb h
      obtain ⟨n, s', r, rs', rfl, rfl, h5, h6⟩ := resolve_cons_some (hb i (by simp)) h
      have := ih s' rs' (fun y hy => hb y (by simp [hy])) h6
      obtain ⟨k1, k2, _⟩ := resolve1_kind h5
      cases r with
      | new => exact absurd rfl k1
      | flag b => exact absurd rfl (k2 b)
      | _ => simpa [nsrc] using this
  exact key _ _ _ S.basicA S.hA

/-- Indexing one plane with the rest of the index. -/
theorem plane {a : β} (ha : a ∈ S.args) :
    npGet (S.gen a) (S.A ++ S.B) = indexRes (S.gen a) (S.RA ++ S.RB) :=
  npGet_of_resolve (by rw [S.shapes a ha]; exact S.rest)

theorem dims_pick {r : Res} (h : r.isDim = false) : dims (S.RA ++ r :: S.RB) = dims (S.RA ++ S.RB) := by
  simp only [dims, List.filterMap_append, List.filterMap_cons]
  cases r <;> simp_all [Res.isDim, Res.dimLen?]

theorem dims_span (ks : List Nat) :
    dims (S.RA ++ .span ks :: S.RB) = (dims (S.RA ++ S.RB)).insertIdx (ndims S.RA) ks.length := by
  have : dims (S.RA ++ .span ks :: S.RB) = dims S.RA ++ ks.length :: dims S.RB := by
    simp [dims, List.filterMap_append, Res.dimLen?]
  rw [this, ndims_eq]
  have e : dims (S.RA ++ S.RB) = dims S.RA ++ dims S.RB := by simp [dims]
  rw [e, insertIdx_append]

/-- Integer index on the stack axis. -/
theorem pick_case {c : Nat} (hc : S.rx = .pick c) {a : β} (ha : S.args[c]? = some a) :
    ∃ d y, npGet (S.gen a) (S.A ++ S.B) = some d ∧
      applyOps d (if (S.A ++ S.B).any isAdv then
          moveOps (ctrue (fl (S.A ++ S.B)) + 1) (apos (fl (S.A ++ S.B)))
            (apos (fl (S.A ++ S.x :: S.B)))
        else []) = some y ∧ y.Equiv S.b := by
  have hmem : a ∈ S.args := List.mem_of_getElem? ha
  have hdim : dims (S.RA ++ S.rx :: S.RB) = dims (S.RA ++ S.RB) := S.dims_pick (by rw [hc]; rfl)
  have hxa : isAdv S.x = false := by
    rw [← (resolve1_kind S.hx).2.2.2.1, hc]; rfl
  have hany : (S.A ++ S.x :: S.B).any isAdv = (S.A ++ S.B).any isAdv := any_rest hxa
  have elt : ∀ j r, InB r (dims (S.RA ++ S.RB)) →
      (S.gen a).get (walk (S.RA ++ S.RB) j r) = S.st.get (walk (S.RA ++ S.rx :: S.RB) j r) := by
    intro j r hr
    have hl : r.length = ndims (S.RA ++ S.RB) := by rw [hr.length, ndims_eq]
    rw [hc, walk_rest j hl, walk_pick j c hl, stack_get S.hst ha (S.nsrcA _ _)]
  rw [S.plane hmem]
  by_cases hadv : (S.A ++ S.B).any isAdv
  · simp only [hadv, if_true]
    obtain ⟨d, hd, atd⟩ := indexRes_adv (S.gen a) (rs := S.RA ++ S.RB) (m := S.m)
      (by rw [S.anyAB]; exact hadv) S.hmAB
    obtain ⟨b', hb', atb⟩ := indexRes_adv S.st (rs := S.RA ++ S.rx :: S.RB) (m := S.m)
      (by rw [S.anyW, hany]; exact hadv) S.hm
    rw [S.hb] at hb'; cases hb'
    rw [S.advAB] at atd
    have hpf := atb.le
    rw [S.advW] at atb hpf
    rw [show List.filterMap Res.dimLen? (S.RA ++ S.rx :: S.RB) = dims (S.RA ++ S.RB) from hdim] at atb hpf
    obtain ⟨y, hy, aty⟩ := moveOps_isAt atd hpf
    refine ⟨d, y, hd, ?_, aty.equiv atb (fun j r _ hr => elt j r hr)⟩
    rw [← S.ndimsAB, ndims_eq]; exact hy
  · have hadv' : (S.A ++ S.B).any isAdv = false := by simpa using hadv
    have hb := S.hb
    rw [indexRes_basic _ (by rw [S.anyW, hany]; exact hadv')] at hb
    refine ⟨_, _, indexRes_basic _ (by rw [S.anyAB]; exact hadv'), by
      simp only [hadv']; rfl, ?_⟩
    cases hb' : S.b
    rw [hb'] at hb
    cases hb
    refine ⟨hdim.symm, fun r hr => elt 0 r hr⟩

/-- Every plane with its index succeeds and has the same shape. -/
theorem planes_basic (hadv : (S.A ++ S.B).any isAdv = false) (sel : List β)
    (hsel : ∀ a ∈ sel, a ∈ S.args) :
    sel.mapM (fun a => npGet (S.gen a) (S.A ++ S.B)) =
      some (sel.map fun a => ⟨dims (S.RA ++ S.RB), fun r => (S.gen a).get (walk (S.RA ++ S.RB) 0 r)⟩) := by
  rw [mapM_some_iff, List.map_map]
  apply List.map_congr_left
  intro a ha
  rw [S.plane (hsel a ha), indexRes_basic _ (by rw [S.anyAB]; exact hadv)]; rfl

theorem planes_adv (hadv : (S.A ++ S.B).any isAdv = true) (sel : List β)
    (hsel : ∀ a ∈ sel, a ∈ S.args) :
    ∃ ds : List (Arr α), sel.mapM (fun a => npGet (S.gen a) (S.A ++ S.B)) = some ds ∧
      ds.length = sel.length ∧
      ∀ (i : Nat) (a : β), sel[i]? = some a → ∃ d, ds[i]? = some d ∧
        IsAt d (apos (fl (S.A ++ S.B))) S.m (dims (S.RA ++ S.RB))
          (fun j r => (S.gen a).get (walk (S.RA ++ S.RB) j r)) := by
  induction sel with
  | nil => exact ⟨[], rfl, rfl, by simp⟩
  | cons a sel ih =>
    obtain ⟨ds, h1, h2, h3⟩ := ih (fun y hy => hsel y (by simp [hy]))
    obtain ⟨d, hd, atd⟩ := indexRes_adv (S.gen a) (rs := S.RA ++ S.RB) (m := S.m)
      (by rw [S.anyAB]; exact hadv) S.hmAB
    rw [S.advAB] at atd
    refine ⟨d :: ds, ?_, by simp [h2], ?_⟩
    · rw [List.mapM_cons, S.plane (hsel a (by simp)), hd, h1]; rfl
    · intro i a' ha'
      cases i with
      | zero => simp at ha'; subst ha'; exact ⟨d, by simp, atd⟩
      | succ i => simpa using h3 i a' (by simpa using ha')

theorem sel_facts {sel : List β} {ks : List Nat}
    (hs : sel.map some = ks.map (fun k => S.args[k]?)) :
    sel.length = ks.length ∧ (∀ a ∈ sel, a ∈ S.args) ∧
    ∀ i, i < ks.length → ∃ a, sel[i]? = some a ∧ S.args[ks.getD i 0]? = some a := by
  have hl : sel.length = ks.length := by simpa using congrArg List.length hs
  have hget : ∀ i, i < ks.length → ∃ a, sel[i]? = some a ∧ S.args[ks.getD i 0]? = some a := by
    intro i hi
    have := congrArg (fun l => l[i]?) hs
    simp only [List.getElem?_map] at this
    rw [List.getElem?_eq_getElem (by omega), List.getElem?_eq_getElem hi] at this
    simp only [Option.map_some, Option.some.injEq] at this
    exact ⟨sel[i], List.getElem?_eq_getElem _, by
      rw [List.getD_eq_getElem?_getD, List.getElem?_eq_getElem hi]; exact this.symm⟩
  refine ⟨hl, ?_, hget⟩
  intro a ha
  obtain ⟨i, hi, rfl⟩ := List.getElem_of_mem ha
  obtain ⟨a', h1, h2⟩ := hget i (by omega)
  rw [List.getElem?_eq_getElem hi] at h1
  cases h1
  exact List.mem_of_getElem? h2

/-- Slice on the stack axis. -/
theorem span_case {ks : List Nat} (hk : S.rx = .span ks) {sel : List β}
    (hs : sel.map some = ks.map (fun k => S.args[k]?)) (hne : sel ≠ []) :
    let a := ctrue (fl S.A)
    let pf := apos (fl (S.A ++ S.x :: S.B))
    let pr := apos (fl (S.A ++ S.B))
    let k' := if a < pf then a else a + 1
    ∃ ds st' y, sel.mapM (fun a => npGet (S.gen a) (S.A ++ S.B)) = some ds ∧ ds.length = sel.length ∧
      stack ds (if (S.A ++ S.B).any isAdv then k' else a) = some st' ∧
      applyOps st' (if (S.A ++ S.B).any isAdv then
          moveOps (ctrue (fl (S.A ++ S.B)) + 2) (if pr < k' then pr else pr + 1) pf
        else []) = some y ∧ y.Equiv S.b := by
  intro a pf pr k'
  obtain ⟨hl, hmem, hget⟩ := S.sel_facts hs
  have hdim : dims (S.RA ++ S.rx :: S.RB) = (dims (S.RA ++ S.RB)).insertIdx (ndims S.RA) ks.length := by
    rw [hk]; exact S.dims_span ks
  have hxa : isAdv S.x = false := by
    rw [← (resolve1_kind S.hx).2.2.2.1, hk]; rfl
  have hxb : bdim S.x = true := by
    rw [← (resolve1_kind S.hx).2.2.1, hk]; rfl
  have hany : (S.A ++ S.x :: S.B).any isAdv = (S.A ++ S.B).any isAdv := any_rest hxa
  have hnA : ndims S.RA ≤ (dims (S.RA ++ S.RB)).length := by
    rw [← ndims_eq, ndims_append]; omega
  have elt : ∀ i j r (arg : β), i < ks.length → sel[i]? = some arg → InB r (dims (S.RA ++ S.RB)) →
      (S.gen arg).get (walk (S.RA ++ S.RB) j r) =
        S.st.get (walk (S.RA ++ S.rx :: S.RB) j (r.insertIdx (ndims S.RA) i)) := by
    intro i j r arg hi harg hr
    have hlr : r.length = ndims (S.RA ++ S.RB) := by rw [hr.length, ndims_eq]
    obtain ⟨a', h1, h2⟩ := hget i hi
    rw [harg] at h1; cases h1
    rw [hk, walk_rest j hlr, walk_span j i ks hlr, stack_get S.hst h2 (S.nsrcA _ _)]
  by_cases hadv : (S.A ++ S.B).any isAdv
  · simp only [hadv, if_true]
    obtain ⟨ds, hds, hdl, hdat⟩ := S.planes_adv hadv sel hmem
    obtain ⟨b', hb', atb⟩ := indexRes_adv S.st (rs := S.RA ++ S.rx :: S.RB) (m := S.m)
      (by rw [S.anyW, hany]; exact hadv) S.hm
    rw [S.hb] at hb'; cases hb'
    have hpf := atb.le
    rw [S.advW] at atb hpf
    rw [show List.filterMap Res.dimLen? (S.RA ++ S.rx :: S.RB) = _ from hdim] at atb hpf
    rw [List.length_insertIdx_of_le_length hnA] at hpf
    have hprl : pr ≤ (dims (S.RA ++ S.RB)).length := by
      rw [← ndims_eq, S.ndimsAB]; exact apos_le _
    -- shapes of the planes
    have hds_shape : ∀ d ∈ ds, d.shape = (dims (S.RA ++ S.RB)).insertIdx pr S.m := by
      intro d hd
      obtain ⟨i, hi, rfl⟩ := List.getElem_of_mem hd
      obtain ⟨d', h1, h2⟩ := hdat i _ (List.getElem?_eq_getElem (by omega))
      rw [List.getElem?_eq_getElem hi] at h1; cases h1
      exact h2.shape
    have hdne : ds ≠ [] := by
      intro h0; rw [h0] at hdl
      exact hne (List.length_eq_zero_iff.mp hdl.symm)
    obtain ⟨d0, hd0⟩ : ∃ d0, d0 ∈ ds := List.exists_mem_of_ne_nil _ hdne
    have haA : a = ndims S.RA := S.ndimsA.symm
    have hkle : k' ≤ ((dims (S.RA ++ S.RB)).insertIdx pr S.m).length := by
      rw [List.length_insertIdx_of_le_length hprl]
      simp only [k']; split <;> omega
    obtain ⟨st', hst', atst⟩ := stack_isAt hdne hds_shape hkle d0
    -- exchange stack axis and advanced axis
    have sw := IsAt.swap (G := fun i j r => (S.gen (sel[i]?.getD (sel.head hne))).get
        (walk (S.RA ++ S.RB) j r)) atst hprl (by
      intro i j r hi hj hr
      have hi' : i < sel.length := by omega
      obtain ⟨d, h1, h2⟩ := hdat i _ (List.getElem?_eq_getElem hi')
      rw [h1, Option.getD_some, h2.get j r hj hr, List.getElem?_eq_getElem hi', Option.getD_some])
    simp only at sw
    have hbp : (if pr < k' then k' - 1 else k') = ndims S.RA := by
      have hrem := apos_remove (fl S.A) (fl S.B)
      have e1 : fl S.A ++ true :: fl S.B = fl (S.A ++ S.x :: S.B) := by simp [fl, hxb]
      have e2 : fl S.A ++ fl S.B = fl (S.A ++ S.B) := by simp [fl]
      rw [e1, e2] at hrem
      rw [← haA]
      have r1 : pf ≤ a → pr ≤ a := hrem.1
      have r2 : a < pf → a ≤ pr := hrem.2
      by_cases hap : a < pf
      · have := r2 hap
        simp only [k', hap, if_true]
        rw [if_neg (by omega)]
      · have := r1 (by omega)
        simp only [k', hap, if_false]
        rw [if_pos (by omega)]; omega
    rw [hbp] at sw
    obtain ⟨y, hy, aty⟩ := moveOps_isAt sw (i2 := pf) (by
      rw [List.length_insertIdx_of_le_length hnA]; exact hpf)
    have hdsl : ds.length = ks.length := by omega
    rw [hdsl] at aty
    refine ⟨ds, st', y, hds, hdl, hst', ?_, aty.equiv atb ?_⟩
    · rw [List.length_insertIdx_of_le_length hnA, ← ndims_eq, S.ndimsAB] at hy
      exact hy
    · intro j r hj hr
      obtain ⟨i, r', hi, hr', rfl⟩ := InB.insert_split hnA hr
      rw [getD_insertIdx_self (by rw [hr'.length]; exact hnA), List.eraseIdx_insertIdx_self]
      have hi' : i < sel.length := by omega
      rw [List.getElem?_eq_getElem hi', Option.getD_some]
      exact elt i j r' _ hi (List.getElem?_eq_getElem hi') hr'
  · have hadv' : (S.A ++ S.B).any isAdv = false := by simpa using hadv
    simp only [hadv']
    have hb := S.hb
    rw [indexRes_basic _ (by rw [S.anyW, hany]; exact hadv')] at hb
    have hds := S.planes_basic hadv' sel hmem
    generalize hdsdef : (sel.map fun a => (⟨dims (S.RA ++ S.RB),
      fun r => (S.gen a).get (walk (S.RA ++ S.RB) 0 r)⟩ : Arr α)) = ds at hds
    have hdl : ds.length = sel.length := by rw [← hdsdef]; simp
    have hdne : ds ≠ [] := by
      intro h0; rw [h0] at hdl
      exact hne (List.length_eq_zero_iff.mp hdl.symm)
    obtain ⟨d0, hd0⟩ : ∃ d0, d0 ∈ ds := List.exists_mem_of_ne_nil _ hdne
    have haA : a = ndims S.RA := S.ndimsA.symm
    obtain ⟨st', hst', atst⟩ := stack_isAt (k := a) (s := dims (S.RA ++ S.RB)) hdne (by
      intro d hd; rw [← hdsdef] at hd
      obtain ⟨x, _, rfl⟩ := List.mem_map.mp hd; rfl) (by rw [haA]; exact hnA) d0
    refine ⟨ds, st', st', hds, hdl, by simpa using hst', rfl, ?_, ?_⟩
    · have : S.b.shape = dims (S.RA ++ S.rx :: S.RB) := by
        have := congrArg Arr.shape (Option.some.inj hb); exact this.symm
      rw [this, hdim, atst.shape, haA]
      congr 1; omega
    · intro r hr
      have hbg : ∀ r, S.b.get r = S.st.get (walk (S.RA ++ S.rx :: S.RB) 0 r) := by
        intro r
        have := congrFun (congrArg Arr.get (Option.some.inj hb)) r; exact this.symm
      rw [atst.shape] at hr
      obtain ⟨i, r', hi, hr', rfl⟩ := InB.insert_split atst.le hr
      rw [atst.get i r' hi hr', hbg]
      have hi' : i < sel.length := by omega
      have hdi : ds[i]? = some ⟨dims (S.RA ++ S.RB),
          fun r => (S.gen sel[i]).get (walk (S.RA ++ S.RB) 0 r)⟩ := by
        rw [← hdsdef, List.getElem?_map, List.getElem?_eq_getElem hi']; rfl
      rw [hdi, Option.getD_some, haA]
      exact elt i 0 r' _ (by omega) (List.getElem?_eq_getElem hi') hr'

end Setup

end SC.Indexing
