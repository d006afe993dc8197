import Verif.Indexing.ProbeLemmas
/-! # Helper lemmas: extracting and restoring `np.newaxis` -/
namespace SC.Indexing
open SC.Py SC.Numpy

def noNew (is : List Item) : List Item := is.filter (· != .newaxis)
def rNoNew (rs : List Res) : List Res := rs.filter (· != .new)

/-- Which result dimensions (advanced one excluded) are new. -/
def maskI (is : List Item) : List Bool := (is.filter bdim).map (· == .newaxis)
def maskR (rs : List Res) : List Bool := (rs.filter Res.isDim).map (· == .new)

theorem plain_cases {i : Item} {is : List Item} (hp : Plain (i :: is)) :
    i = .newaxis ∨ (i ≠ .newaxis ∧ i.consumes) := by
  have := hp i (by simp)
  cases i <;> simp_all [Item.consumes]

theorem resolve1_kind {n : Nat} {i : Item} {r : Res} (h : resolve1 n i = some r) :
    r ≠ .new ∧ (∀ b, r ≠ .flag b) ∧ r.isDim = bdim i ∧ r.isMany = isAdv i ∧ i ≠ .newaxis := by
  cases i with
  | int k =>
    simp only [resolve1, Option.map_eq_some_iff] at h
    obtain ⟨x, _, rfl⟩ := h
    simp [Res.isDim, Res.isMany, bdim, isAdv]
  | slice k =>
    simp only [resolve1, Option.map_eq_some_iff] at h
    obtain ⟨x, _, rfl⟩ := h
    simp [Res.isDim, Res.isMany, bdim, isAdv]
  | ilist k =>
    simp only [resolve1, Option.map_eq_some_iff] at h
    obtain ⟨x, _, rfl⟩ := h
    simp [Res.isDim, Res.isMany, bdim, isAdv]
  | blist k =>
    simp only [resolve1] at h
    split at h <;> simp at h
    subst h
    simp [Res.isDim, Res.isMany, bdim, isAdv]
  | _ => simp [resolve1] at h

theorem resolve_facts {is : List Item} {s : List Nat} {rs : List Res} (hp : Plain is)
    (h : resolve is s = some rs) :
    rs.map Res.isDim = is.map bdim ∧ rs.any Res.isMany = is.any isAdv ∧
    maskR rs = maskI is ∧ resolve (noNew is) s = some (rNoNew rs) := by
  induction is generalizing s rs with
  | nil =>
    cases s with
    | nil => simp [resolve] at h; subst h; simp [maskR, maskI, noNew, rNoNew, resolve]
    | cons n s => simp [resolve] at h
  | cons i is ih =>
    rcases plain_cases hp with rfl | ⟨hn, hcons⟩
    · simp only [resolve, Option.map_eq_some_iff] at h
      obtain ⟨t, ht, rfl⟩ := h
      obtain ⟨h1, h2, h3, h4⟩ := ih hp.tail ht
      refine ⟨by simp [h1, Res.isDim, bdim], by simp [h2, Res.isMany, isAdv], ?_, ?_⟩
      · simp only [maskR, maskI] at h3 ⊢
        simp [List.filter_cons, Res.isDim, bdim, h3]
      · simpa [noNew, rNoNew] using h4
    · obtain ⟨n, s', r, rs', rfl, rfl, h5, h6⟩ := resolve_cons_some hcons h
      obtain ⟨h1, h2, h3, h4⟩ := ih hp.tail h6
      obtain ⟨k1, k2, k3, k4, _⟩ := resolve1_kind h5
      refine ⟨by simp [h1, k3], by simp [h2, k4], ?_, ?_⟩
      · simp only [maskR, maskI] at h3 ⊢
        simp only [List.filter_cons, k3]
        split
        · simp [h3, k1, hn]
        · exact h3
      · have e1 : noNew (i :: is) = i :: noNew is := by simp [noNew, hn]
        have e2 : rNoNew (r :: rs') = r :: rNoNew rs' := by simp [rNoNew, k1]
        rw [e1, e2, resolve_cons hcons, h5, h4]; rfl

theorem mask_facts {rs : List Res} :
    rs.filterMap Res.dimLen? = fill (maskR rs) ((rNoNew rs).filterMap Res.dimLen?) ∧
    nold (maskR rs) = ((rNoNew rs).filterMap Res.dimLen?).length ∧
    (maskR rs).length = (rs.filterMap Res.dimLen?).length ∧
    (rNoNew rs).filterMap Res.len? = rs.filterMap Res.len? ∧
    (rNoNew rs).any Res.isMany = rs.any Res.isMany ∧
    ∀ j r, r.length = (maskR rs).length → walk rs j r = walk (rNoNew rs) j (dropM (maskR rs) r) := by
  induction rs with
  | nil => simp [maskR, rNoNew, fill, nold, dropM, walk]
  | cons x rs ih =>
    obtain ⟨h1, h2, h3, h4, h5, h6⟩ := ih
    cases x with
    | new =>
      have e1 : maskR (.new :: rs) = true :: maskR rs := by
        simp [maskR, List.filter_cons, Res.isDim]
      have e2 : rNoNew (.new :: rs) = rNoNew rs := by simp [rNoNew]
      rw [e1, e2]
      refine ⟨by simp [Res.dimLen?, fill, h1], by simpa [nold] using h2,
        by simp [Res.dimLen?, h3], by rw [h4]; simp [List.filterMap_cons, Res.len?],
        by rw [h5]; simp [Res.isMany], ?_⟩
      intro j r hr
      cases r with
      | nil => simp at hr
      | cons i r => simpa [walk, dropM] using h6 j r (by simpa using hr)
    | span ks =>
      have e1 : maskR (.span ks :: rs) = false :: maskR rs := by
        simp [maskR, List.filter_cons, Res.isDim]
      have e2 : rNoNew (.span ks :: rs) = .span ks :: rNoNew rs := by simp [rNoNew]
      rw [e1, e2]
      refine ⟨by simp [Res.dimLen?, fill, h1], by simpa [nold, Res.dimLen?] using h2,
        by simp [Res.dimLen?, h3], by simp [List.filterMap_cons, Res.len?, h4],
        by simp [Res.isMany, h5], ?_⟩
      intro j r hr
      cases r with
      | nil => simp at hr
      | cons i r =>
        have := h6 j r (by simpa using hr)
        simp [walk, dropM, this]
    | pick k =>
      have e1 : maskR (.pick k :: rs) = maskR rs := by
        simp [maskR, Res.isDim]
      have e2 : rNoNew (.pick k :: rs) = .pick k :: rNoNew rs := by simp [rNoNew]
      rw [e1, e2]
      refine ⟨by simp [List.filterMap_cons, Res.dimLen?, h1],
        by simpa [List.filterMap_cons, Res.dimLen?] using h2,
        by simp [List.filterMap_cons, Res.dimLen?, h3], by simp [List.filterMap_cons, Res.len?, h4],
        by simp [Res.isMany, h5], ?_⟩
      intro j r hr
      simp [walk, h6 j r hr]
    | many k =>
      have e1 : maskR (.many k :: rs) = maskR rs := by
        simp [maskR, Res.isDim]
      have e2 : rNoNew (.many k :: rs) = .many k :: rNoNew rs := by simp [rNoNew]
      rw [e1, e2]
      refine ⟨by simp [List.filterMap_cons, Res.dimLen?, h1],
        by simpa [List.filterMap_cons, Res.dimLen?] using h2,
        by simp [List.filterMap_cons, Res.dimLen?, h3], by simp [List.filterMap_cons, Res.len?, h4],
        by simp [Res.isMany], ?_⟩
      intro j r hr
      simp [walk, h6 j r hr]
    | flag k =>
      have e1 : maskR (.flag k :: rs) = maskR rs := by
        simp [maskR, Res.isDim]
      have e2 : rNoNew (.flag k :: rs) = .flag k :: rNoNew rs := by simp [rNoNew]
      rw [e1, e2]
      refine ⟨by simp [List.filterMap_cons, Res.dimLen?, h1],
        by simpa [List.filterMap_cons, Res.dimLen?] using h2,
        by simp [List.filterMap_cons, Res.dimLen?, h3], by simp [List.filterMap_cons, Res.len?, h4],
        by simp [Res.isMany], ?_⟩
      intro j r hr
      simp [walk, h6 j r hr]

def mark (b : Bool) : Nat := if b then 1 else 3

theorem dimsOf_threes {is : List Item} {n : Nat} (hp : Plain is) (hc : countConsuming is = n) :
    dimsOf is (List.replicate n 3) = (maskI is).map mark := by
  induction is generalizing n with
  | nil => rfl
  | cons i is ih =>
    rcases plain_cases hp with rfl | ⟨hn, hcons⟩
    · have := ih (n := n) hp.tail (by simpa [countConsuming, Item.consumes] using hc)
      simp [dimsOf, this, maskI, List.filter_cons, bdim, mark]
    · cases n with
      | zero => simp [countConsuming, hcons] at hc
      | succ n =>
        have := ih (n := n) hp.tail (by simpa [countConsuming, hcons] using hc)
        rw [List.replicate_succ]
        cases i <;> simp_all [dimsOf, maskI, List.filter_cons, bdim, mark]

theorem filter_marks_insert {mk : List Bool} {p : Nat} (hp : p ≤ mk.length) :
    ((mk.map mark).insertIdx p 2).filter (· != 1) =
      (List.replicate (nold mk) 3).insertIdx (nold (mk.take p)) 2 := by
  induction mk generalizing p with
  | nil =>
    have : p = 0 := by simpa using hp
    subst this; rfl
  | cons b mk ih =>
    cases p with
    | zero =>
      have h0 : (mk.map mark).filter (· != 1) = List.replicate (nold mk) 3 := by
        clear ih hp
        induction mk with
        | nil => rfl
        | cons b mk ih =>
          cases b <;> simp [mark, nold, List.filter_cons] <;>
            simpa [nold, List.replicate_succ] using ih
      cases b <;> simp [mark, nold, List.filter_cons] <;>
        simpa [nold, List.replicate_succ] using h0
    | succ p =>
      have := ih (p := p) (by simpa using hp)
      cases b <;> simp [mark, nold, List.filter_cons] <;>
        simpa [nold, List.replicate_succ] using this

theorem marks_items_insert {mk : List Bool} {p : Nat} :
    ((mk.map mark).insertIdx p 2).map (fun i => if i = 1 then Item.newaxis else full) =
      maskItems (mk.insertIdx p false) := by
  rw [List.map_insertIdx, maskItems, List.map_insertIdx, List.map_map]
  congr 1
  apply List.map_congr_left
  intro b _
  cases b <;> rfl

theorem marks_items (mk : List Bool) :
    (mk.map mark).map (fun i => if i = 1 then Item.newaxis else full) = maskItems mk := by
  rw [List.map_map, maskItems]
  apply List.map_congr_left
  intro b _
  cases b <;> rfl

theorem countConsuming_noNew {is : List Item} (hp : Plain is) :
    countConsuming is = (noNew is).length := by
  induction is with
  | nil => rfl
  | cons i is ih =>
    have := ih hp.tail
    rcases plain_cases hp with rfl | ⟨hn, hcons⟩
    · simpa [countConsuming, noNew, Item.consumes] using this
    · simpa [countConsuming, noNew, hn, hcons] using this

theorem Plain.noNew {is : List Item} (hp : Plain is) : Plain (noNew is) :=
  fun i hi => hp i (List.mem_filter.mp hi).1

theorem maskI_length (is : List Item) : (maskI is).length = ((is.map bdim).filter id).length := by
  simp [maskI, List.filter_map]

theorem nold_mask_noNew {is : List Item} : nold (maskI is) = nold (maskI (noNew is)) ∧
    (maskI (noNew is)) = List.replicate (nold (maskI is)) false := by
  induction is with
  | nil => simp [maskI, noNew, nold]
  | cons i is ih =>
    by_cases hn : i = .newaxis
    · subst hn
      simpa [maskI, noNew, nold, List.filter_cons, bdim] using ih
    · have e : SC.Indexing.noNew (i :: is) = i :: SC.Indexing.noNew is := by
        simp [SC.Indexing.noNew, hn]
      rw [e]
      obtain ⟨h1, h2⟩ := ih
      by_cases hb : bdim i
      · have e2 : ∀ l, maskI (i :: l) = false :: maskI l := by
          intro l; simp [maskI, List.filter_cons, hb, hn]
        rw [e2, e2, h2]
        simp [nold, List.replicate_succ]
      · have e2 : ∀ l, maskI (i :: l) = maskI l := by
          intro l; simp [maskI, List.filter_cons, hb]
        rw [e2, e2]; exact ⟨h1, h2⟩

/-- extract_newaxis: the remaining index and operators that restore the new axes. -/
theorem extractNewaxis_spec {is : List Item} {s : List Nat} {rs : List Res} {m : Nat}
    (hp : Plain is) (h : resolve is s = some rs)
    (hm : ∀ l ∈ rs.filterMap Res.len?, l = m) :
    ∃ ops, extractNewaxis is = some (noNew is, ops) ∧
      ∀ (α : Type) (a y b0 b : Arr α), indexRes a (rNoNew rs) = some b0 → indexRes a rs = some b →
        y.Equiv b0 → ∃ z, applyOps y ops = some z ∧ z.Equiv b := by
  obtain ⟨f1, f2, f3, f4⟩ := resolve_facts hp h
  obtain ⟨g1, g2, g3, g4, g5, g6⟩ := mask_facts (rs := rs)
  obtain ⟨hc, _⟩ := resolve_count h
  have hc' := countConsuming_noNew hp
  by_cases hnew : is.any (· == .newaxis)
  · -- the probes
    have hw := without_eq is
    have hlw : (is.filterMap nonNewaxis).length = (noNew is).length := by
      rw [hw]; simp [noNew]
    have hs1 := probe_shape (m := 2) (s := List.replicate (noNew is).length 3) hp
      (by simpa using hc') (by intro n hn; have := (List.mem_replicate.mp hn).2; omega)
    have hcc : countConsuming (noNew is) = (noNew is).length := by
      have := countConsuming_noNew hp.noNew
      rw [this]; simp [noNew]
    have hs2 := probe_shape (m := 2) (s := List.replicate (noNew is).length 3) hp.noNew
      (by simpa using hcc) (by intro n hn; have := (List.mem_replicate.mp hn).2; omega)
    have hd1 := dimsOf_threes hp hc'
    have hd2 := dimsOf_threes hp.noNew hcc
    have hd2' : (maskI (noNew is)).map mark = List.replicate (nold (maskI is)) 3 := by
      rw [(nold_mask_noNew (is := is)).2]; simp [mark]
    have hany : (noNew is).any isAdv = is.any isAdv := by
      have := (resolve_facts hp.noNew f4).2.1
      rw [← this, g5, f2]
    have hs2' : (if (List.replicate (noNew is).length 3).length = 0 then some []
        else npShape (List.replicate (noNew is).length 3) ((noNew is).map (probe 2))) =
        some (if is.any isAdv then (List.replicate (nold (maskI is)) 3).insertIdx
          (apos ((noNew is).map bdim)) 2 else List.replicate (nold (maskI is)) 3) := by
      by_cases h0 : (noNew is).length = 0
      · have h00 : noNew is = [] := List.length_eq_zero_iff.mp h0
        have hna : is.any isAdv = false := by rw [← hany, h00]; rfl
        have hn0 : nold (maskI is) = 0 := by
          rw [nold_mask_noNew.1, h00]; rfl
        simp [h0, hna, hn0]
      · rw [if_neg (by simpa using h0), hs2, hd2, hd2', hany]
    have hpf : apos (is.map bdim) ≤ (maskI is).length := by
      rw [maskI_length]; exact apos_le _
    have hp0 : apos ((noNew is).map bdim) ≤ nold (maskI is) := by
      have := apos_le ((noNew is).map bdim)
      rw [← maskI_length, (nold_mask_noNew (is := is)).2] at this
      simpa using this
    by_cases ha : is.any isAdv
    · have hq : nold ((maskI is).take (apos (is.map bdim))) ≤ nold (maskI is) := by
        simp only [nold]
        exact ((List.take_sublist _ _).filter _).length_le
      refine ⟨moveOps ((nold (maskI is)) + 1) (apos ((noNew is).map bdim))
          (nold ((maskI is).take (apos (is.map bdim)))) ++
          [Op.index (maskItems ((maskI is).insertIdx (apos (is.map bdim)) false))], ?_, ?_⟩
      · simp only [extractNewaxis, if_pos hnew, withNew_eq]
        rw [hlw, hs1, hd1, hw]
        simp only [Option.bind_some]
        have : (is.filter (· != .newaxis)) = noNew is := rfl
        rw [this, hs2']
        simp only [Option.bind_some, if_pos ha]
        rw [index?_insert (by simp [List.mem_replicate]) (by simpa using hp0)]
        simp only
        rw [filter_marks_insert hpf, index?_insert (by simp [List.mem_replicate]) (by simpa using hq)]
        simp only [Option.map_some, Option.bind_some]
        rw [marks_items_insert, List.length_insertIdx_of_le_length (by simpa using hp0)]
        simp
      · intro α a y b0 b hb0 hb hy
        have hmany : rs.any Res.isMany := by rw [f2]; exact ha
        obtain ⟨c0, hc0, at0⟩ := indexRes_adv a (rs := rNoNew rs) (m := m)
          (by rw [g5]; exact hmany) (by rw [g4]; exact hm)
        obtain ⟨c1, hc1, at1⟩ := indexRes_adv a (rs := rs) (m := m) hmany hm
        rw [hb0] at hc0; rw [hb] at hc1
        cases hc0; cases hc1
        have aty := at0.congr hy
        have e0 : advPos (rNoNew rs) = apos ((noNew is).map bdim) := by
          rw [advPos_eq, (resolve_facts hp.noNew f4).1]
        have e1 : advPos rs = apos (is.map bdim) := by rw [advPos_eq, f1]
        rw [e0] at aty
        rw [e1] at at1
        have hlen : ((rNoNew rs).filterMap Res.dimLen?).length = nold (maskI is) := by
          rw [← g2, f3]
        obtain ⟨w, hw1, hw2⟩ := moveOps_isAt aty
          (i2 := nold ((maskI is).take (apos (is.map bdim)))) (by rw [hlen]; exact hq)
        rw [hlen] at hw1
        rw [applyOps_append, hw1]
        simp only [Option.bind_some, applyOps, Op.apply]
        rw [← f3] at hq hw2 hpf ⊢
        have hnold : nold ((maskR rs).insertIdx (apos (is.map bdim)) false) = w.shape.length := by
          rw [hw2.shape, List.length_insertIdx_of_le_length hw2.le, ← g2]
          simp only [nold]
          rw [List.Perm.length_eq ((List.perm_insertIdx false _ hpf).filter _)]
          simp
        obtain ⟨z, hz, hzs, hzg⟩ := npGet_mask hnold
        refine ⟨z, by rw [hz]; rfl, IsAt.equiv (p := apos (is.map bdim)) (m := m)
          (s := rs.filterMap Res.dimLen?) (f := fun j r => a.get (walk rs j r)) ⟨at1.le, ?_, ?_⟩ at1
          (fun _ _ _ _ => rfl)⟩
        · rw [hzs, hw2.shape, fill_insert g2 hpf, ← g1]
        · intro j r hj hr
          have hrl : (maskR rs).length = r.length := by rw [g3, hr.length]
          have hin : InB (r.insertIdx (apos (is.map bdim)) j)
              (fill ((maskR rs).insertIdx (apos (is.map bdim)) false) w.shape) := by
            rw [hw2.shape, fill_insert g2 hpf, ← g1]
            exact InB.insert at1.le hj hr
          rw [hzg _ hin, dropM_insert hrl hpf]
          have hdr : InB (dropM (maskR rs) r) ((rNoNew rs).filterMap Res.dimLen?) :=
            dropM_inB g2 (by rw [← g1]; exact hr)
          rw [hw2.get j _ hj hdr, g6 j r hrl.symm]
    · have hna : is.any isAdv = false := by simpa using ha
      refine ⟨[Op.index (maskItems (maskI is))], ?_, ?_⟩
      · simp only [extractNewaxis, if_pos hnew, withNew_eq]
        rw [hlw, hs1, hd1, hw]
        simp only [Option.bind_some]
        have : (is.filter (· != .newaxis)) = noNew is := rfl
        rw [this, hs2']
        simp only [Option.bind_some, hna]
        rw [index?_none (by simp [List.mem_replicate])]
        simp only [Bool.false_eq_true, if_false, Option.bind_some, List.nil_append, marks_items]
      · intro α a y b0 b hb0 hb hy
        have hmany : rs.any Res.isMany = false := by rw [f2]; exact hna
        rw [indexRes_basic a hmany] at hb
        rw [indexRes_basic a (by rw [g5]; exact hmany)] at hb0
        cases hb; cases hb0
        have hys : y.shape = (rNoNew rs).filterMap Res.dimLen? := hy.1
        have hnold : nold (maskI is) = y.shape.length := by rw [← f3, g2, hys]
        obtain ⟨z, hz, hzs, hzg⟩ := npGet_mask hnold
        refine ⟨z, by simp [applyOps, Op.apply, hz], ?_, ?_⟩
        · rw [hzs, hys, ← f3, ← g1]
        · intro r hr
          rw [hzs] at hr
          rw [hzg r hr]
          have hr' : InB r (rs.filterMap Res.dimLen?) := by rw [g1, f3, ← hys]; exact hr
          have hdr := dropM_inB hnold hr
          rw [hy.2 _ hdr]
          simp only
          rw [g6 0 r (by rw [g3, hr'.length]), f3]
  · have hno : noNew is = is := by
      simp only [noNew]
      rw [List.filter_eq_self]
      intro x hx
      simp only [bne_iff_ne]
      rintro rfl
      exact hnew (by rw [List.any_eq_true]; exact ⟨.newaxis, hx, by simp⟩)
    refine ⟨[], by simp [extractNewaxis, hnew, hno], ?_⟩
    intro α a y b0 b hb0 hb hy
    rw [hno, h] at f4
    have hrr := Option.some.inj f4
    rw [← hrr, hb] at hb0
    cases hb0
    exact ⟨y, rfl, hy⟩

end SC.Indexing
