import Verif.Indexing.AxisLemmas
/-! # Helper lemmas: the result of `extractAxis` in closed form -/
namespace SC.Indexing
open SC.Py SC.Numpy

/-- No `np.newaxis`, ellipsis or scalar bool. -/
def Basic (is : List Item) : Prop := ∀ i ∈ is, i.consumes = true

theorem Basic.plain {is : List Item} (h : Basic is) : Plain is := by
  intro i hi
  have := h i hi
  constructor
  · rintro rfl; simp [Item.consumes] at this
  · rintro b rfl; simp [Item.consumes] at this

theorem Basic.count {is : List Item} (h : Basic is) : countConsuming is = is.length := by
  rw [countConsuming, List.filter_eq_self.mpr h]

theorem Basic.trim {is : List Item} (h : Basic is) : is.map trimIndex = is.map (probe 2) := by
  apply List.map_congr_left
  intro i hi
  apply trimIndex_eq
  rintro rfl
  have := h _ hi
  simp [Item.consumes] at this

theorem ctrue_append (as bs : List Bool) : ctrue (as ++ bs) = ctrue as + ctrue bs := by
  simp [ctrue]

theorem set_replicate_mid (a b : Nat) :
    (List.replicate (a + (b + 1)) 1).set a 3 = List.replicate a 1 ++ 3 :: List.replicate b 1 := by
  induction a with
  | zero => rw [Nat.zero_add, List.replicate_succ]; rfl
  | succ a ih =>
    rw [Nat.succ_add, List.replicate_succ, List.replicate_succ, List.set_cons_succ, ih]; rfl

theorem replicate_insert (a b v : Nat) :
    List.replicate a 1 ++ v :: List.replicate b 1 = (List.replicate (a + b) 1).insertIdx a v := by
  have := insertIdx_append (List.replicate a 1) (List.replicate b 1) v
  rw [List.length_replicate] at this
  rw [← this, ← List.replicate_append_replicate]

section
variable {A B : List Item} {x : Item}

/-- Flags of the index without / with the stack axis. -/
abbrev fl (is : List Item) : List Bool := is.map bdim

theorem iadvOf_eq {is : List Item} (h : Basic is) (hne : is ≠ []) :
    iadvOf is = some (if is.any isAdv then some (apos (fl is)) else none) := by
  have hc := h.count
  have hs := probe_shape (m := 2) (s := List.replicate is.length 1) h.plain (by simpa using hc)
    (by intro n hn; have := (List.mem_replicate.mp hn).2; omega)
  have hlen : is.length ≠ 0 := fun h0 => hne (List.length_eq_zero_iff.mp h0)
  rw [iadvOf, if_neg hlen, dimChanging_eq, hs, Option.map_some]
  rw [index?_probe h.plain (by simpa using hc)]
  intro hm
  rcases dimsOf_mem hm with h | h
  · omega
  · have := (List.mem_replicate.mp h).2; omega

/-- Probe with the stack axis marked by 3, when that axis is sliced. -/
theorem probe_axis_slice (h : Basic (A ++ x :: B)) (hx : bdim x = true) :
    npShape ((List.replicate (A ++ x :: B).length 1).set A.length 3) ((A ++ x :: B).map trimIndex) =
      some (let l := (List.replicate (ctrue (fl A) + ctrue (fl B)) 1).insertIdx (ctrue (fl A)) 3
        if (A ++ x :: B).any isAdv then l.insertIdx (apos (fl (A ++ x :: B))) 2 else l) := by
  have hA : Basic A := fun i hi => h i (by simp [hi])
  have hB : Basic B := fun i hi => h i (by simp [hi])
  rw [h.trim]
  have e : ((List.replicate (A ++ x :: B).length 1).set A.length 3) =
      List.replicate A.length 1 ++ 3 :: List.replicate B.length 1 := by
    rw [← set_replicate_mid]; simp
  rw [e, probe_shape h.plain (by rw [h.count]; simp) (by
    intro n hn
    simp only [List.mem_append, List.mem_cons, List.mem_replicate] at hn; omega)]
  have hd : dimsOf (A ++ x :: B) (List.replicate A.length 1 ++ 3 :: List.replicate B.length 1) =
      (List.replicate (ctrue (fl A) + ctrue (fl B)) 1).insertIdx (ctrue (fl A)) 3 := by
    rw [dimsOf_append hA.plain (by rw [hA.count]; simp)]
    have hcx : x.consumes := h x (by simp)
    have : dimsOf (x :: B) (3 :: List.replicate B.length 1) =
        3 :: dimsOf B (List.replicate B.length 1) := by
      cases x <;> simp_all [dimsOf, bdim, Item.consumes]
    rw [this, dimsOf_ones hA.plain hA.count, dimsOf_ones hB.plain hB.count]
    exact replicate_insert _ _ 3
  rw [hd]

theorem probe_axis_int (h : Basic (A ++ x :: B)) (hx : bdim x = false) :
    npShape ((List.replicate (A ++ x :: B).length 1).set A.length 3) ((A ++ x :: B).map trimIndex) =
      some (let l := List.replicate (ctrue (fl A) + ctrue (fl B)) 1
        if (A ++ x :: B).any isAdv then l.insertIdx (apos (fl (A ++ x :: B))) 2 else l) := by
  have hA : Basic A := fun i hi => h i (by simp [hi])
  have hB : Basic B := fun i hi => h i (by simp [hi])
  rw [h.trim]
  have e : ((List.replicate (A ++ x :: B).length 1).set A.length 3) =
      List.replicate A.length 1 ++ 3 :: List.replicate B.length 1 := by
    rw [← set_replicate_mid]; simp
  rw [e, probe_shape h.plain (by rw [h.count]; simp) (by
    intro n hn
    simp only [List.mem_append, List.mem_cons, List.mem_replicate] at hn; omega)]
  have hd : dimsOf (A ++ x :: B) (List.replicate A.length 1 ++ 3 :: List.replicate B.length 1) =
      List.replicate (ctrue (fl A) + ctrue (fl B)) 1 := by
    rw [dimsOf_append hA.plain (by rw [hA.count]; simp)]
    have hcx : x.consumes := h x (by simp)
    have : dimsOf (x :: B) (3 :: List.replicate B.length 1) =
        dimsOf B (List.replicate B.length 1) := by
      cases x <;> simp_all [dimsOf, bdim, Item.consumes]
    rw [this, dimsOf_ones hA.plain hA.count, dimsOf_ones hB.plain hB.count]
    exact List.replicate_append_replicate
  rw [hd]

/-- Probe of the other dimensions. -/
theorem probe_rest (h : Basic (A ++ B)) :
    npShape (List.replicate ((A ++ x :: B).length - 1) 1) ((A ++ B).map trimIndex) =
      some (let l := List.replicate (ctrue (fl A) + ctrue (fl B)) 1
        if (A ++ B).any isAdv then l.insertIdx (apos (fl (A ++ B))) 2 else l) := by
  have e : (A ++ x :: B).length - 1 = (A ++ B).length := by simp
  rw [h.trim, e, probe_shape h.plain (by rw [h.count]; simp) (by
    intro n hn
    simp only [List.mem_replicate] at hn; omega)]
  rw [dimsOf_ones h.plain h.count]
  have : ((A ++ B).map bdim).filter id = ((A.map bdim).filter id) ++ ((B.map bdim).filter id) := by
    simp
  rw [this]
  simp [ctrue]

theorem any_rest (hx : isAdv x = false) : (A ++ x :: B).any isAdv = (A ++ B).any isAdv := by
  simp [hx]

theorem not_mem_ones {n v : Nat} (h : v ≠ 1) : v ∉ List.replicate n 1 := by
  simp only [List.mem_replicate]; omega

/-- extract_axis on a list-indexed stack axis. -/
theorem extractAxis_adv {axis : Int} {n : Nat} {sA sB : List Nat} (h : Basic (A ++ x :: B))
    (hax : positiveaxis axis (A ++ x :: B).length = some A.length) (hsA : sA.length = A.length)
    (hx : isAdv x = true) :
    extractAxis (A ++ x :: B) axis (some (sA ++ n :: sB)) =
      some ⟨A ++ B, some (sA ++ sB), x, some n, some (apos (fl (A ++ x :: B))), []⟩ := by
  have e1 : (A ++ x :: B)[A.length]? = some x := by simp
  have e2 : (sA ++ n :: sB)[A.length]? = some n := by rw [← hsA]; simp
  have e3 : (sA ++ n :: sB).eraseIdx A.length = sA ++ sB := by rw [← hsA]; exact eraseIdx_append_mid _ _ _
  have ha : (A ++ x :: B).any isAdv = true := by simp [hx]
  simp only [extractAxis, hax, Option.bind_some, e1, e2, Option.map_some, e3,
    iadvOf_eq h (by simp), hx, if_true, ha, eraseIdx_append_mid]

/-- extract_axis on an integer-indexed stack axis. -/
theorem extractAxis_int {axis : Int} {n : Nat} {sA sB : List Nat} (h : Basic (A ++ x :: B))
    (hax : positiveaxis axis (A ++ x :: B).length = some A.length) (hsA : sA.length = A.length)
    (hx : isAdv x = false) (hb : bdim x = false) :
    extractAxis (A ++ x :: B) axis (some (sA ++ n :: sB)) =
      some ⟨A ++ B, some (sA ++ sB), x, some n, none,
        if (A ++ B).any isAdv then
          moveOps (ctrue (fl (A ++ B)) + 1) (apos (fl (A ++ B))) (apos (fl (A ++ x :: B)))
        else []⟩ := by
  have hAB : Basic (A ++ B) := fun i hi => h i (by simp at hi ⊢; tauto)
  have e1 : (A ++ x :: B)[A.length]? = some x := by simp
  have e2 : (sA ++ n :: sB)[A.length]? = some n := by rw [← hsA]; simp
  have e3 : (sA ++ n :: sB).eraseIdx A.length = sA ++ sB := by rw [← hsA]; exact eraseIdx_append_mid _ _ _
  have hcf : ctrue (fl (A ++ B)) = ctrue (fl A) + ctrue (fl B) := by
    simp only [fl, List.map_append]; exact ctrue_append _ _
  have hpf : apos (fl (A ++ x :: B)) ≤ ctrue (fl A) + ctrue (fl B) := by
    have := apos_le (fl (A ++ x :: B))
    simp only [fl, List.map_append, List.map_cons, hb] at this ⊢
    simp [List.filter_append] at this
    simpa [ctrue] using this
  have hpr : apos (fl (A ++ B)) ≤ ctrue (fl A) + ctrue (fl B) := by
    rw [← hcf]; exact apos_le _
  simp only [extractAxis, hax, Option.bind_some, e1, e2, Option.map_some, e3,
    iadvOf_eq h (by simp), hx, eraseIdx_append_mid, probe_axis_int h hb, any_rest hx]
  by_cases ha : (A ++ B).any isAdv
  · simp only [ha, if_true]
    have i3 : index? ((List.replicate (ctrue (fl A) + ctrue (fl B)) 1).insertIdx
        (apos (fl (A ++ x :: B))) 2) 3 = none := by
      apply index?_none
      rw [List.mem_insertIdx (by simpa using hpf)]
      simp [List.mem_replicate]
    simp only [i3, axisOps]
    rw [index?_insert (not_mem_ones (by omega)) (by simpa using hpf)]
    simp only [probe_rest hAB, ha, if_true, Option.bind_some]
    rw [index?_insert (not_mem_ones (by omega)) (by simpa using hpr)]
    simp only [Option.map_some, Option.bind_some]
    rw [List.length_insertIdx_of_le_length (by simpa using hpf), hcf, List.length_replicate]
    rfl
  · simp only [ha]
    have i3 : ∀ v, v ≠ 1 → index? (List.replicate (ctrue (fl A) + ctrue (fl B)) 1) v = none :=
      fun v hv => index?_none (not_mem_ones hv)
    simp [axisOps, i3]

/-- extract_axis on a sliced stack axis. -/
theorem extractAxis_slice {axis : Int} {n : Nat} {sA sB : List Nat} (h : Basic (A ++ x :: B))
    (hax : positiveaxis axis (A ++ x :: B).length = some A.length) (hsA : sA.length = A.length)
    (hx : isAdv x = false) (hb : bdim x = true) :
    let a := ctrue (fl A)
    let pf := apos (fl (A ++ x :: B))
    let pr := apos (fl (A ++ B))
    let k' := if a < pf then a else a + 1
    extractAxis (A ++ x :: B) axis (some (sA ++ n :: sB)) =
      some ⟨A ++ B, some (sA ++ sB), x, some n,
        some (if (A ++ B).any isAdv then k' else a),
        if (A ++ B).any isAdv then
          moveOps (ctrue (fl (A ++ B)) + 2) (if pr < k' then pr else pr + 1) pf
        else []⟩ := by
  intro a pf pr k'
  have hAB : Basic (A ++ B) := fun i hi => h i (by simp at hi ⊢; tauto)
  have e1 : (A ++ x :: B)[A.length]? = some x := by simp
  have e2 : (sA ++ n :: sB)[A.length]? = some n := by rw [← hsA]; simp
  have e3 : (sA ++ n :: sB).eraseIdx A.length = sA ++ sB := by rw [← hsA]; exact eraseIdx_append_mid _ _ _
  have hcf : ctrue (fl (A ++ B)) = ctrue (fl A) + ctrue (fl B) := by
    simp only [fl, List.map_append]; exact ctrue_append _ _
  have hpf : pf ≤ ctrue (fl A) + ctrue (fl B) + 1 := by
    have := apos_le (fl (A ++ x :: B))
    simp only [pf, fl, List.map_append, List.map_cons, hb] at this ⊢
    simp [List.filter_append] at this
    simp [ctrue]; omega
  have hpr : pr ≤ ctrue (fl A) + ctrue (fl B) := by
    rw [← hcf]; exact apos_le _
  simp only [extractAxis, hax, Option.bind_some, e1, e2, Option.map_some, e3,
    iadvOf_eq h (by simp), hx, eraseIdx_append_mid, probe_axis_slice h hb, any_rest hx]
  by_cases ha : (A ++ B).any isAdv
  · simp only [ha, if_true]
    -- position of the stack axis
    have sw := insertIdx_swap (List.replicate (ctrue (fl A) + ctrue (fl B)) 1) pf (ctrue (fl A)) 2 3
      (by simp) (by simpa using hpf)
    have i3 : index? (((List.replicate (ctrue (fl A) + ctrue (fl B)) 1).insertIdx (ctrue (fl A)) 3).insertIdx
        pf 2) 3 = some k' := by
      rw [sw]
      apply index?_insert
      · rw [List.mem_insertIdx]
        · simp [List.mem_replicate]
        · simp; split <;> omega
      · have : (if ctrue (fl A) < pf then pf - 1 else pf) ≤
            (List.replicate (ctrue (fl A) + ctrue (fl B)) 1).length := by simp; split <;> omega
        rw [List.length_insertIdx_of_le_length this]
        simp only [List.length_replicate, a]; split <;> omega
    have hl3 : ((List.replicate (ctrue (fl A) + ctrue (fl B)) 1).insertIdx (ctrue (fl A)) 3).length =
        ctrue (fl A) + ctrue (fl B) + 1 := by
      rw [List.length_insertIdx_of_le_length (by simp)]; simp
    have i2 : index? (((List.replicate (ctrue (fl A) + ctrue (fl B)) 1).insertIdx (ctrue (fl A)) 3).insertIdx
        pf 2) 2 = some pf := by
      apply index?_insert
      · rw [List.mem_insertIdx (by simp)]
        simp [List.mem_replicate]
      · rw [hl3]; exact hpf
    simp only [pf] at i3 i2
    simp only [i3, axisOps, i2, probe_rest hAB, ha, if_true, Option.bind_some]
    rw [index?_insert (not_mem_ones (by omega)) (by rw [List.length_replicate]; exact hpr)]
    simp only
    have hk' : k' ≤ ctrue (fl A) + ctrue (fl B) + 1 := by
      simp only [k', a]; split <;> omega
    have sw2 := insertIdx_swap (List.replicate (ctrue (fl A) + ctrue (fl B)) 1) k' pr 3 2
      (by simpa using hpr) (by simpa using hk')
    have i4 : index? (((List.replicate (ctrue (fl A) + ctrue (fl B)) 1).insertIdx pr 2).insertIdx
        k' 3) 2 = some (if pr < k' then pr else pr + 1) := by
      rw [sw2]
      have hb' : (if pr < k' then k' - 1 else k') ≤
          (List.replicate (ctrue (fl A) + ctrue (fl B)) 1).length := by simp; split <;> omega
      apply index?_insert
      · rw [List.mem_insertIdx hb']
        simp [List.mem_replicate]
      · rw [List.length_insertIdx_of_le_length hb']
        simp only [List.length_replicate]; split <;> omega
    simp only [pr] at i4
    rw [i4]
    simp only [Option.map_some, Option.bind_some]
    rw [List.length_insertIdx_of_le_length (by rw [hl3]; exact hpf), hl3, hcf]
    rfl
  · simp only [ha]
    have i2 : index? ((List.replicate (ctrue (fl A) + ctrue (fl B)) 1).insertIdx (ctrue (fl A)) 3) 2 =
        none := by
      apply index?_none
      rw [List.mem_insertIdx (by simp)]
      simp [List.mem_replicate]
    have i3 : index? ((List.replicate (ctrue (fl A) + ctrue (fl B)) 1).insertIdx (ctrue (fl A)) 3) 3 =
        some (ctrue (fl A)) := index?_insert (not_mem_ones (by omega)) (by simp)
    simp [axisOps, i2, i3, a]

end

end SC.Indexing
