import Verif.Indexing.GetitemLemmas
import Verif.Indexing.Spec
/-! # Helper lemmas for the property theorems of C01 and C03 -/
namespace SC.Indexing
open SC.Py SC.Numpy

theorem npExpand_one {i : Item} (hi : i.consumes = true) {nd : Nat} {is : List Item}
    (h : npExpand [i] nd = some is) : is = i :: List.replicate (nd - 1) full := by
  have hc : countConsuming [i] = 1 := by simp [countConsuming, hi]
  have hf : [i].findIdx? (· == .ellipsis) = none := by
    rw [List.findIdx?_eq_none_iff]
    intro x hx
    simp only [List.mem_singleton] at hx
    subst hx
    simp only [beq_eq_false_iff_ne]
    rintro rfl; simp [Item.consumes] at hi
  simp only [npExpand, hc, hf] at h
  split at h
  · simp at h
  · simpa [full] using h.symm

theorem expand_eq {index : Idx} {nd : Nat} {is : List Item} (hs : Supported index nd)
    (hb : ∀ b, Item.bool b ∉ index.items) (h : npExpand index.items nd = some is) :
    expand index nd = some (.tuple is) := by
  cases index with
  | tuple l =>
    have := expandTuple_eq (is := l) hb hs h
    simp [expand, this]
  | one i =>
    cases i with
    | ellipsis =>
      simp [Idx.items, npExpand, countConsuming, Item.consumes, List.findIdx?_cons] at h
      simp [expand, ← h, full]
    | newaxis =>
      simp [Idx.items, npExpand, countConsuming, Item.consumes, List.findIdx?_cons] at h
      simp [expand, ← h, full]
    | bool b => exact absurd (by simp [Idx.items]) (hb b)
    | _ =>
      have h2 : 1 < nd := by
        rcases hs with h | h | h
        · omega
        · simp at h
        · simp at h
      rw [npExpand_one rfl h]
      simp [expand, h2]

theorem lens_of_lists {m : Nat} {is : List Item} {s : List Nat} {rs : List Res}
    (hm : ListsOfLength m is) (hp : Plain is) (h : resolve is s = some rs) :
    ∀ l ∈ rs.filterMap Res.len?, l = m := by
  induction is generalizing s rs with
  | nil => cases s <;> simp [resolve] at h; subst h; simp
  | cons i is ih =>
    have hm' : ListsOfLength m is :=
      ⟨fun l hl => hm.1 l (by simp [hl]), fun l hl => hm.2 l (by simp [hl])⟩
    rcases plain_cases hp with rfl | ⟨hn, hcons⟩
    · simp only [resolve, Option.map_eq_some_iff] at h
      obtain ⟨t, ht, rfl⟩ := h
      simpa [List.filterMap_cons, Res.len?] using ih hm' hp.tail ht
    · obtain ⟨n, s', r, rs', rfl, rfl, h5, h6⟩ := resolve_cons_some hcons h
      have := ih hm' hp.tail h6
      intro l hl
      simp only [List.filterMap_cons] at hl
      split at hl
      · exact this l hl
      · rename_i v hv
        rcases List.mem_cons.mp hl with rfl | hl
        · have e := lenAdv1_eq h5
          rw [hv, Option.getD_some] at e
          rw [← e]
          have hk := (resolve1_kind h5).2.2.2.1
          have hrm : r.isMany = true := by
            cases r <;> first | rfl | (simp [Res.len?] at hv; done)
          rw [hrm] at hk
          cases i with
          | ilist k => exact hm.1 k (by simp)
          | blist k => exact hm.2 k (by simp)
          | _ => simp [isAdv] at hk
        · exact this l hl

theorem listsOfLength_expand {m nd : Nat} {is is' : List Item} (hbool : ∀ f, Item.bool f ∉ is)
    (hexp : npExpand is nd = some is') (hlists : ListsOfLength m is) : ListsOfLength m is' := by
  have hfacts := npExpand_facts hbool hexp
  constructor
  · intro l hl
    rcases hfacts _ hl with h | h
    · simp [full] at h
    · exact hlists.1 l h.1
  · intro l hl
    rcases hfacts _ hl with h | h
    · simp [full] at h
    · exact hlists.2 l h.1

theorem nonzeroFrom_eq (k : Nat) (l : List Bool) :
    nonzeroFrom k l = ((List.range l.length).filter fun p => l[p]? == some true).map (· + k) := by
  induction l generalizing k with
  | nil => rfl
  | cons b l ih =>
    rw [List.length_cons, List.range_succ_eq_map, List.filter_cons, nonzeroFrom, List.filter_map, ih]
    have e : List.filter ((fun p => (b :: l)[p]? == some true) ∘ Nat.succ) (List.range l.length) =
        List.filter (fun p => l[p]? == some true) (List.range l.length) := by
      apply List.filter_congr; intro x _; simp
    cases b
    · simp [e]
      intro a ha _; omega
    · simp [e]
      intro a ha _; omega

theorem selPositions_eq {n : Nat} {x : Item} {r : Res} (h : resolve1 n x = some r) :
    selectedPositions n x = some (selPositions r) := by
  cases x with
  | int i =>
    simp only [resolve1, Option.map_eq_some_iff] at h
    obtain ⟨c, hc, rfl⟩ := h
    simp [selectedPositions, selPositions, hc]
  | slice i =>
    simp only [resolve1, Option.map_eq_some_iff] at h
    obtain ⟨c, hc, rfl⟩ := h
    simp [selectedPositions, selPositions, hc]
  | ilist i =>
    simp only [resolve1, Option.map_eq_some_iff] at h
    obtain ⟨c, hc, rfl⟩ := h
    simp [selectedPositions, selPositions, hc]
  | blist i =>
    simp only [resolve1] at h
    split at h
    · simp at h; subst h
      simp only [selectedPositions, selPositions, nonzeroFrom_eq, Nat.add_zero, List.map_id']
    · simp at h
  | _ => simp [resolve1] at h

theorem resolve_getElem {is : List Item} {s : List Nat} {rs : List Res} {k : Nat} {r : Res}
    (hb : Basic is) (h : resolve is s = some rs) (hr : rs[k]? = some r) :
    ∃ x n, is[k]? = some x ∧ s[k]? = some n ∧ resolve1 n x = some r := by
  induction is generalizing s rs k with
  | nil => cases s <;> simp [resolve] at h; subst h; simp at hr
  | cons i is ih =>
    obtain ⟨n, s', r', rs', rfl, rfl, h5, h6⟩ := resolve_cons_some (hb i (by simp)) h
    cases k with
    | zero => simp at hr; subst hr; exact ⟨i, n, by simp, by simp, h5⟩
    | succ k =>
      simpa using ih (fun y hy => hb y (by simp [hy])) h6 (by simpa using hr)

theorem expandTuple_facts {is is' : List Item} {n : Nat} (hell : is.count .ellipsis ≤ 1)
    (hbool : ∀ f, Item.bool f ∉ is) (h : expandTuple is n = some is') :
    (is.filter (· != .newaxis)).length ≤ n ∧ Plain is' ∧ (is'.filter (· != .newaxis)).length = n ∧
      is'.count .newaxis = is.count .newaxis := by
  simp only [expandTuple] at h
  split at h
  · simp at h
  · rename_i hc
    have hle : (is.filter (· != .newaxis)).length ≤ n := by omega
    have hcf : ∀ k, (List.replicate k full).count .newaxis = 0 := by
      intro k; rw [List.count_replicate]; rfl
    have hff : ∀ k, ((List.replicate k full).filter (· != .newaxis)) = List.replicate k full := by
      intro k; rw [List.filter_replicate]; rfl
    refine ⟨hle, ?_⟩
    split at h
    · rename_i k hf
      simp only [Option.some.injEq] at h
      subst h
      obtain ⟨hk, hke, hkl⟩ := List.findIdx?_eq_some_iff_getElem.mp hf
      have hsplit : is = is.take k ++ .ellipsis :: is.drop (k + 1) := by
        have e : is[k] = .ellipsis := by simpa using hke
        rw [← e, List.getElem_cons_drop, List.take_append_drop]
      have hcount : is.count .ellipsis = (is.take k).count .ellipsis + ((is.drop (k + 1)).count .ellipsis + 1) := by
        conv => lhs; rw [hsplit]
        simp
      have h1 : Item.ellipsis ∉ is.take k := List.count_eq_zero.mp (by omega)
      have h2 : Item.ellipsis ∉ is.drop (k + 1) := List.count_eq_zero.mp (by omega)
      refine ⟨?_, ?_, ?_⟩
      · intro i hi
        rcases List.mem_append.mp hi with hi | hi
        · rcases List.mem_append.mp hi with hi | hi
          · exact ⟨fun h => h1 (h ▸ hi), fun f h => hbool f (h ▸ List.mem_of_mem_take hi)⟩
          · rw [(List.mem_replicate.mp hi).2]; simp [full]
        · exact ⟨fun h => h2 (h ▸ hi), fun f h => hbool f (h ▸ List.mem_of_mem_drop hi)⟩
      · have e : (is.filter (· != .newaxis)).length = ((is.take k).filter (· != .newaxis)).length +
            (((is.drop (k + 1)).filter (· != .newaxis)).length + 1) := by
          conv => lhs; rw [hsplit]
          simp [List.filter_cons]
        rw [List.filter_append, List.filter_append, hff]
        simp only [List.length_append, List.length_replicate]
        omega
      · have e : is.count .newaxis = (is.take k).count .newaxis + (is.drop (k + 1)).count .newaxis := by
          conv => lhs; rw [hsplit]
          simp
        rw [List.count_append, List.count_append, hcf, e]; omega
    · rename_i hf
      simp only [Option.some.injEq] at h
      subst h
      refine ⟨?_, ?_, ?_⟩
      · intro i hi
        rcases List.mem_append.mp hi with hi | hi
        · refine ⟨?_, fun f h => hbool f (h ▸ hi)⟩
          rintro rfl
          rw [List.findIdx?_eq_none_iff] at hf
          simpa using hf _ hi
        · rw [(List.mem_replicate.mp hi).2]; simp [full]
      · rw [List.filter_append, hff]; simp; omega
      · rw [List.count_append, hcf]; rfl

theorem cumNonNew_find {is : List Item} {c k p : Nat}
    (h' : (cumNonNew c is).findIdx? (· == c + k + 1) = some p) :
    ((is.take p).filter (· != .newaxis)).length = k ∧ is[p]? ≠ none ∧ is[p]? ≠ some .newaxis := by
  induction is generalizing c k p with
  | nil => simp [cumNonNew] at h'
  | cons i is ih =>
    simp only [cumNonNew, List.findIdx?_cons] at h'
    by_cases hi : i = .newaxis
    · simp only [hi, if_true] at h'
      rw [if_neg (by simp; omega)] at h'
      simp only [Option.map_eq_some_iff] at h'
      obtain ⟨q, hq, rfl⟩ := h'
      obtain ⟨a1, a2, a3⟩ := ih hq
      exact ⟨by simpa [hi] using a1, by simpa using a2, by simpa using a3⟩
    · simp only [hi, if_false] at h'
      by_cases hk : k = 0
      · subst hk
        rw [if_pos (by simp)] at h'
        simp only [Option.some.injEq] at h'
        subst h'
        exact ⟨by simp, by simp, by simpa using hi⟩
      · rw [if_neg (by simp; omega)] at h'
        simp only [Option.map_eq_some_iff] at h'
        obtain ⟨q, hq, rfl⟩ := h'
        have e : c + k + 1 = (c + 1) + (k - 1) + 1 := by omega
        rw [e] at hq
        obtain ⟨a1, a2, a3⟩ := ih hq
        refine ⟨?_, by simpa using a2, by simpa using a3⟩
        rw [List.take_succ_cons, List.filter_cons, if_pos (by simpa using hi), List.length_cons, a1]
        omega

theorem range_eraseIdx {n k : Nat} (h : k < n) :
    (List.range n).eraseIdx k = (List.range n).filter (· != k) := by
  have hn : (List.range n).Nodup := List.nodup_range
  have := hn.erase_eq_filter k
  rw [← this, List.erase_eq_eraseIdx_of_idxOf]
  have := List.Nodup.idxOf_getElem hn k (by simpa using h)
  simpa using this

theorem eraseIdx_range_get {n k q : Nat} (hk : k < n) (hq : q < n - 1) :
    ((List.range n).eraseIdx k)[q]? = some (if q < k then q else q + 1) := by
  rw [List.getElem?_eraseIdx]
  split
  · rw [List.getElem?_range (by omega)]
  · rw [List.getElem?_range (by omega)]

theorem moveAxis_get {n i1 i2 p : Nat} (h1 : i1 < n) (h2 : i2 < n) (hp : p < n) :
    (((List.range n).eraseIdx i1).insertIdx i2 i1)[p]? =
      some (if p < i2 then (if p < i1 then p else p + 1) else if p = i2 then i1 else
        (if p - 1 < i1 then p - 1 else p)) := by
  have hl : ((List.range n).eraseIdx i1).length = n - 1 := by
    rw [List.length_eraseIdx_of_lt (by simpa using h1)]; simp
  rw [List.getElem?_insertIdx]
  split
  · rw [eraseIdx_range_get h1 (by omega)]
  · split
    · rw [if_pos (by omega)]
    · rw [eraseIdx_range_get h1 (by omega)]
      have : p - 1 + 1 = p := by omega
      rw [this]

theorem moveAxis_back {n i1 i2 : Nat} (h1 : i1 < n) (h2 : i2 < n) :
    (((List.range n).eraseIdx i2).insertIdx i1 i2).map
      (fun p => (((List.range n).eraseIdx i1).insertIdx i2 i1)[p]?) = (List.range n).map some := by
  apply List.ext_getElem?
  intro p
  have hl : (((List.range n).eraseIdx i2).insertIdx i1 i2).length = n := by
    have hl : ((List.range n).eraseIdx i2).length = n - 1 := by
      rw [List.length_eraseIdx_of_lt (by simpa using h2)]; simp
    rw [List.length_insertIdx_of_le_length (by omega), hl]; omega
  by_cases hp : p < n
  · rw [List.getElem?_map, List.getElem?_map, moveAxis_get h2 h1 hp, List.getElem?_range hp]
    simp only [Option.map_some, Option.some.injEq]
    rw [moveAxis_get h1 h2 (by (repeat' split) <;> omega)]
    simp only [Option.some.injEq]
    (repeat' split) <;> omega
  · rw [List.getElem?_eq_none (by rw [List.length_map, hl]; omega),
      List.getElem?_eq_none (by simp; omega)]

end SC.Indexing
