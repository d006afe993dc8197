import Verif.Indexing.CoreAdv
/-! # Helper lemmas: the predicted shape and the axes order -/
namespace SC.Indexing
open SC.Py SC.Numpy

/-- Value of one probe length in the predicted shape. -/
def entryOf (shape : List Nat) (nn : List Item) (n : Nat) : Option Nat :=
  if n = 0 then lenAdv nn shape else if n = 1 then some 1 else shapeEntry shape nn (.dim (n - 2))

theorem labelAxes_map (shape : List Nat) (nn : List Item) (ilist : List Nat) (j : Int) (l : List Nat) :
    (labelAxes ilist j l).map (shapeEntry shape nn) = l.map (entryOf shape nn) := by
  induction l generalizing j with
  | nil => rfl
  | cons n l ih =>
    simp only [labelAxes, List.map_cons]
    split
    · rename_i h; subst h; simp [ih, entryOf, shapeEntry]
    · split
      · rename_i h0 h; subst h; simp [ih, entryOf, shapeEntry]
      · rename_i h0 h1; simp [ih, entryOf, h0, h1]

theorem dimsOf_entries {is : List Item} {s : List Nat} {rs : List Res} (P : List Item) (Q : List Nat)
    (hPQ : P.length = Q.length) (hp : Plain is) (h : resolve is s = some rs) :
    (dimsOf is ((List.range' P.length s.length).map (· + 2))).map (entryOf (Q ++ s) (P ++ noNew is)) =
      (rs.filterMap Res.dimLen?).map some := by
  induction is generalizing s rs P Q with
  | nil => cases s <;> simp [resolve] at h; subst h; rfl
  | cons i is ih =>
    rcases plain_cases hp with rfl | ⟨hn, hcons⟩
    · simp only [resolve, Option.map_eq_some_iff] at h
      obtain ⟨t, ht, rfl⟩ := h
      have := ih P Q hPQ hp.tail ht
      have e : noNew (.newaxis :: is) = noNew is := by simp [noNew]
      rw [e]
      simp only [dimsOf, List.map_cons, this, List.filterMap_cons, Res.dimLen?]
      simp [entryOf]
    · obtain ⟨n, s', r, rs', rfl, rfl, h5, h6⟩ := resolve_cons_some hcons h
      have e : noNew (i :: is) = i :: noNew is := by simp [noNew, hn]
      have := ih (P ++ [i]) (Q ++ [n]) (by simp [hPQ]) hp.tail h6
      simp only [List.length_append, List.length_singleton, List.append_assoc,
        List.singleton_append] at this
      rw [e, List.length_cons, List.range'_succ, List.map_cons]
      cases i with
      | slice sl =>
        simp only [dimsOf, List.map_cons, this]
        simp only [resolve1, Option.map_eq_some_iff] at h5
        obtain ⟨ps, hps, rfl⟩ := h5
        simp only [List.filterMap_cons, Res.dimLen?, List.map_cons, List.cons.injEq, and_true]
        have e1 : (P ++ Item.slice sl :: noNew is)[P.length]? = some (.slice sl) := by simp
        have e2 : (Q ++ n :: s')[P.length]? = some n := by rw [hPQ]; simp
        simp [entryOf, shapeEntry, e1, e2, hps]
      | newaxis => exact absurd rfl hn
      | int k =>
        simp only [dimsOf, this]
        simp only [resolve1, Option.map_eq_some_iff] at h5
        obtain ⟨ps, hps, rfl⟩ := h5
        simp [List.filterMap_cons, Res.dimLen?]
      | ilist k =>
        simp only [dimsOf, this]
        simp only [resolve1, Option.map_eq_some_iff] at h5
        obtain ⟨ps, hps, rfl⟩ := h5
        simp [List.filterMap_cons, Res.dimLen?]
      | blist k =>
        simp only [dimsOf, this]
        simp only [resolve1] at h5
        split at h5 <;> simp at h5
        subst h5
        simp [List.filterMap_cons, Res.dimLen?]
      | ellipsis => simp [Item.consumes] at hcons
      | bool b => simp [Item.consumes] at hcons

theorem expandTuple_self {is : List Item} {n : Nat} (hp : Plain is) (hc : countConsuming is = n) :
    expandTuple is n = some is := by
  have h1 : (is.filter (· != .newaxis)).length = n := by
    rw [← hc, countConsuming_noNew hp]; rfl
  have : is.findIdx? (· == .ellipsis) = none := by
    rw [List.findIdx?_eq_none_iff]
    intro x hx
    simpa using (hp x hx).1
  simp [expandTuple, h1, this]

theorem noNew_basic {is : List Item} (hp : Plain is) : Basic (noNew is) := by
  intro i hi
  have h1 := (List.mem_filter.mp hi)
  have h2 := hp i h1.1
  cases i <;> simp_all [Item.consumes]

/-- The predicted shape of a full index whose lists all have length `m`. -/
theorem shapeAfter_eq {is : List Item} {s : List Nat} {rs : List Res} {m nd : Nat} (hp : Plain is)
    (h : resolve is s = some rs) (hm : ∀ l ∈ rs.filterMap Res.len?, l = m) :
    shapeAfter (some s) is nd =
      some (if is.any isAdv then (rs.filterMap Res.dimLen?).insertIdx (apos (fl is)) m
        else rs.filterMap Res.dimLen?) := by
  obtain ⟨hc, _⟩ := resolve_count h
  obtain ⟨f1, f2, f3, f4⟩ := resolve_facts hp h
  obtain ⟨g1, g2, g3, g4, g5, g6⟩ := mask_facts (rs := rs)
  have hd := dimsOf_entries [] [] rfl hp h
  simp only [List.nil_append, List.length_nil, ← List.range_eq_range'] at hd
  have hps := probe_shape (m := 0) (s := (List.range s.length).map (· + 2)) hp (by simpa using hc)
    (by intro n hn; obtain ⟨k, _, rfl⟩ := List.mem_map.mp hn; omega)
  simp only [shapeAfter, Option.getD_some, expandTuple_self hp hc, Option.bind_some, axesorder,
    axesOrderItem_eq, hps, Option.map_some]
  rw [mapM_some_iff, labelAxes_map]
  change List.map (entryOf s (noNew is)) _ = _
  by_cases ha : is.any isAdv
  · rw [if_pos ha, if_pos ha, List.map_insertIdx, List.map_insertIdx, hd]
    congr 1
    have hl := lenAdv_eq (noNew_basic hp) f4 (by rw [g4]; exact hm)
    have : (noNew is).any isAdv = true := by
      rw [← (resolve_facts hp.noNew f4).2.1, g5, f2]; exact ha
    rw [if_pos this] at hl
    simp [entryOf, hl]
  · rw [if_neg ha, if_neg ha, hd]

/-- ... is the shape numpy gives. -/
theorem shapeAfter_indexRes {α : Type} {a b : Arr α} {is : List Item} {s : List Nat} {rs : List Res}
    {m nd : Nat} (hp : Plain is) (h : resolve is s = some rs)
    (hm : ∀ l ∈ rs.filterMap Res.len?, l = m) (hb : indexRes a rs = some b) :
    shapeAfter (some s) is nd = some b.shape := by
  rw [shapeAfter_eq hp h hm]
  obtain ⟨f1, f2, _⟩ := resolve_facts hp h
  by_cases ha : is.any isAdv
  · obtain ⟨b', hb', hat⟩ := indexRes_adv a (rs := rs) (m := m) (by rw [f2]; exact ha) hm
    rw [hb] at hb'; cases hb'
    rw [if_pos ha, hat.shape, advPos_eq, f1]
  · rw [indexRes_basic _ (by rw [f2]; simpa using ha)] at hb
    cases hb
    rw [if_neg ha]

/-! ## expand -/

theorem expandTuple_eq {is is' : List Item} {n : Nat} (hb : ∀ b, Item.bool b ∉ is)
    (hle : (is.filter (· != .newaxis)).length ≤ n) (h : npExpand is n = some is') :
    expandTuple is n = some is' := by
  simp only [npExpand] at h
  split at h
  · simp at h
  · rename_i hc
    simp only [expandTuple, if_neg (by omega : ¬ (is.filter (· != .newaxis)).length > n)]
    cases hf : is.findIdx? (· == .ellipsis) with
    | none =>
      rw [hf] at h
      have hne : Item.ellipsis ∉ is := by
        intro hmem
        rw [List.findIdx?_eq_none_iff] at hf
        simpa using hf _ hmem
      have : countConsuming is = (is.filter (· != .newaxis)).length := by
        apply countConsuming_noNew
        intro i hi
        exact ⟨fun h => hne (h ▸ hi), fun b h => hb b (h ▸ hi)⟩
      rw [this] at h
      exact h
    | some k =>
      rw [hf] at h
      simp only at h
      split at h
      · simp at h
      · rename_i hpost
        simp only [Option.some.injEq] at h
        obtain ⟨hk, hke, hkl⟩ := List.findIdx?_eq_some_iff_getElem.mp hf
        have hsplit : is = is.take k ++ .ellipsis :: is.drop (k + 1) := by
          have e : is[k] = .ellipsis := by simpa using hke
          rw [← e, List.getElem_cons_drop, List.take_append_drop]
        have hpre : Item.ellipsis ∉ is.take k := by
          intro hmem
          obtain ⟨j, hj, hj'⟩ := List.getElem_of_mem hmem
          have hjk : j < k := by simp at hj; omega
          have := hkl j hjk
          simp at hj'
          simp [hj'] at this
        have hpo : Item.ellipsis ∉ is.drop (k + 1) := by
          intro hmem
          exact hpost (List.any_eq_true.mpr ⟨_, hmem, by simp⟩)
        have hp1 : Plain (is.take k) := fun i hi =>
          ⟨fun h => hpre (h ▸ hi), fun b h => hb b (h ▸ List.mem_of_mem_take hi)⟩
        have hp2 : Plain (is.drop (k + 1)) := fun i hi =>
          ⟨fun h => hpo (h ▸ hi), fun b h => hb b (h ▸ List.mem_of_mem_drop hi)⟩
        have e1 : countConsuming is = countConsuming (is.take k) + countConsuming (is.drop (k + 1)) := by
          conv => lhs; rw [hsplit]
          simp [countConsuming, List.filter_cons, Item.consumes]
        have e2 : (is.filter (· != .newaxis)).length =
            (noNew (is.take k)).length + ((noNew (is.drop (k + 1))).length + 1) := by
          conv => lhs; rw [hsplit]
          simp [noNew, List.filter_cons]
        rw [← countConsuming_noNew hp1, ← countConsuming_noNew hp2] at e2
        rw [← h]
        simp only [Option.some.injEq]
        have : n - (is.filter (· != .newaxis)).length + 1 = n - countConsuming is := by omega
        rw [this]; rfl

theorem npExpand_facts {is is' : List Item} {n : Nat} (hb : ∀ b, Item.bool b ∉ is)
    (h : npExpand is n = some is') :
    (∀ i ∈ is', i = full ∨ (i ∈ is ∧ i ≠ .ellipsis)) := by
  simp only [npExpand] at h
  split at h
  · simp at h
  · split at h
    · rename_i hf
      simp only [Option.some.injEq] at h
      subst h
      intro i hi
      rcases List.mem_append.mp hi with h1 | h1
      · right; refine ⟨h1, ?_⟩
        rintro rfl
        rw [List.findIdx?_eq_none_iff] at hf
        simpa using hf _ h1
      · left; exact (List.mem_replicate.mp h1).2
    · rename_i k hf
      split at h
      · simp at h
      · rename_i hpost
        simp only [Option.some.injEq] at h
        subst h
        obtain ⟨hk, hke, hkl⟩ := List.findIdx?_eq_some_iff_getElem.mp hf
        intro i hi
        rcases List.mem_append.mp hi with h1 | h1
        · rcases List.mem_append.mp h1 with h2 | h2
          · right; refine ⟨List.mem_of_mem_take h2, ?_⟩
            rintro rfl
            obtain ⟨j, hj, hj'⟩ := List.getElem_of_mem h2
            have hjk : j < k := by simp at hj; omega
            have := hkl j hjk
            simp at hj'
            simp [hj'] at this
          · left; exact (List.mem_replicate.mp h2).2
        · right; refine ⟨List.mem_of_mem_drop h1, ?_⟩
          rintro rfl
          exact hpost (List.any_eq_true.mpr ⟨_, h1, by simp⟩)

theorem npExpand_plain {is is' : List Item} {n : Nat} (hb : ∀ b, Item.bool b ∉ is)
    (h : npExpand is n = some is') : Plain is' := by
  intro i hi
  rcases npExpand_facts hb h i hi with rfl | ⟨h1, h2⟩
  · simp [full]
  · exact ⟨h2, fun b hbb => hb b (hbb ▸ h1)⟩

end SC.Indexing
