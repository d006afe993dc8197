import Verif.Indexing.AxesLemmas
/-! # C02: predicted shape and axes order -/
namespace SC.Indexing
open SC.Py SC.Numpy

/-- **C02** (partial).  `shape_afterindexing` predicts the shape numpy gives.

Missing: lists of different lengths, where numpy broadcasts length 1 and `lengthadvanced` raises
(`shape_afterindexing_no_broadcast`), and a full index with an additional ellipsis, which `expand`
refuses. -/
theorem shape_afterindexing_eq_partial {α : Type} (a b : Arr α) (is : List Item) (m nd : Nat)
    (hsup : (is.filter (· != .newaxis)).length ≤ a.shape.length)
    (hbool : ∀ f, Item.bool f ∉ is) (hlists : ListsOfLength m is)
    (hnp : npGet a is = some b) : shapeAfter (some a.shape) is nd = some b.shape := by
  simp only [npGet, Option.bind_eq_some_iff] at hnp
  obtain ⟨is', hexp, rs, hrs, hb⟩ := hnp
  have hp := npExpand_plain hbool hexp
  have hm := lens_of_lists (listsOfLength_expand hbool hexp hlists) hp hrs
  have h1 := shapeAfter_indexRes (nd := nd) hp hrs hm hb
  have h2 := expandTuple_self hp (resolve_count hrs).1
  have h3 := expandTuple_eq hbool hsup hexp
  simp only [shapeAfter, Option.getD_some] at h1 ⊢
  rw [h3]
  rw [h2] at h1
  exact h1

example : shapeAfter (some [4, 5, 6]) [.ilist [0, 2, -1], .newaxis, .ellipsis, .slice ⟨some 1, none, some 2⟩] 3 =
    some [3, 1, 5, 3] := by decide
example : (npShape [4, 5, 6] [.ilist [0, 2, -1], .newaxis, .ellipsis, .slice ⟨some 1, none, some 2⟩]) =
    some [3, 1, 5, 3] := by decide

/-- numpy broadcasts a list of length one; the prediction raises. -/
theorem shape_afterindexing_no_broadcast :
    shapeAfter (some [4, 5]) [.ilist [0, 1], .ilist [3]] 2 = none ∧
    npShape [4, 5] [.ilist [0, 1], .ilist [3]] = some [2] := by decide

/-- The array whose elements are their own index tuples: indexing it shows where each element of
the result comes from. -/
def originArr (s : List Nat) : Arr (List Nat) := ⟨s, id⟩

/-- Meaning of the label of result dimension `i`, for the result element `r` coming from source
tuple `src`. -/
def LabelOk (s : List Nat) (nn : List Item) (bshape src r : List Nat) (i : Nat) : Ax → Prop
  | .dim k => ∃ x n ps, nn[k]? = some x ∧ isAdv x = false ∧ s[k]? = some n ∧
      selectedPositions n x = some ps ∧ src[k]? = some (ps.getD (r.getD i 0) 0)
  | .adv l => l ≠ [] ∧ ∀ k, k ∈ l ↔ ∃ x, nn[k]? = some x ∧ isAdv x = true ∧ ∃ n ps, s[k]? = some n ∧
      selectedPositions n x = some ps ∧ src[k]? = some (ps.getD (r.getD i 0) 0)
  | .new j => j < 0 ∧ bshape[i]? = some 1

/-- **C02** (partial: lists of equal length).  The labels given by `axesorder_afterindexing` are
right: there is one per result dimension; walking along a dimension labelled `k` walks through the
positions selected along source dimension `k`; walking along the list dimension walks through all
the lists at once; the other labels mark new axes. -/
theorem axesorder_meaning_partial (s : List Nat) (b : Arr (List Nat)) (is is' : List Item) (m : Nat)
    (hsup : (is.filter (· != .newaxis)).length ≤ s.length)
    (hbool : ∀ f, Item.bool f ∉ is) (hlists : ListsOfLength m is)
    (hnp : npGet (originArr s) is = some b) (hexp' : expandTuple is s.length = some is') :
    ∃ L nn, axesorder is' s.length = some (L, nn) ∧ nn = is'.filter (· != .newaxis) ∧
      L.length = b.shape.length ∧
      ∀ r, InB r b.shape → ∀ i lab, L[i]? = some lab → LabelOk s nn b.shape (b.get r) r i lab := by
  simp only [npGet, Option.bind_eq_some_iff] at hnp
  obtain ⟨is'', hexp, rs, hrs, hb⟩ := hnp
  have h3 := expandTuple_eq hbool hsup hexp
  rw [hexp'] at h3
  cases h3
  have hp := npExpand_plain hbool hexp
  have hm := lens_of_lists (listsOfLength_expand hbool hexp hlists) hp hrs
  have hrs' : resolve is' s = some rs := hrs
  obtain ⟨hc, _⟩ := resolve_count hrs'
  obtain ⟨f1, f2, f3, f4⟩ := resolve_facts hp hrs'
  have hps := probe_shape (m := 0) (s := (List.range s.length).map (· + 2)) hp (by simpa using hc)
    (by intro n hn; obtain ⟨k, _, rfl⟩ := List.mem_map.mp hn; omega)
  have hDl : (dimsOf is' ((List.range s.length).map (· + 2))).length =
      (rs.filterMap Res.dimLen?).length := by
    rw [dimsOf_length hp (by simpa using hc), dims_length, f1]
  have hD2 : ∀ q k, (dimsOf is' ((List.range s.length).map (· + 2)))[q]? = some (k + 2) →
      ∃ x n ps, (noNew is')[k]? = some x ∧ isAdv x = false ∧ s[k]? = some n ∧
        selectedPositions n x = some ps ∧
        ∀ j r, (walk rs j r)[k]? = some (ps.getD (r.getD q 0) 0) := by
    intro q k hq
    rw [List.range_eq_range'] at hq
    obtain ⟨_, sl, n, ps, h1, h2, h4, h5⟩ := walk_dim 0 hp hrs' hq
    exact ⟨.slice sl, n, ps, by simpa using h1, rfl, by simpa using h2, h4, by simpa using h5⟩
  have hD1 : ∀ (q : Nat), (dimsOf is' ((List.range s.length).map (· + 2)))[q]? = some 1 →
      (rs.filterMap Res.dimLen?)[q]? = some 1 := by
    intro q hq
    have hd := dimsOf_entries [] [] rfl hp hrs'
    simp only [List.nil_append, List.length_nil, ← List.range_eq_range'] at hd
    have := congrArg (fun l => l[q]?) hd
    simp only [List.getElem?_map, hq, Option.map_some] at this
    cases h : (List.filterMap Res.dimLen? rs)[q]? with
    | none => rw [h] at this; simp at this
    | some v =>
      rw [h] at this
      simp [entryOf] at this
      rw [this]
  have hDmem : ∀ x ∈ dimsOf is' ((List.range s.length).map (· + 2)), 1 ≤ x := by
    intro x hx
    rcases dimsOf_mem hx with h | h
    · omega
    · obtain ⟨k, _, rfl⟩ := List.mem_map.mp h; omega
  refine ⟨_, _, by simp only [axesorder, axesOrderItem_eq, hps, Option.map_some]; rfl, rfl, ?_, ?_⟩
  · rw [labelAxes_length]
    by_cases ha : is'.any isAdv
    · obtain ⟨b', hb', hat⟩ := indexRes_adv (originArr s) (rs := rs) (m := m) (by rw [f2]; exact ha) hm
      rw [hb] at hb'; cases hb'
      have hle := apos_le (is'.map bdim)
      rw [← f1, ← dims_length] at hle
      rw [if_pos ha, hat.shape, List.length_insertIdx_of_le_length (by rw [hDl, ← f1]; exact hle),
        List.length_insertIdx_of_le_length hat.le, hDl]
    · rw [indexRes_basic _ (by rw [f2]; simpa using ha)] at hb
      cases hb
      rw [if_neg ha, hDl]
  · intro r hr i lab hlab
    obtain ⟨n, hn, hcase⟩ := labelAxes_get _ _ _ _ _ hlab
    by_cases ha : is'.any isAdv
    · obtain ⟨b', hb', hat⟩ := indexRes_adv (originArr s) (rs := rs) (m := m) (by rw [f2]; exact ha) hm
      rw [hb] at hb'; cases hb'
      have hle := apos_le (is'.map bdim)
      rw [← f1, ← dims_length, ← hDl] at hle
      have hap : advPos rs = apos (is'.map bdim) := by rw [advPos_eq, f1]
      rw [hap] at hat
      have hple := hat.le
      rw [if_pos ha] at hn
      rw [f1] at hle
      generalize apos (is'.map bdim) = p at *
      rw [hat.shape] at hr
      obtain ⟨j, r', hj, hr', rfl⟩ := InB.insert_split hat.le hr
      have hget : b.get (r'.insertIdx p j) = walk rs j r' := hat.get j r' hj hr'
      have hr'l : r'.length = (rs.filterMap Res.dimLen?).length := hr'.length
      rw [List.getElem?_insertIdx] at hn
      have hgetD : ∀ (v : Nat), (r'.insertIdx p j).getD v 0 =
          if v < p then r'.getD v 0 else if v = p then j else r'.getD (v - 1) 0 := by
        intro v
        rw [List.getD_eq_getElem?_getD, List.getElem?_insertIdx]
        split
        · rw [List.getD_eq_getElem?_getD]
        · split
          · rw [if_pos (by omega)]; rfl
          · rw [List.getD_eq_getElem?_getD]
      have hshape : ∀ v, b.shape[v]? = if v < p then (rs.filterMap Res.dimLen?)[v]? else
          if v = p then some m else (rs.filterMap Res.dimLen?)[v - 1]? := by
        intro v
        rw [hat.shape, List.getElem?_insertIdx]
        split
        · rfl
        · split
          · rename_i hv; rw [if_pos (by omega)]
          · rfl
      rcases hcase with ⟨h0, rfl⟩ | ⟨h1, rfl⟩ | ⟨h2, rfl⟩
      · -- the list dimension
        have hip : i = p := by
          by_contra hne
          have : ∃ q : Nat, (dimsOf is' ((List.range s.length).map (· + 2)))[q]? = some n := by
            split at hn
            · exact ⟨_, hn⟩
            · exact ⟨_, by simpa [hne] using hn⟩
          obtain ⟨q, hq⟩ := this
          have := hDmem n (List.mem_of_getElem? hq)
          omega
        simp only [LabelOk]
        have key : ∀ (k : Nat) x, (noNew is')[k]? = some x → isAdv x = true →
            ∃ n ps, s[k]? = some n ∧ selectedPositions n x = some ps ∧
              (b.get (r'.insertIdx p j))[k]? = some (ps.getD ((r'.insertIdx p j).getD i 0) 0) := by
          intro k x hx hxa
          obtain ⟨n', ks, g1, g2, g3⟩ := walk_adv hp hrs' hx hxa
          refine ⟨n', ks, g1, selPositions_eq g2, ?_⟩
          rw [hget, g3, hgetD, if_neg (by omega : ¬ i < p), if_pos hip]
          have hks : ks.length = m := by
            have e := lenAdv1_eq g2
            have hmem : x ∈ is' := (List.mem_filter.mp (List.mem_of_getElem? hx)).1
            have hl := listsOfLength_expand hbool hexp hlists
            have : lenAdv1 x = m := by
              cases x with
              | ilist l => exact hl.1 l hmem
              | blist l => exact hl.2 l hmem
              | _ => simp [isAdv] at hxa
            rw [← this, e]; rfl
          congr 2
          split <;> omega
        constructor
        · -- some entry is a list
          have hany : (noNew is').any isAdv = true := by
            rw [← (resolve_facts hp.noNew f4).2.1, (mask_facts (rs := rs)).2.2.2.2.1, f2]; exact ha
          obtain ⟨x, hx, hxa⟩ := List.any_eq_true.mp hany
          obtain ⟨k, hk, rfl⟩ := List.getElem_of_mem hx
          apply List.ne_nil_of_mem (a := k)
          rw [List.mem_filter]
          refine ⟨List.mem_range.mpr hk, ?_⟩
          change ((noNew is')[k]?).elim false isAdv = true
          rw [List.getElem?_eq_getElem hk]; exact hxa
        · intro k
          rw [List.mem_filter]
          constructor
          · rintro ⟨hk, hk2⟩
            change ((noNew is')[k]?).elim false isAdv = true at hk2
            cases hx : (noNew is')[k]? with
            | none => rw [hx] at hk2; simp at hk2
            | some x =>
              rw [hx] at hk2
              exact ⟨x, hx, hk2, key k x hx hk2⟩
          · rintro ⟨x, hx, hxa, _⟩
            have hx' : (noNew is')[k]? = some x := hx
            refine ⟨List.mem_range.mpr ?_, ?_⟩
            · by_contra hlt
              have : (noNew is')[k]? = none := List.getElem?_eq_none (Nat.le_of_not_lt hlt)
              rw [this] at hx'; simp at hx'
            · change ((noNew is')[k]?).elim false isAdv = true
              rw [hx']; exact hxa
      · simp only [LabelOk]
        refine ⟨by omega, ?_⟩
        rw [hshape]
        subst h1
        split at hn
        · rename_i hlt; rw [if_pos hlt]; exact hD1 _ hn
        · rename_i hlt; rw [if_neg hlt]
          split at hn
          · split at hn <;> simp at hn
          · rename_i hne; rw [if_neg hne]; exact hD1 _ hn
      · simp only [LabelOk]
        obtain ⟨k, rfl⟩ : ∃ k, n = k + 2 := ⟨n - 2, by omega⟩
        have hq : ∃ q : Nat, (dimsOf is' ((List.range s.length).map (· + 2)))[q]? = some (k + 2) ∧
            (r'.insertIdx p j).getD i 0 = r'.getD q 0 := by
          rw [hgetD]
          split at hn
          · rename_i hlt; exact ⟨i, hn, by rw [if_pos hlt]⟩
          · rename_i hlt
            split at hn
            · split at hn <;> simp at hn
            · rename_i hne
              exact ⟨i - 1, hn, by rw [if_neg hlt, if_neg hne]⟩
        obtain ⟨q, hq1, hq2⟩ := hq
        obtain ⟨x, n, ps, e1, e2, e3, e4, e5⟩ := hD2 q k hq1
        refine ⟨x, n, ps, e1, e2, by simpa using e3, e4, ?_⟩
        rw [hget, hq2]; simpa using e5 j r'
    · rw [if_neg ha] at hn
      rw [indexRes_basic _ (by rw [f2]; simpa using ha)] at hb
      cases hb
      rcases hcase with ⟨h0, rfl⟩ | ⟨h1, rfl⟩ | ⟨h2, rfl⟩
      · have := hDmem n (List.mem_of_getElem? hn)
        omega
      · simp only [LabelOk]
        refine ⟨by omega, hD1 _ (by rw [hn, h1])⟩
      · simp only [LabelOk]
        obtain ⟨k, rfl⟩ : ∃ k, n = k + 2 := ⟨n - 2, by omega⟩
        obtain ⟨x, n, ps, e1, e2, e3, e4, e5⟩ := hD2 i k hn
        exact ⟨x, n, ps, e1, e2, by simpa using e3, e4, by simpa [originArr] using e5 0 r⟩

example : axesorder [full, .ilist [1, 0], .newaxis, .slice ⟨some 1, none, none⟩, .ilist [0, 0]] 4 =
    some ([.adv [1, 3], .dim 0, .new (-1), .dim 2],
      [full, .ilist [1, 0], .slice ⟨some 1, none, none⟩, .ilist [0, 0]]) := by decide

end SC.Indexing
