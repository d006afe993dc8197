import Verif.Merge.Lemmas
/-! # C26: merging HDF5 datasets — matching shapes and tiles -/
namespace SC.Merge
open SC.Numpy

/-! ## Specification of matching shapes -/

/-- `e` is `s` with a last dimension that is not larger. -/
def Reduces (s e : Shape) : Prop := e ≠ [] ∧ e.dropLast = s.dropLast ∧ e.getLastD 0 ≤ s.getLastD 0

/-- The meaning of a returned shape: an empty tuple stands for the original shape. -/
def effective (s r : Shape) : Shape := if r = [] then s else r

theorem Reduces.prod_le {s e : Shape} (hs : s ≠ []) (h : Reduces s e) : e.prod ≤ s.prod := by
  rw [prod_dropLast s hs, prod_dropLast e h.1, h.2.1]
  exact Nat.mul_le_mul_left _ h.2.2

/-- **Matching shapes**: the returned shapes are obtained by reducing last dimensions only, have the
same total size, and no other choice of last dimensions gives a larger common size. -/
theorem match_spec (shapes rs : List Shape) (keep : Bool) (hne : ∀ s ∈ shapes, s ≠ [])
    (h : matchShapes shapes keep = some rs) :
    rs.length = shapes.length ∧ ∃ T,
      (∀ i, i < shapes.length → Reduces (shapes.getD i []) (effective (shapes.getD i []) (rs.getD i [])) ∧
        (effective (shapes.getD i []) (rs.getD i [])).prod = T) ∧
      ∀ (es : List Shape) (T' : Nat), (∀ i, i < shapes.length → Reduces (shapes.getD i []) (es.getD i []) ∧ (es.getD i []).prod = T') →
        T' ≤ T := by
  cases hs : shapes with
  | nil => rw [hs] at h; simp [matchShapes] at h
  | cons s0 l =>
    have hlen : 0 < shapes.length := by rw [hs]; simp
    have hmem : ∀ i, i < shapes.length → shapes.getD i [] ∈ shapes := by
      intro i hi; simp [List.getD_eq_getElem?_getD, hi]
    have refl : ∀ s : Shape, s ≠ [] → Reduces s s := fun s hs => ⟨hs, rfl, le_refl _⟩
    unfold matchShapes at h
    rw [hs] at h
    simp only at h
    rw [← hs] at h ⊢
    by_cases hall : ((shapes.map List.prod).all fun (n : Nat) => decide (n = s0.prod)) = true
    · rw [if_pos hall] at h
      have h := (Option.some.inj h).symm
      have hprod : ∀ s ∈ shapes, s.prod = s0.prod := by
        simpa [List.all_eq_true] using hall
      have heff : ∀ i, i < shapes.length → effective (shapes.getD i []) (rs.getD i []) = shapes.getD i [] := by
        intro i hi
        cases keep with
        | true =>
          simp only [if_true] at h
          rw [h]; unfold effective; split_ifs <;> simp_all
        | false =>
          simp only [Bool.false_eq_true, if_false] at h
          have : rs.getD i [] = [] := by
            rw [h]; simp only [List.getD_eq_getElem?_getD, List.getElem?_map]
            cases shapes[i]? <;> rfl
          rw [this]; simp [effective]
      refine ⟨?_, s0.prod, ?_, ?_⟩
      · cases keep <;> simp [h]
      · intro i hi
        rw [heff i hi]
        exact ⟨refl _ (hne _ (hmem i hi)), hprod _ (hmem i hi)⟩
      · intro es T' he
        obtain ⟨h1, h2⟩ := he 0 hlen
        rw [← h2, ← hprod _ (hmem 0 hlen)]
        exact h1.prod_le (hne _ (hmem 0 hlen))
    · rw [if_neg hall] at h
      generalize hc : lcmList (shapes.map fun s => s.dropLast.prod) = c at h
      generalize hn : minList (shapes.map List.prod) / c = n at h
      by_cases h0 : n = 0
      · rw [if_pos h0] at h; simp at h
      · rw [if_neg h0] at h
        have h := (Option.some.inj h).symm
        have hle : n * c ≤ minList (shapes.map List.prod) := by rw [← hn]; exact Nat.div_mul_le_self _ _
        have hcpos : 0 < c := by
          rcases Nat.eq_zero_or_pos c with hz | hz
          · rw [hz, Nat.div_zero] at hn; exact absurd hn.symm h0
          · exact hz
        have hdvd : ∀ s ∈ shapes, s.dropLast.prod ∣ c := by
          intro s hs'; rw [← hc]; exact dvd_lcmList (List.mem_map_of_mem hs')
        have hnew : ∀ s ∈ shapes, Reduces s (s.dropLast ++ [n * c / s.dropLast.prod]) ∧
            (s.dropLast ++ [n * c / s.dropLast.prod]).prod = n * c := by
          intro s hs'
          have hd := hdvd s hs'
          have hp : 0 < s.dropLast.prod := Nat.pos_of_dvd_of_pos hd hcpos
          have hprod : s.dropLast.prod * (n * c / s.dropLast.prod) = n * c :=
            Nat.mul_div_cancel' (Dvd.dvd.mul_left hd n)
          refine ⟨⟨by simp, by simp, ?_⟩, by simp [List.prod_append, hprod]⟩
          have h1 : n * c ≤ s.prod := le_trans hle (minList_le _ _ (List.mem_map_of_mem hs'))
          rw [prod_dropLast s (hne s hs')] at h1
          have : (s.dropLast ++ [n * c / s.dropLast.prod]).getLastD 0 = n * c / s.dropLast.prod := by simp
          rw [this]
          exact Nat.div_le_of_le_mul h1
        have heff : ∀ i, i < shapes.length →
            effective (shapes.getD i []) (rs.getD i []) = (shapes.getD i []).dropLast ++ [n * c / (shapes.getD i []).dropLast.prod] := by
          intro i hi
          have e : rs.getD i [] = if shapes.getD i [] = (shapes.getD i []).dropLast ++ [n * c / (shapes.getD i []).dropLast.prod] then []
              else (shapes.getD i []).dropLast ++ [n * c / (shapes.getD i []).dropLast.prod] := by
            rw [h]
            simp only [List.getD_eq_getElem?_getD, List.getElem?_map, List.getElem?_eq_getElem hi, Option.map_some, Option.getD_some]
          rw [e]
          unfold effective
          split_ifs with h1 h2 h2
          · exact h1
          · exact absurd rfl h2
          · simp at h2
          · rfl
        refine ⟨by simp [h], n * c, ?_, ?_⟩
        · intro i hi
          rw [heff i hi]
          exact hnew _ (hmem i hi)
        · intro es T' he
          have hcd : c ∣ T' := by
            rw [← hc]
            apply lcmList_dvd
            intro x hx
            obtain ⟨s, hs', rfl⟩ := List.mem_map.1 hx
            obtain ⟨i, hi, rfl⟩ := List.getElem_of_mem hs'
            obtain ⟨h1, h2⟩ := he i hi
            have e : shapes.getD i [] = shapes[i] := by simp [List.getD_eq_getElem?_getD, hi]
            rw [e] at h1
            rw [← h2, prod_dropLast _ h1.1, h1.2.1]
            exact Dvd.intro _ rfl
          have hmin : T' ≤ minList (shapes.map List.prod) := by
            have := minList_mem (shapes.map List.prod) (by rw [hs]; simp)
            obtain ⟨s, hs', hs2⟩ := List.mem_map.1 this
            obtain ⟨i, hi, rfl⟩ := List.getElem_of_mem hs'
            obtain ⟨h1, h2⟩ := he i hi
            have e : shapes.getD i [] = shapes[i] := by simp [List.getD_eq_getElem?_getD, hi]
            rw [e] at h1
            rw [← hs2, ← h2]
            exact h1.prod_le (hne _ hs')
          obtain ⟨k, rfl⟩ := hcd
          have : k ≤ n := by rw [← hn, Nat.le_div_iff_mul_le hcpos, Nat.mul_comm]; exact hmin
          rw [Nat.mul_comm c k]
          exact Nat.mul_le_mul_right _ this

/-- **Matching fails** only when nothing is left: every common size is zero. -/
theorem match_none (shapes : List Shape) (keep : Bool) (hs : shapes ≠ []) (hne : ∀ s ∈ shapes, s ≠ [])
    (h : matchShapes shapes keep = none) (es : List Shape) (T' : Nat)
    (he : ∀ i, i < shapes.length → Reduces (shapes.getD i []) (es.getD i []) ∧ (es.getD i []).prod = T') : T' = 0 := by
  cases hsh : shapes with
  | nil => exact absurd hsh hs
  | cons s0 l =>
    unfold matchShapes at h
    rw [hsh] at h
    simp only at h
    rw [← hsh] at h
    by_cases hall : ((shapes.map List.prod).all fun (n : Nat) => decide (n = s0.prod)) = true
    · rw [if_pos hall] at h; simp at h
    · rw [if_neg hall] at h
      generalize hc : lcmList (shapes.map fun s => s.dropLast.prod) = c at h
      by_cases h0 : minList (shapes.map List.prod) / c = 0
      · have hcd : c ∣ T' := by
          rw [← hc]
          apply lcmList_dvd
          intro x hx
          obtain ⟨s, hs', rfl⟩ := List.mem_map.1 hx
          obtain ⟨i, hi, rfl⟩ := List.getElem_of_mem hs'
          obtain ⟨h1, h2⟩ := he i hi
          have e : shapes.getD i [] = shapes[i] := by simp [List.getD_eq_getElem?_getD, hi]
          rw [e] at h1
          rw [← h2, prod_dropLast _ h1.1, h1.2.1]
          exact Dvd.intro _ rfl
        have hmin : T' ≤ minList (shapes.map List.prod) := by
          have := minList_mem (shapes.map List.prod) (by rw [hsh]; simp)
          obtain ⟨s, hs', hs2⟩ := List.mem_map.1 this
          obtain ⟨i, hi, rfl⟩ := List.getElem_of_mem hs'
          obtain ⟨h1, h2⟩ := he i hi
          have e : shapes.getD i [] = shapes[i] := by simp [List.getD_eq_getElem?_getD, hi]
          rw [e] at h1
          rw [← hs2, ← h2]
          exact h1.prod_le (hne _ hs')
        rcases Nat.eq_zero_or_pos c with hz | hz
        · rw [hz] at hcd; exact Nat.eq_zero_of_zero_dvd hcd
        · rcases (Nat.div_eq_zero_iff).1 h0 with h1 | h1
          · omega
          · exact Nat.eq_zero_of_dvd_of_lt hcd (lt_of_le_of_lt hmin h1)
      · rw [if_neg h0] at h; simp at h

/-- Equal sizes are left alone. -/
theorem match_equal (shapes : List Shape) (n : Nat) (hs : shapes ≠ []) (h : ∀ s ∈ shapes, s.prod = n) :
    matchShapes shapes true = some shapes ∧ matchShapes shapes false = some (List.replicate shapes.length []) := by
  cases hsh : shapes with
  | nil => exact absurd hsh hs
  | cons s0 l =>
    have h0 : s0.prod = n := h s0 (by rw [hsh]; simp)
    have hall : ((s0 :: l).map List.prod).all (fun (m : Nat) => decide (m = s0.prod)) = true := by
      rw [← hsh, h0]; simpa [List.all_eq_true] using h
    constructor
    · simp only [matchShapes, hall, if_true]
    · simp only [matchShapes, hall, if_true, Bool.false_eq_true, if_false]
      rw [List.map_const']

/-- **Deviation**: a shape that need not be reduced is returned as the empty tuple although
`keep_shapes_when_equal` is set, so the returned shapes do not have equal total sizes. -/
theorem match_unchanged_empty : matchShapes [[10], [3, 3]] true = some [[9], []] := by decide

example : matchShapes [[62], [9, 7]] true = some [[54], [9, 6]] := by decide
example : ∀ s ∈ [[62], [9, 7]], s ≠ [] := by decide
example : matchShapes [[5], [9, 7]] true = none := by decide

/-! ## Tiles -/

/-- The point is in the block. -/
def PointIn (b : Block) (p : List Nat) : Prop :=
  p.length = b.length ∧ ∀ d, d < b.length → (b.getD d (0, 0)).1 ≤ p.getD d 0 ∧ p.getD d 0 < (b.getD d (0, 0)).2

/-- Position of a tile in C-order or F-order. -/
def tileNumber (fortran : Bool) (tile t : List Nat) : Nat := if fortran then ravelF tile t else ravelC tile t

/-- **Tiles**: when the datasets have as many dimensions as the tiles and there are enough tiles, each
dataset has its own block, of the shape of the dataset, in the tile with its number; blocks are inside
the layout and no point is in two blocks. -/
theorem tile_spec (tile : Shape) (shapes : List Shape) (f : Bool) (hs : shapes ≠ [])
    (hr : ∀ s ∈ shapes, s.length = tile.length) (hn : shapes.length ≤ tile.prod) :
    ∃ m layout blocks, tileIndices tile shapes f = some (layout, blocks) ∧ maxShape shapes = some m ∧
      layout = List.zipWith (· * ·) m tile ∧ blocks.length = shapes.length ∧
      (∀ i, i < shapes.length → blockShape (blocks.getD i []) = shapes.getD i [] ∧
        (∃ t, InB t tile ∧ tileNumber f tile t = i ∧
          ∀ d, d < tile.length → ((blocks.getD i []).getD d (0, 0)).1 = t.getD d 0 * m.getD d 0) ∧
        ∀ d, d < tile.length → ((blocks.getD i []).getD d (0, 0)).2 ≤ layout.getD d 0) ∧
      ∀ i j p, i < shapes.length → j < shapes.length → PointIn (blocks.getD i []) p → PointIn (blocks.getD j []) p → i = j := by
  obtain ⟨m, hm, hml⟩ := maxShape_some shapes tile.length hs hr
  have hget : ∀ i, i < shapes.length → shapes.getD i [] ∈ shapes := by
    intro i hi; simp [List.getD_eq_getElem?_getD, hi]
  have hbl : ∀ i, i < shapes.length →
      ((List.range shapes.length).map fun (i : Nat) => tileBlock (unravel f tile i) m (shapes.getD i [])).getD i [] =
        tileBlock (unravel f tile i) m (shapes.getD i []) := by
    intro i hi
    rw [List.getD_eq_getElem?_getD, List.getElem?_map, List.getElem?_range hi]; rfl
  have hlen1 : ∀ i, i < shapes.length → (unravel f tile i).length = (shapes.getD i []).length := by
    intro i hi
    rw [(unravel_inB f tile i (by omega)).length, hr _ (hget i hi)]
  have hlen2 : ∀ i, i < shapes.length → m.length = (shapes.getD i []).length := by
    intro i hi; rw [hr _ (hget i hi), hml]
  have hlt : ∀ i, i < shapes.length → ∀ d, d < tile.length → (unravel f tile i).getD d 0 < tile.getD d 0 := by
    intro i hi d hd
    obtain ⟨x, h1, h2⟩ := (unravel_inB f tile i (by omega)).getElem? (k := d) (n := tile.getD d 0) (by simp [List.getD_eq_getElem?_getD, hd])
    simpa [List.getD_eq_getElem?_getD, h1] using h2
  refine ⟨m, List.zipWith (· * ·) m tile,
    (List.range shapes.length).map fun (i : Nat) => tileBlock (unravel f tile i) m (shapes.getD i []), ?_, hm, rfl, ?_, ?_, ?_⟩
  · unfold tileIndices
    simp only [hm, mulVec, hml, if_true, hn]
  · simp
  · intro i hi
    rw [hbl i hi]
    refine ⟨tileBlock_shape _ _ _ (hlen1 i hi) (hlen2 i hi), ⟨unravel f tile i, unravel_inB f tile i (by omega), ?_, ?_⟩, ?_⟩
    · cases f with
      | true => exact ravelF_unravelF tile i (by omega)
      | false => exact ravelC_unravelC tile i (by omega)
    · intro d hd
      rw [tileBlock_get _ _ _ (hlen1 i hi) (hlen2 i hi) d (by rw [hr _ (hget i hi)]; exact hd)]
    · intro d hd
      rw [tileBlock_get _ _ _ (hlen1 i hi) (hlen2 i hi) d (by rw [hr _ (hget i hi)]; exact hd)]
      have e : (List.zipWith (· * ·) m tile).getD d 0 = m.getD d 0 * tile.getD d 0 := by
        simp [List.getD_eq_getElem?_getD, List.getElem?_zipWith, List.getElem?_eq_getElem hd,
          List.getElem?_eq_getElem (show d < m.length by omega)]
      rw [e]
      have h1 := hlt i hi d hd
      have h2 := (maxShape_spec _ _ hm _ (hget i hi)).2 d
      have h3 : ((unravel f tile i).getD d 0 + 1) * m.getD d 0 ≤ tile.getD d 0 * m.getD d 0 := Nat.mul_le_mul_right _ h1
      rw [Nat.add_mul, Nat.one_mul] at h3
      rw [Nat.mul_comm (m.getD d 0)]
      simp only
      omega
  · intro i j p hi hj h1 h2
    rw [hbl i hi] at h1
    rw [hbl j hj] at h2
    apply unravel_inj f tile i j (by omega) (by omega)
    have hli := (unravel_inB f tile i (by omega)).length
    have hlj := (unravel_inB f tile j (by omega)).length
    apply List.ext_getElem?
    intro d
    by_cases hd : d < tile.length
    · have e1 := h1.2 d (by rw [tileBlock_length _ _ _ (hlen1 i hi) (hlen2 i hi), hr _ (hget i hi)]; exact hd)
      have e2 := h2.2 d (by rw [tileBlock_length _ _ _ (hlen1 j hj) (hlen2 j hj), hr _ (hget j hj)]; exact hd)
      rw [tileBlock_get _ _ _ (hlen1 i hi) (hlen2 i hi) d (by rw [hr _ (hget i hi)]; exact hd)] at e1
      rw [tileBlock_get _ _ _ (hlen1 j hj) (hlen2 j hj) d (by rw [hr _ (hget j hj)]; exact hd)] at e2
      have b1 := (maxShape_spec _ _ hm _ (hget i hi)).2 d
      have b2 := (maxShape_spec _ _ hm _ (hget j hj)).2 d
      simp only at e1 e2
      have := tile_unique (m := m.getD d 0) (x := p.getD d 0) e1.1 (by omega) e2.1 (by omega)
      rw [List.getElem?_eq_getElem (by omega), List.getElem?_eq_getElem (by omega)]
      simp only [List.getD_eq_getElem?_getD, List.getElem?_eq_getElem (show d < (unravel f tile i).length by omega),
        List.getElem?_eq_getElem (show d < (unravel f tile j).length by omega), Option.getD_some] at this
      rw [this]
    · rw [List.getElem?_eq_none (by omega), List.getElem?_eq_none (by omega)]

/-- The largest shape: at least every shape, and attained, per dimension. -/
theorem max_spec (shapes : List Shape) (m : Shape) (h : maxShape shapes = some m) (d : Nat) :
    (∀ s ∈ shapes, s.length = m.length ∧ s.getD d 0 ≤ m.getD d 0) ∧ ∃ s ∈ shapes, s.getD d 0 = m.getD d 0 :=
  ⟨fun s hs => ⟨(maxShape_spec _ _ h s hs).1, (maxShape_spec _ _ h s hs).2 d⟩, maxShape_attained _ _ h d⟩

/-- More datasets than tiles raise. -/
theorem tile_too_many (tile : Shape) (shapes : List Shape) (f : Bool) (hn : tile.prod < shapes.length) :
    tileIndices tile shapes f = none := by
  unfold tileIndices
  cases maxShape shapes with
  | none => rfl
  | some m =>
    cases h : mulVec m tile with
    | none => simp [h]
    | some l => simp [h]; omega

/-- **Deviation**: with more tile dimensions than data dimensions the blocks overlap. -/
theorem tile_rank_overlap : tileIndices [1, 2] [[3], [3]] false = some ([3, 6], [[(0, 3)], [(0, 3)]]) := by decide

example : tileIndices [3, 2] [[7, 9], [6, 9], [6, 9], [7, 9], [7, 9]] false =
    some ([21, 18], [[(0, 7), (0, 9)], [(0, 6), (9, 18)], [(7, 13), (0, 9)], [(7, 14), (9, 18)], [(14, 21), (0, 9)]]) := by decide
example : tileIndices [3, 2] [[7, 9], [6, 9], [6, 9], [7, 9], [7, 9]] true =
    some ([21, 18], [[(0, 7), (0, 9)], [(7, 13), (0, 9)], [(14, 20), (0, 9)], [(0, 7), (9, 18)], [(7, 14), (9, 18)]]) := by decide

end SC.Merge
