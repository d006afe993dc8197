import Verif.Xia.PropsGroup
/-! # C28, the other groupings -/
namespace SC.Xia
open SC.Py SC.Naming SC.Common

/-! ## `xiagrouplines` and `xiagroupmaps` -/

/-- `xiagrouplines`, for files of one radix and map (as documented): each line holds exactly its
files, ordered by label, and all files are there in order. -/
theorem xiagrouplines_partition (items : List Item) (r : Str) (m : Int)
    (h : ∀ x ∈ items, x.2.radix = r ∧ x.2.mapnum = m) (n : Int) :
    Dict.get? (groupLinesItems items) n = present (byLabel (items.filter (fun x => decide (x.2.linenum = n)))) ∧
    leaves1 (groupLinesItems items) = (stableSort sortKey items).map Prod.fst ∧
    (Dict.keys (groupLinesItems items)).Pairwise (· < ·) := by
  have hs := sk_sort items
  have hr : ∀ a ∈ stableSort sortKey items, a.2.radix = r := fun a ha => (h a ((stableSort_perm _ _).mem_iff.1 ha)).1
  have hm : ∀ a ∈ stableSort sortKey items, a.2.mapnum = m := fun a ha => (h a ((stableSort_perm _ _).mem_iff.1 ha)).2
  refine ⟨?_, leaves1_lines hs hr hm, ?_⟩
  · rw [groupLinesItems, lines_get hs hr hm]
    have e : ∀ l : List Item, (∀ a ∈ l, a.2.radix = r ∧ a.2.mapnum = m) →
        l.filter (fun a => decide (a.2.linenum = n)) = members l r m n := by
      intro l hl
      refine List.filter_congr ?_
      intro a ha
      simp [hl a ha]
    rw [e _ (fun a ha => ⟨hr a ha, hm a ha⟩), members_sorted, byLabel, e items h]
  · rw [groupLinesItems, fillLeaf_eq _ _ (linenum_nodup hs hr hm)]
    simp only [Dict.keys, List.map_map]
    exact groupBy_keys_lt _ _ (sk_line hs hr hm)

/-- `xiagroupmaps`, for files of one radix (as documented). -/
theorem xiagroupmaps_partition (items : List Item) (r : Str) (h : ∀ x ∈ items, x.2.radix = r) (m n : Int) :
    lookup2 (groupMapsItems items) m n =
      present (byLabel (items.filter (fun x => decide (x.2.mapnum = m ∧ x.2.linenum = n)))) ∧
    leaves2 (groupMapsItems items) = (stableSort sortKey items).map Prod.fst ∧
    (Dict.keys (groupMapsItems items)).Pairwise (· < ·) := by
  have hs := sk_sort items
  have hr : ∀ a ∈ stableSort sortKey items, a.2.radix = r := fun a ha => h a ((stableSort_perm _ _).mem_iff.1 ha)
  refine ⟨?_, leaves2_maps hs hr, ?_⟩
  · rw [groupMapsItems, maps_get hs hr]
    have e : ∀ l : List Item, (∀ a ∈ l, a.2.radix = r) →
        (l.filter (fun a => decide (a.2.mapnum = m))).filter (fun a => decide (a.2.linenum = n)) = members l r m n := by
      intro l hl
      rw [← filter3]
      congr 2
      symm
      rw [List.filter_eq_self]
      intro a ha
      simpa using hl a ha
    have e' : items.filter (fun x => decide (x.2.mapnum = m ∧ x.2.linenum = n)) = members items r m n := by
      refine List.filter_congr ?_
      intro a ha
      simp [h a ha]
    rw [e _ hr, members_sorted, byLabel, e']
  · rw [groupMapsItems, fillNode_eq _ _ _ (mapnum_nodup hs hr)]
    simp only [Dict.keys, List.map_map]
    exact groupBy_keys_lt _ _ (sk_map hs hr)

/-! ## `xiagroupmaps2` -/

theorem toDigits_inj {a b : Nat} (h : Nat.toDigits 10 a = Nat.toDigits 10 b) : a = b := by
  have hp : ∀ n, pad 0 n = Nat.toDigits 10 n := fun n => by simp [pad]
  exact pad_inj (w := 0) (by rw [hp, hp, h])

theorem toDigits_digit (n : Nat) : ∀ c ∈ Nat.toDigits 10 n, c.isDigit = true := by
  have := pad_digit 0 n
  simpa [pad] using this

theorem strInt_inj {a b : Int} (h : strInt a = strInt b) : a = b := by
  have hm : ∀ n k l, '-' :: l ≠ Nat.toDigits 10 n ++ k := by
    intro n k l e
    have hne : Nat.toDigits 10 n ≠ [] := by have := pad_ne_nil 0 n; simpa [pad] using this
    obtain ⟨c, cs, hc⟩ := List.exists_cons_of_ne_nil hne
    rw [hc, List.cons_append, List.cons.injEq] at e
    have := toDigits_digit n c (by simp [hc])
    rw [← e.1] at this
    exact absurd this (by decide)
  simp only [strInt] at h
  split at h <;> split at h
  · have := toDigits_inj h; omega
  · exact absurd (by rw [← h]; simp) (hm a.toNat [] (Nat.toDigits 10 b.natAbs))
  · exact absurd (by rw [h]; simp) (hm b.toNat [] (Nat.toDigits 10 a.natAbs))
  · simp only [List.cons.injEq, true_and] at h
    have := toDigits_inj h; omega

theorem strInt_no_underscore (a : Int) : '_' ∉ strInt a := by
  intro h
  have : ∀ n, '_' ∉ Nat.toDigits 10 n := fun n hn => absurd (toDigits_digit n _ hn) (by decide)
  simp only [strInt] at h
  split at h
  · exact this _ h
  · simp only [List.mem_cons] at h
    rcases h with h | h
    · exact absurd h (by decide)
    · exact this _ h

/-- Radix and map number can be read off the key of `xiagroupmaps2`. -/
theorem mapKey_inj {r r' : Str} {m m' : Int} (h : mapKey r m = mapKey r' m') : r = r' ∧ m = m' := by
  have h1 : r ++ '_' :: strInt m = r' ++ '_' :: strInt m' := by simpa [mapKey] using h
  obtain ⟨e1, e2⟩ := sep_last h1 (strInt_no_underscore _) (strInt_no_underscore _)
  exact ⟨e1, strInt_inj e2⟩

theorem get_map_inj {κ κ' V : Type} [DecidableEq κ] [DecidableEq κ'] (φ : κ → κ') (hφ : ∀ a b, φ a = φ b → a = b)
    (l : List (κ × V)) (k : κ) : Dict.get? (l.map (fun x => (φ x.1, x.2))) (φ k) = Dict.get? l k := by
  induction l with
  | nil => rfl
  | cons x l ih =>
    obtain ⟨y, w⟩ := x
    simp only [List.map_cons, Dict.get?, ih]
    by_cases e : y = k
    · simp [e]
    · have : φ y ≠ φ k := fun h => e (hφ _ _ h)
      simp [e, this]

theorem pair_nodup {l : List Item} (h : SK l) :
    ((groupBy (fun x : Item => (x.2.radix, x.2.mapnum)) l).map Prod.fst).Nodup := by
  refine groupBy_nodup _ (fun x : Item => toLex (x.2.radix, x.2.mapnum)) l ?_ ?_
  · refine h.imp ?_
    intro a b hab
    rw [Prod.Lex.toLex_le_toLex]
    rcases sortKey_le.1 hab with h | ⟨h1, h2 | h2⟩
    · exact Or.inl h
    · exact Or.inr ⟨h1, le_of_lt h2⟩
    · exact Or.inr ⟨h1, le_of_eq h2.1⟩
  · intro a _ b _
    simp

theorem groupMaps2_eq (items : List Item) : groupMaps2Items items =
    ((groupBy (fun x : Item => (x.2.radix, x.2.mapnum)) (stableSort sortKey items)).map
      (fun x => (x.1, fillLeaf (fun y : Item => y.2.linenum) [] x.2))).map (fun x => (mapKey x.1.1 x.1.2, x.2)) := by
  have hn := pair_nodup (sk_sort items)
  have h1 : groupMaps2Items items = (groupBy (fun x : Item => (x.2.radix, x.2.mapnum)) (stableSort sortKey items)).foldl
      (fun d x => update d (mapKey x.1.1 x.1.2) (fun v => fillLeaf (fun y : Item => y.2.linenum) v x.2)) [] := by
    rw [← groupBy_pair, List.foldl_flatMap, groupMaps2Items]
    congr 1
    funext d x
    rw [List.foldl_map]
  rw [h1]
  have h2 := foldl_update (V := Int × List Str) [] (groupBy (fun x : Item => (x.2.radix, x.2.mapnum)) (stableSort sortKey items))
    (fun x => mapKey x.1.1 x.1.2) (fun v x => fillLeaf (fun y : Item => y.2.linenum) v x.2) ?_ (by simp [Dict.keys])
  · rw [h2, List.nil_append, List.map_map]
    rfl
  · have h3 : (groupBy (fun x : Item => (x.2.radix, x.2.mapnum)) (stableSort sortKey items)).map (fun x => mapKey x.1.1 x.1.2) =
        ((groupBy (fun x : Item => (x.2.radix, x.2.mapnum)) (stableSort sortKey items)).map Prod.fst).map (fun k => mapKey k.1 k.2) := by
      rw [List.map_map]; rfl
    rw [h3]
    refine hn.map ?_
    intro a b hab
    obtain ⟨e1, e2⟩ := mapKey_inj hab
    exact Prod.ext e1 e2

/-- `xiagroupmaps2`: each radix and map has its own entry, each line in it holds exactly its files,
and all files are there in order. -/
theorem xiagroupmaps2_partition (items : List Item) (r : Str) (m n : Int) :
    lookup2 (groupMaps2Items items) (mapKey r m) n = present (byLabel (members items r m n)) ∧
    leaves2 (groupMaps2Items items) = (stableSort sortKey items).map Prod.fst ∧
    (∀ k, k ∈ Dict.keys (groupMaps2Items items) ↔ ∃ x ∈ items, k = mapKey x.2.radix x.2.mapnum) := by
  have hs := sk_sort items
  have hn := pair_nodup hs
  refine ⟨?_, ?_, ?_⟩
  · rw [groupMaps2_eq, lookup2,
      get_map_inj (fun k : Str × Int => mapKey k.1 k.2) (fun a b hab => Prod.ext (mapKey_inj hab).1 (mapKey_inj hab).2)
        _ (r, m),
      groupBy_get _ (fun g => fillLeaf (fun y : Item => y.2.linenum) [] g) _ hn]
    rw [byLabel, ← members_sorted]
    have h1 := lines_get (l := (stableSort sortKey items).filter (fun a => decide ((a.2.radix, a.2.mapnum) = (r, m)))) (r := r) (m := m)
      (hs.sublist List.filter_sublist)
      (fun a ha => by have := (List.mem_filter.1 ha).2; simp at this; exact this.1)
      (fun a ha => by have := (List.mem_filter.1 ha).2; simp at this; exact this.2) n
    have h2 : ((stableSort sortKey items).filter (fun a => decide ((a.2.radix, a.2.mapnum) = (r, m)))).filter
        (fun a => decide (a.2.linenum = n)) = members (stableSort sortKey items) r m n := by
      simp only [members, List.filter_filter]
      refine List.filter_congr ?_
      intro a _
      simp only [← Bool.decide_and, Prod.mk.injEq]
      exact decide_eq_decide.2 (by tauto)
    rw [h2] at h1
    split
    · next e => rw [e] at h2; rw [← h2]; rfl
    · simpa using h1
  · rw [groupMaps2_eq, leaves2, List.flatMap_map, List.flatMap_map]
    conv_rhs => rw [← groupBy_flatten (fun x : Item => (x.2.radix, x.2.mapnum)) (stableSort sortKey items), List.map_flatMap]
    refine List.flatMap_congr ?_
    intro x hx
    have hk := (groupBy_mem _ _ x hx).2
    exact leaves1_lines (sub_sorted _ sortKey _ hs x hx) (r := x.1.1) (m := x.1.2)
      (fun a ha => by rw [← hk a ha]) (fun a ha => by rw [← hk a ha])
  · intro k
    rw [groupMaps2_eq]
    simp only [Dict.keys, List.map_map, List.mem_map, Function.comp]
    constructor
    · rintro ⟨x, hx, rfl⟩
      obtain ⟨h1, h2⟩ := groupBy_mem _ _ x hx
      obtain ⟨a, ha⟩ := List.exists_mem_of_ne_nil _ h1
      refine ⟨a, (stableSort_perm _ _).mem_iff.1 (mem_of_group hx ha), ?_⟩
      rw [← h2 a ha]
    · rintro ⟨a, ha, rfl⟩
      have ha' := (stableSort_perm sortKey items).mem_iff.2 ha
      rw [← groupBy_flatten (fun x : Item => (x.2.radix, x.2.mapnum)) (stableSort sortKey items), List.mem_flatMap] at ha'
      obtain ⟨x, hx, hax⟩ := ha'
      refine ⟨x, hx, ?_⟩
      rw [← (groupBy_mem _ _ x hx).2 a hax]

/-! ## `xiagroupdetectors` -/

theorem lookup2_update {κ₁ κ₂ : Type} [DecidableEq κ₁] [DecidableEq κ₂] (d : Dict κ₁ (Dict κ₂ (List Str)))
    (k a : κ₁) (b : κ₂) (f : Dict κ₂ (List Str) → Dict κ₂ (List Str)) :
    lookup2 (update d k f) a b = if k = a then Dict.get? (f ((d.get? k).getD [])) b else lookup2 d a b := by
  simp only [lookup2, update, Dict.get?_set]
  split <;> simp

theorem get_leaf {κ : Type} [DecidableEq κ] (key : Item → κ) (d : Dict κ (List Str)) (l : List Item) (b : κ) :
    Dict.get? (fillLeaf key d l) b =
      (Dict.get? ((groupBy key l).map (fun x => (x.1, x.2.map Prod.fst))).reverse b).or (Dict.get? d b) := by
  rw [← Dict.get?_update]
  congr 1
  simp only [fillLeaf, Dict.update, List.foldl_map]

theorem get_append {κ V : Type} [DecidableEq κ] (x y : Dict κ V) (k : κ) :
    Dict.get? (x ++ y) k = (Dict.get? x k).or (Dict.get? y k) := by
  induction x with
  | nil => simp [Dict.get?]
  | cons p x ih =>
    obtain ⟨z, w⟩ := p
    simp only [List.cons_append, Dict.get?, ih]
    split <;> simp

theorem get_pair {κ₁ κ₂ V : Type} [DecidableEq κ₁] [DecidableEq κ₂] (c a : κ₁) (b : κ₂) (l : Dict κ₂ V) :
    Dict.get? (l.map (fun x => ((c, x.1), x.2))) (a, b) = if c = a then Dict.get? l b else none := by
  induction l with
  | nil => simp [Dict.get?]
  | cons p l ih =>
    obtain ⟨z, w⟩ := p
    simp only [List.map_cons, Dict.get?, ih, Prod.mk.injEq]
    by_cases e : c = a <;> simp [e]

/-- In a dictionary filled by nested runs, the last run with a pair of keys is what remains. -/
theorem fill_last {κ₁ κ₂ : Type} [DecidableEq κ₁] [DecidableEq κ₂] (key₁ : Item → κ₁) (key₂ : Item → κ₂)
    (l : List Item) (a : κ₁) (b : κ₂) :
    lookup2 (fillNode key₁ (fillLeaf key₂) [] l) a b =
      Dict.get? ((groupBy (fun x => (key₁ x, key₂ x)) l).map (fun x => (x.1, x.2.map Prod.fst))).reverse (a, b) := by
  rw [← groupBy_pair]
  unfold fillNode
  have gen : ∀ (gs : List (κ₁ × List Item)) (d : Dict κ₁ (Dict κ₂ (List Str))),
      lookup2 (gs.foldl (fun d kg => update d kg.1 (fun x => fillLeaf key₂ x kg.2)) d) a b =
        (Dict.get? ((gs.flatMap (fun x => (groupBy key₂ x.2).map (fun y => ((x.1, y.1), y.2)))).map
          (fun x => (x.1, x.2.map Prod.fst))).reverse (a, b)).or (lookup2 d a b) := by
    intro gs
    induction gs with
    | nil => intro d; simp [Dict.get?]
    | cons g gs ih =>
      intro d
      rw [List.foldl_cons, ih, lookup2_update, get_leaf]
      simp only [List.flatMap_cons, List.map_append, List.reverse_append, get_append, Option.or_assoc]
      congr 1
      have e1 : ((groupBy key₂ g.2).map (fun y => ((g.1, y.1), y.2))).map (fun x => (x.1, x.2.map Prod.fst)) =
          ((groupBy key₂ g.2).map (fun x => (x.1, x.2.map Prod.fst))).map (fun x => ((g.1, x.1), x.2)) := by
        simp [List.map_map, Function.comp_def]
      rw [e1]
      generalize (groupBy key₂ g.2).map (fun x => (x.1, x.2.map Prod.fst)) = G
      rw [← List.map_reverse, get_pair]
      by_cases e : g.1 = a
      · subst e
        simp only [if_true, lookup2]
        congr 1
        cases Dict.get? d g.1 <;> simp [Dict.get?]
      · simp [e]
  rw [gen]
  simp [lookup2, Dict.get?]

/-- `xiagroupdetectors` in general: only the last run of neighbouring files (in sorted order) with a
detector and base label remains. -/
theorem xiagroupdetectors_last (items : List Item) (d b : Str) :
    lookup2 (groupDetectorItems items) d b =
      Dict.get? ((groupBy (fun x : Item => (x.2.detector, x.2.baselabel)) (stableSort sortKey items)).map
        (fun x => (x.1, x.2.map Prod.fst))).reverse (d, b) := fill_last _ _ _ _ _

theorem get_reverse {κ V : Type} [DecidableEq κ] (l : Dict κ V) (h : (l.map Prod.fst).Nodup) (k : κ) :
    Dict.get? l.reverse k = Dict.get? l k := by
  have hw : Dict.WF l := h
  have hw' : Dict.WF l.reverse := by
    simp only [Dict.WF, Dict.keys, List.map_reverse, List.nodup_reverse]; exact h
  cases e : Dict.get? l k with
  | none =>
    rw [Dict.get?_none] at e ⊢
    simpa [Dict.keys] using e
  | some v => exact Dict.get?_of_mem hw' (List.mem_reverse.2 (Dict.get?_mem e))

/-- Files of one radix, map and line whose labels differ exactly when detector or base label differ:
each detector and base label holds exactly its files. -/
theorem xiagroupdetectors_partial (items : List Item) (r : Str) (m n : Int)
    (h : ∀ x ∈ items, x.2.radix = r ∧ x.2.mapnum = m ∧ x.2.linenum = n)
    (hl : ∀ x ∈ items, ∀ y ∈ items, (x.2.detector, x.2.baselabel) = (y.2.detector, y.2.baselabel) ↔ x.2.label = y.2.label)
    (d b : Str) :
    lookup2 (groupDetectorItems items) d b =
      present ((items.filter (fun x => decide ((x.2.detector, x.2.baselabel) = (d, b)))).map Prod.fst) := by
  have hs := sk_sort items
  have hmem : ∀ a ∈ stableSort sortKey items, a ∈ items := fun a ha => (stableSort_perm _ _).mem_iff.1 ha
  have hlab := sk_label hs (fun a ha => (h a (hmem a ha)).1) (fun a ha => (h a (hmem a ha)).2.1) (fun a ha => (h a (hmem a ha)).2.2)
  have hn := groupBy_nodup (fun x : Item => (x.2.detector, x.2.baselabel)) (fun x : Item => x.2.label) (stableSort sortKey items) hlab
    (fun a ha b hb => hl a (hmem a ha) b (hmem b hb))
  rw [xiagroupdetectors_last, get_reverse _ (by rw [List.map_map]; exact hn), groupBy_get _ (fun g => g.map Prod.fst) _ hn, ← present_map]
  congr 2
  -- the files of one detector and base label have one label, so sorting keeps their order
  by_cases hex : ∃ x ∈ items, (x.2.detector, x.2.baselabel) = (d, b)
  · obtain ⟨x, hx, hxe⟩ := hex
    have e : ∀ l : List Item, (∀ a ∈ l, a ∈ items) → l.filter (fun a => decide ((a.2.detector, a.2.baselabel) = (d, b))) =
        l.filter (fun a => decide (sortKey a = sortKey x)) := by
      intro l hl2
      refine List.filter_congr ?_
      intro a ha
      refine decide_eq_decide.2 ?_
      rw [← hxe, hl a (hl2 a ha) x hx]
      have h1 := h a (hl2 a ha)
      have h2 := h x hx
      simp [sortKey, h1, h2]
    rw [e _ hmem, e items (fun a ha => ha)]
    have := stableSort_filter sortKey items (sortKey x)
    convert this
  · have e : ∀ l : List Item, (∀ a ∈ l, a ∈ items) → l.filter (fun a => decide ((a.2.detector, a.2.baselabel) = (d, b))) = [] := by
      intro l hl2
      rw [List.filter_eq_nil_iff]
      intro a ha
      simp only [decide_eq_true_eq]
      exact fun e => hex ⟨a, hl2 a ha, e⟩
    rw [e _ hmem, e items (fun a ha => ha)]

end SC.Xia
