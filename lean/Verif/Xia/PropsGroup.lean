import Verif.Xia.LemmasGroup
import Verif.Xia.Props
import Mathlib.Tactic.Convert
/-! # C28, grouping: a partition of the files, in order -/
namespace SC.Xia
open SC.Py SC.Naming SC.Common

/-! ## specification -/

/-- The parsed files of one radix, map and line, in the given order. -/
def members (items : List Item) (r : Str) (m l : Int) : List Item :=
  items.filter (fun x => decide (x.2.radix = r ∧ x.2.mapnum = m ∧ x.2.linenum = l))

/-- The file names of some parsed files, ordered by label; files with the same label keep their order. -/
def byLabel (items : List Item) : List Str := (stableSort (fun x : Item => x.2.label) items).map Prod.fst

/-- A group is present when it has members. -/
def present (l : List Str) : Option (List Str) := if l = [] then none else some l

def lookup2 {κ₁ κ₂ : Type} [DecidableEq κ₁] [DecidableEq κ₂] (d : Dict κ₁ (Dict κ₂ (List Str))) (a : κ₁) (b : κ₂) :
    Option (List Str) := (d.get? a).bind (fun e => e.get? b)

def lookup3 {κ₁ κ₂ κ₃ : Type} [DecidableEq κ₁] [DecidableEq κ₂] [DecidableEq κ₃]
    (d : Dict κ₁ (Dict κ₂ (Dict κ₃ (List Str)))) (a : κ₁) (b : κ₂) (c : κ₃) : Option (List Str) :=
  (d.get? a).bind (fun e => lookup2 e b c)

/-- All file names in the dictionary, in order of the keys. -/
def leaves1 {κ : Type} (d : Dict κ (List Str)) : List Str := d.flatMap (fun x => x.2)

def leaves2 {κ₁ κ₂ : Type} (d : Dict κ₁ (Dict κ₂ (List Str))) : List Str := d.flatMap (fun x => leaves1 x.2)

def leaves3 {κ₁ κ₂ κ₃ : Type} (d : Dict κ₁ (Dict κ₂ (Dict κ₃ (List Str)))) : List Str := d.flatMap (fun x => leaves2 x.2)

/-! ## consequences of the sort key -/

def SK (l : List Item) : Prop := l.Pairwise (fun a b => sortKey a ≤ sortKey b)

theorem sortKey_le {a b : Item} : sortKey a ≤ sortKey b ↔ a.2.radix < b.2.radix ∨ (a.2.radix = b.2.radix ∧
    (a.2.mapnum < b.2.mapnum ∨ (a.2.mapnum = b.2.mapnum ∧
      (a.2.linenum < b.2.linenum ∨ (a.2.linenum = b.2.linenum ∧ a.2.label ≤ b.2.label))))) := by
  simp only [sortKey, Prod.Lex.toLex_le_toLex]

theorem sk_radix {l : List Item} (h : SK l) : l.Pairwise (fun a b => a.2.radix ≤ b.2.radix) := by
  refine h.imp ?_
  intro a b hab
  rcases sortKey_le.1 hab with h | h
  · exact le_of_lt h
  · exact le_of_eq h.1

theorem sk_map {l : List Item} {r : Str} (h : SK l) (hr : ∀ a ∈ l, a.2.radix = r) :
    l.Pairwise (fun a b => a.2.mapnum ≤ b.2.mapnum) := by
  refine h.imp_of_mem ?_
  intro a b ha hb hab
  rcases sortKey_le.1 hab with h | ⟨_, h | h⟩
  · rw [hr a ha, hr b hb] at h; exact absurd h (lt_irrefl _)
  · exact le_of_lt h
  · exact le_of_eq h.1

theorem sk_line {l : List Item} {r : Str} {m : Int} (h : SK l) (hr : ∀ a ∈ l, a.2.radix = r)
    (hm : ∀ a ∈ l, a.2.mapnum = m) : l.Pairwise (fun a b => a.2.linenum ≤ b.2.linenum) := by
  refine h.imp_of_mem ?_
  intro a b ha hb hab
  rcases sortKey_le.1 hab with h | ⟨_, h | ⟨_, h | h⟩⟩
  · rw [hr a ha, hr b hb] at h; exact absurd h (lt_irrefl _)
  · rw [hm a ha, hm b hb] at h; exact absurd h (lt_irrefl _)
  · exact le_of_lt h
  · exact le_of_eq h.1

theorem sk_label {l : List Item} {r : Str} {m n : Int} (h : SK l) (hr : ∀ a ∈ l, a.2.radix = r)
    (hm : ∀ a ∈ l, a.2.mapnum = m) (hn : ∀ a ∈ l, a.2.linenum = n) : l.Pairwise (fun a b => a.2.label ≤ b.2.label) := by
  refine h.imp_of_mem ?_
  intro a b ha hb hab
  rcases sortKey_le.1 hab with h | ⟨_, h | ⟨_, h | h⟩⟩
  · rw [hr a ha, hr b hb] at h; exact absurd h (lt_irrefl _)
  · rw [hm a ha, hm b hb] at h; exact absurd h (lt_irrefl _)
  · rw [hn a ha, hn b hb] at h; exact absurd h (lt_irrefl _)
  · exact h.2

theorem sk_sort (items : List Item) : SK (stableSort sortKey items) := stableSort_sorted sortKey items

/-- A group taken out of the sorted list: ordered by label. -/
theorem members_sorted (items : List Item) (r : Str) (m n : Int) :
    members (stableSort sortKey items) r m n = stableSort (fun x : Item => x.2.label) (members items r m n) := by
  refine stableSort_unique _ _ _ ?_ ?_
  · have h1 : SK (members (stableSort sortKey items) r m n) := (sk_sort items).sublist List.filter_sublist
    refine sk_label (r := r) (m := m) (n := n) h1 ?_ ?_ ?_ <;>
    · intro a ha
      simp only [members, List.mem_filter, decide_eq_true_eq] at ha
      simp [ha.2]
  · intro k
    have h1 : ∀ l : List Item, (members l r m n).filter (fun a => decide (a.2.label = k)) =
        l.filter (fun a => decide (sortKey a = toLex (r, toLex (m, toLex (n, k))))) := by
      intro l
      simp only [members, List.filter_filter]
      refine List.filter_congr ?_
      intro a _
      simp only [sortKey, EmbeddingLike.apply_eq_iff_eq, Prod.mk.injEq, ← Bool.decide_and]
      exact decide_eq_decide.2 (by tauto)
    have h2 : (members (stableSort sortKey items) r m n).filter (fun a => decide (a.2.label = k)) =
        (members items r m n).filter (fun a => decide (a.2.label = k)) := by
      rw [h1, h1]
      have h3 := stableSort_filter sortKey items (toLex (r, toLex (m, toLex (n, k))))
      convert h3
    convert h2

theorem filter3 (l : List Item) (r : Str) (m n : Int) :
    ((l.filter (fun a => decide (a.2.radix = r))).filter (fun a => decide (a.2.mapnum = m))).filter
      (fun a => decide (a.2.linenum = n)) = members l r m n := by
  simp only [members, List.filter_filter]
  refine List.filter_congr ?_
  intro a _
  simp only [← Bool.decide_and]
  exact decide_eq_decide.2 (by tauto)

/-! ## the levels -/

theorem linenum_nodup {l : List Item} {r : Str} {m : Int} (h : SK l) (hr : ∀ a ∈ l, a.2.radix = r)
    (hm : ∀ a ∈ l, a.2.mapnum = m) : ((groupBy (fun x : Item => x.2.linenum) l).map Prod.fst).Nodup :=
  groupBy_nodup _ (fun x : Item => x.2.linenum) l (sk_line h hr hm) (fun _ _ _ _ => Iff.rfl)

theorem mapnum_nodup {l : List Item} {r : Str} (h : SK l) (hr : ∀ a ∈ l, a.2.radix = r) :
    ((groupBy (fun x : Item => x.2.mapnum) l).map Prod.fst).Nodup :=
  groupBy_nodup _ (fun x : Item => x.2.mapnum) l (sk_map h hr) (fun _ _ _ _ => Iff.rfl)

theorem radix_nodup {l : List Item} (h : SK l) : ((groupBy (fun x : Item => x.2.radix) l).map Prod.fst).Nodup :=
  groupBy_nodup _ (fun x : Item => x.2.radix) l (sk_radix h) (fun _ _ _ _ => Iff.rfl)

theorem filter_eq_mem {κ : Type} [DecidableEq κ] {key : Item → κ} {l : List Item} {k : κ} :
    ∀ a ∈ l.filter (fun a => decide (key a = k)), key a = k := by
  intro a ha
  simpa using (List.mem_filter.1 ha).2

theorem present_map (l : List Item) : present (l.map Prod.fst) = if l = [] then none else some (l.map Prod.fst) := by
  simp [present]

/-- The innermost dictionary, for files of one radix and map. -/
theorem lines_get {l : List Item} {r : Str} {m : Int} (h : SK l) (hr : ∀ a ∈ l, a.2.radix = r)
    (hm : ∀ a ∈ l, a.2.mapnum = m) (n : Int) :
    Dict.get? (fillLeaf (fun x : Item => x.2.linenum) [] l) n =
      present ((l.filter (fun a => decide (a.2.linenum = n))).map Prod.fst) := by
  rw [fillLeaf_eq _ _ (linenum_nodup h hr hm), groupBy_get _ (fun g => g.map Prod.fst) _ (linenum_nodup h hr hm), present_map]

/-- The dictionary by map and line, for files of one radix. -/
theorem maps_get {l : List Item} {r : Str} (h : SK l) (hr : ∀ a ∈ l, a.2.radix = r) (m n : Int) :
    lookup2 (fillNode (fun x : Item => x.2.mapnum) (fillLeaf (fun x : Item => x.2.linenum)) [] l) m n =
      present (((l.filter (fun a => decide (a.2.mapnum = m))).filter (fun a => decide (a.2.linenum = n))).map Prod.fst) := by
  rw [fillNode_eq _ _ _ (mapnum_nodup h hr), lookup2,
    groupBy_get _ (fun g => fillLeaf (fun x : Item => x.2.linenum) [] g) _ (mapnum_nodup h hr)]
  have h1 := lines_get (l := l.filter (fun a => decide (a.2.mapnum = m))) (r := r) (m := m)
    (List.Pairwise.sublist List.filter_sublist h) (fun a ha => hr a (List.mem_filter.1 ha).1) filter_eq_mem n
  split
  · next e => rw [e]; rfl
  · simpa using h1

/-- `xiagroup`: what is found under a radix, map and line are exactly the files with these, each as
often as given, ordered by label; there is no entry without files. -/
theorem xiagroup_lookup (items : List Item) (r : Str) (m n : Int) :
    lookup3 (groupItems items) r m n = present (byLabel (members items r m n)) := by
  rw [byLabel, ← members_sorted, ← filter3, groupItems, fillNode_eq _ _ _ (radix_nodup (sk_sort items)), lookup3,
    groupBy_get _ (fun g => fillNode (fun x : Item => x.2.mapnum) (fillLeaf (fun x : Item => x.2.linenum)) [] g) _ (radix_nodup (sk_sort items))]
  have h1 := maps_get (l := (stableSort sortKey items).filter (fun a => decide (a.2.radix = r))) (r := r)
    ((sk_sort items).sublist List.filter_sublist) filter_eq_mem m n
  split
  · next e => rw [e]; rfl
  · simpa using h1

theorem leaves1_lines {l : List Item} {r : Str} {m : Int} (h : SK l) (hr : ∀ a ∈ l, a.2.radix = r)
    (hm : ∀ a ∈ l, a.2.mapnum = m) : leaves1 (fillLeaf (fun x : Item => x.2.linenum) [] l) = l.map Prod.fst := by
  rw [fillLeaf_eq _ _ (linenum_nodup h hr hm), leaves1, List.flatMap_map]
  conv_rhs => rw [← groupBy_flatten (fun x : Item => x.2.linenum) l, List.map_flatMap]

theorem mem_of_group {κ : Type} [DecidableEq κ] {key : Item → κ} {l : List Item} {x : κ × List Item}
    (hx : x ∈ groupBy key l) {a : Item} (ha : a ∈ x.2) : a ∈ l := by
  rw [← groupBy_flatten key l, List.mem_flatMap]; exact ⟨x, hx, ha⟩

theorem leaves2_maps {l : List Item} {r : Str} (h : SK l) (hr : ∀ a ∈ l, a.2.radix = r) :
    leaves2 (fillNode (fun x : Item => x.2.mapnum) (fillLeaf (fun x : Item => x.2.linenum)) [] l) = l.map Prod.fst := by
  rw [fillNode_eq _ _ _ (mapnum_nodup h hr), leaves2, List.flatMap_map]
  conv_rhs => rw [← groupBy_flatten (fun x : Item => x.2.mapnum) l, List.map_flatMap]
  refine List.flatMap_congr ?_
  intro x hx
  exact leaves1_lines (sub_sorted _ sortKey l h x hx) (fun a ha => hr a (mem_of_group hx ha))
    (groupBy_mem _ l x hx).2

/-- `xiagroup`: the groups in the order of the dictionary are the sorted files. -/
theorem xiagroup_leaves (items : List Item) :
    leaves3 (groupItems items) = (stableSort sortKey items).map Prod.fst := by
  have h := sk_sort items
  rw [groupItems, fillNode_eq _ _ _ (radix_nodup h), leaves3, List.flatMap_map]
  conv_rhs => rw [← groupBy_flatten (fun x : Item => x.2.radix) (stableSort sortKey items), List.map_flatMap]
  refine List.flatMap_congr ?_
  intro x hx
  exact leaves2_maps (sub_sorted _ sortKey _ h x hx) (groupBy_mem _ _ x hx).2

theorem groupBy_keys_lt {ρ : Type} [DecidableEq ρ] [LinearOrder ρ] (key : Item → ρ) (l : List Item)
    (hs : l.Pairwise (fun a b => key a ≤ key b)) : ((groupBy key l).map Prod.fst).Pairwise (· < ·) := by
  rw [List.pairwise_map]
  refine (groupBy_strict key key l hs (fun _ _ _ _ => Iff.rfl)).imp_of_mem ?_
  intro x y hx hy h
  obtain ⟨hx1, hx2⟩ := groupBy_mem key l x hx
  obtain ⟨hy1, hy2⟩ := groupBy_mem key l y hy
  obtain ⟨a, ha⟩ := List.exists_mem_of_ne_nil _ hx1
  obtain ⟨b, hb⟩ := List.exists_mem_of_ne_nil _ hy1
  have := h a ha b hb
  rwa [hx2 a ha, hy2 b hb] at this

/-- `xiagroup`: the keys of every dictionary are strictly increasing. -/
theorem xiagroup_keys (items : List Item) :
    (Dict.keys (groupItems items)).Pairwise (· < ·) ∧
    ∀ x ∈ groupItems items, (Dict.keys x.2).Pairwise (· < ·) ∧ ∀ y ∈ x.2, (Dict.keys y.2).Pairwise (· < ·) := by
  have h := sk_sort items
  have e : groupItems items = _ := fillNode_eq _ _ _ (radix_nodup h)
  rw [e]
  refine ⟨?_, ?_⟩
  · simp only [Dict.keys, List.map_map]
    exact groupBy_keys_lt _ _ (sk_radix h)
  · intro x hx
    obtain ⟨g, hg, rfl⟩ := List.mem_map.1 hx
    have hs := sub_sorted _ sortKey _ h g hg
    have hr := (groupBy_mem _ _ g hg).2
    simp only
    rw [fillNode_eq _ _ _ (mapnum_nodup hs hr)]
    refine ⟨?_, ?_⟩
    · simp only [Dict.keys, List.map_map]
      exact groupBy_keys_lt _ _ (sk_map hs hr)
    · intro y hy
      obtain ⟨g', hg', rfl⟩ := List.mem_map.1 hy
      have hs' := sub_sorted _ sortKey _ hs g' hg'
      have hr' : ∀ a ∈ g'.2, a.2.radix = g.1 := fun a ha => hr a (mem_of_group hg' ha)
      have hm' := (groupBy_mem _ _ g' hg').2
      simp only
      rw [fillLeaf_eq _ _ (linenum_nodup hs' hr' hm')]
      simp only [Dict.keys, List.map_map]
      exact groupBy_keys_lt _ _ (sk_line hs' hr' hm')

/-! ## in terms of file names -/

theorem parseAll_some {extra files : List Str} {items : List Item} (h : parseAll extra files = some items) :
    items.map Prod.fst = files ∧ ∀ x ∈ items, parse extra x.1 = some x.2 := by
  simp only [parseAll] at h
  induction files generalizing items with
  | nil => simp at h; subst h; simp
  | cons f files ih =>
    rw [List.mapM_cons] at h
    simp only [Option.bind_eq_bind, Option.bind_eq_some_iff, Option.map_eq_some_iff, Option.pure_def, Option.some.injEq] at h
    obtain ⟨a, ⟨n, hn, rfl⟩, rest, hrest, rfl⟩ := h
    obtain ⟨h1, h2⟩ := ih hrest
    refine ⟨by simp [h1], ?_⟩
    intro x hx
    rcases List.mem_cons.1 hx with rfl | hx
    · exact hn
    · exact h2 x hx

/-- Grouping fails exactly when a file name cannot be parsed. -/
theorem parseAll_none (extra files : List Str) :
    parseAll extra files = none ↔ ∃ f ∈ files, parse extra f = none := by
  simp only [parseAll]
  induction files with
  | nil => simp
  | cons f files ih =>
    rw [List.mapM_cons]
    cases hf : parse extra f with
    | none => simp [hf]
    | some n =>
      simp only [hf, Option.map_some, Option.bind_eq_bind, Option.bind_some, List.mem_cons, exists_eq_or_imp, reduceCtorEq,
        false_or, ← ih]
      cases List.mapM (fun f => Option.map (fun n => (f, n)) (parse extra f)) files <;> simp

/-- `xiagroup` loses, adds and duplicates no file; every file is found under its own radix, map and
line and nowhere else; the files are ordered by radix, map, line and label. -/
theorem xiagroup_partition {extra files : List Str} {ret : Dict Str (Dict Int (Dict Int (List Str)))}
    (h : xiagroup extra files = some ret) :
    (leaves3 ret).Perm files ∧
    (∀ f ∈ files, ∃ n g, parse extra f = some n ∧ lookup3 ret n.radix n.mapnum n.linenum = some g ∧ f ∈ g) ∧
    (∀ r m l g, lookup3 ret r m l = some g → g ≠ [] ∧ ∀ f ∈ g, g.count f = files.count f ∧
      ∃ n, parse extra f = some n ∧ n.radix = r ∧ n.mapnum = m ∧ n.linenum = l) := by
  simp only [xiagroup, Option.map_eq_some_iff] at h
  obtain ⟨items, hp, rfl⟩ := h
  obtain ⟨hf, hpar⟩ := parseAll_some hp
  refine ⟨?_, ?_, ?_⟩
  · rw [xiagroup_leaves, ← hf]
    exact (stableSort_perm sortKey items).map _
  · intro f hff
    rw [← hf] at hff
    obtain ⟨x, hx, rfl⟩ := List.mem_map.1 hff
    have hmem : x.1 ∈ byLabel (members items x.2.radix x.2.mapnum x.2.linenum) := by
      refine List.mem_map_of_mem ?_
      rw [(stableSort_perm _ _).mem_iff]
      simp [members, hx]
    refine ⟨x.2, _, hpar x hx, ?_, hmem⟩
    rw [xiagroup_lookup, present, if_neg (List.ne_nil_of_mem hmem)]
  · intro r m l g hg
    rw [xiagroup_lookup, present] at hg
    split at hg
    · cases hg
    next hne =>
    simp only [Option.some.injEq] at hg
    subst hg
    refine ⟨hne, ?_⟩
    intro f hfg
    obtain ⟨x, hx, rfl⟩ := List.mem_map.1 hfg
    rw [(stableSort_perm _ _).mem_iff] at hx
    have hx2 := List.mem_filter.1 hx
    simp only [decide_eq_true_eq] at hx2
    refine ⟨?_, x.2, hpar x hx2.1, hx2.2⟩
    have hperm : (byLabel (members items r m l)).count x.1 = ((members items r m l).map Prod.fst).count x.1 :=
      ((stableSort_perm _ _).map Prod.fst).count_eq _
    rw [hperm, ← hf, List.count_eq_countP, List.count_eq_countP, List.countP_map, List.countP_map, members, List.countP_filter]
    refine List.countP_congr ?_
    intro y hy
    simp only [Function.comp, Bool.and_eq_true, beq_iff_eq, decide_eq_true_eq, and_iff_left_iff_imp]
    intro e
    have h1 := hpar y hy
    rw [e, hpar x hx2.1] at h1
    simp only [Option.some.injEq] at h1
    rw [← h1]
    exact hx2.2

theorem xiagroup_fails (extra files : List Str) :
    xiagroup extra files = none ↔ ∃ f ∈ files, parse extra f = none := by
  simp [xiagroup, parseAll_none]

end SC.Xia
