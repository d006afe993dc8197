import Verif.Xanes.Lemmas
import Mathlib.Data.List.Perm.Basic
import Mathlib.Data.List.Nodup
import Mathlib.Data.List.Induction
/-! # C75: groups of XANES scans -/
namespace SC.Xanes

/-- For every list of scans and every choice of flags: first the groups of the sums, in the order of the
file, each with the single scans that directly precede the sum (at most as many as it has repeats) and,
when asked for, the sum itself; then the scans which are kept alone. -/
theorem groups_eq (f : Flags) (d : List Item) : groups f d = allGroups f d := by
  obtain ⟨_, h2, h3⟩ := loop_inv f d d.length (Nat.le_refl _)
  unfold groups allGroups
  simp only
  rw [h3]
  unfold groupsAt
  congr 2
  apply List.filter_congr
  intro i hi
  rw [h2 i (List.mem_range.1 hi)]
  unfold flagAt Alone
  by_cases hs : IsSum d i
  · simp only [hs, if_true, List.mem_range.1 hi]
    cases f.keepsum <;> cases f.sumingroups <;> cases f.keepindividual <;> simp
  · simp only [hs, if_false]
    by_cases he : ∃ j < d.length, IsSum d j ∧ Member d j i
    · simp only [he, if_true, forall_const]
      cases f.keepindividual <;> simp
    · simp only [he, if_false, false_imp_iff]
      simp

/-- The places whose numbers are in a group, in the order of the groups. -/
def places (f : Flags) (d : List Item) : List Nat :=
  ((List.range d.length).filter fun i => IsSum d i).flatMap (fun i => members d i ++ if f.keepsum ∧ f.sumingroups then [i] else []) ++
  (List.range d.length).filter fun i => Alone f d i

theorem flatten_filter (l : List (List Nat)) : (l.filter fun g => !g.isEmpty).flatten = l.flatten := by
  induction l with
  | nil => rfl
  | cons g r ih => cases g <;> simp [ih]

theorem flatten_groups (f : Flags) (d : List Item) : (groups f d).flatten = numbers d (places f d) := by
  rw [groups_eq]
  unfold allGroups places
  rw [List.flatten_append, flatten_filter, numbers_append]
  congr 1
  · generalize (List.range d.length).filter (fun i => IsSum d i) = l
    induction l with
    | nil => simp [numbers]
    | cons x r ih =>
      simp only [List.map_cons, List.flatten_cons, List.flatMap_cons]
      rw [numbers_append, ih]
      rfl
  · generalize (List.range d.length).filter (fun i => Alone f d i) = l
    induction l with
    | nil => simp [numbers]
    | cons x r ih =>
      simp only [List.map_cons, List.flatten_cons]
      rw [ih, ← numbers_append]
      rfl

theorem numbers_range (d : List Item) : numbers d (List.range d.length) = d.map Item.number := by
  unfold numbers
  induction d using List.reverseRecOn with
  | nil => rfl
  | append_singleton l x ih =>
    rw [List.length_append, List.length_singleton, List.range_succ, List.filterMap_append, List.map_append]
    congr 1
    · rw [← ih]
      apply List.filterMap_congr
      intro i hi
      rw [List.getElem?_append_left (List.mem_range.1 hi)]
    · simp

/-- When individual scans are not kept, no place is in two groups or twice in a group. -/
theorem places_nodup (f : Flags) (d : List Item) (hi : f.keepindividual = false) : (places f d).Nodup := by
  unfold places
  rw [List.nodup_append]
  refine ⟨?_, List.nodup_range.filter _, ?_⟩
  · rw [List.nodup_flatMap]
    constructor
    · intro i hi
      rw [List.nodup_append]
      refine ⟨List.nodup_range.filter _, by split <;> simp, ?_⟩
      intro a ha b hb
      have h1 := (members_mem d i a).1 ha
      split at hb
      · simp only [List.mem_singleton] at hb
        have := h1.1
        omega
      · simp at hb
    · apply List.Nodup.pairwise_of_forall_ne (List.nodup_range.filter _)
      intro a ha b hb hab
      simp only [List.mem_filter, decide_eq_true_eq] at ha hb
      intro x hx hy
      simp only [List.mem_append, members_mem] at hx hy
      rcases hx with hx | hx
      · rcases hy with hy | hy
        · exact hab (member_unique hx hy ha.2 hb.2)
        · split at hy
          · simp only [List.mem_singleton] at hy
            subst hy
            exact member_not_sum hx hb.2
          · simp at hy
      · split at hx
        · simp only [List.mem_singleton] at hx
          subst hx
          rcases hy with hy | hy
          · exact member_not_sum hy ha.2
          · split at hy
            · simp only [List.mem_singleton] at hy
              exact hab hy
            · contradiction
        · simp at hx
  · intro a ha b hb hab
    subst hab
    simp only [List.mem_flatMap, List.mem_filter, List.mem_range, decide_eq_true_eq, List.mem_append, members_mem] at ha hb
    obtain ⟨i, ⟨hil, hs⟩, hm⟩ := ha
    obtain ⟨_, hal⟩ := hb
    unfold Alone at hal
    rcases hm with hm | hm
    · rw [if_neg (member_not_sum hm)] at hal
      have := hal ⟨i, hil, hs, hm⟩
      rw [hi] at this
      simp at this
    · split at hm
      · rename_i hk
        simp only [List.mem_singleton] at hm
        subst hm
        rw [if_pos hs] at hal
        have := hal.2 hk.2
        rw [hi] at this
        simp at this
      · simp at hm

theorem places_mem (f : Flags) (d : List Item) (i : Nat) :
    i ∈ places f d ↔ i < d.length ∧ (f.keepsum = true ∨ ¬ IsSum d i) := by
  unfold places
  simp only [List.mem_flatMap, List.mem_filter, List.mem_range, decide_eq_true_eq, List.mem_append, members_mem]
  constructor
  · rintro (⟨j, ⟨hj, hs⟩, hm⟩ | ⟨hi, ha⟩)
    · rcases hm with hm | hm
      · exact ⟨by have := hm.1; omega, Or.inr (member_not_sum hm)⟩
      · split at hm
        · rename_i hk
          simp only [List.mem_singleton] at hm
          subst hm
          exact ⟨hj, Or.inl hk.1⟩
        · simp at hm
    · refine ⟨hi, ?_⟩
      unfold Alone at ha
      split at ha
      · exact Or.inl ha.1
      · rename_i h; exact Or.inr h
  · rintro ⟨hi, hk⟩
    by_cases hs : IsSum d i
    · have hk' : f.keepsum = true := hk.resolve_right (fun h => h hs)
      by_cases hg : f.sumingroups = true
      · left
        refine ⟨i, ⟨hi, hs⟩, Or.inr ?_⟩
        rw [if_pos ⟨hk', hg⟩]
        simp
      · right
        refine ⟨hi, ?_⟩
        unfold Alone
        rw [if_pos hs]
        exact ⟨hk', fun h => absurd h hg⟩
    · by_cases he : ∃ j < d.length, IsSum d j ∧ Member d j i
      · obtain ⟨j, hj, hs', hm⟩ := he
        exact Or.inl ⟨j, ⟨hj, hs'⟩, Or.inl hm⟩
      · right
        refine ⟨hi, ?_⟩
        unfold Alone
        rw [if_neg hs]
        exact fun h => absurd h he

/-- Whatever happens with the sum in the group: when sums are kept and individual scans are not, each
scan is exactly once in the groups. -/
theorem groups_partition (f : Flags) (d : List Item) (hs : f.keepsum = true) (hi : f.keepindividual = false) :
    (groups f d).flatten.Perm (d.map Item.number) := by
  rw [flatten_groups, ← numbers_range]
  unfold numbers
  apply List.Perm.filterMap
  rw [List.perm_ext_iff_of_nodup (places_nodup f d hi) List.nodup_range]
  intro i
  rw [places_mem, List.mem_range]
  simp [hs]

example : groups ⟨true, true, false⟩ [⟨3, 1⟩, ⟨4, 1⟩, ⟨5, 2⟩, ⟨7, 1⟩] = [[3, 4, 5], [7]] := rfl

/-- When neither sums nor individual scans are kept, each scan that is no sum is exactly once in the
groups, and nothing else is. -/
theorem groups_partition_nosum (f : Flags) (d : List Item) (hs : f.keepsum = false) (hi : f.keepindividual = false) :
    (groups f d).flatten.Perm ((d.filter fun x => x.repeats ≤ 1).map Item.number) := by
  rw [flatten_groups]
  have h1 : (places f d).Perm ((List.range d.length).filter fun i => ¬ IsSum d i) := by
    rw [List.perm_ext_iff_of_nodup (places_nodup f d hi) (List.nodup_range.filter _)]
    intro i
    rw [places_mem, List.mem_filter, List.mem_range]
    simp [hs]
  have h2 : numbers d ((List.range d.length).filter fun i => ¬ IsSum d i) = (d.filter fun x => x.repeats ≤ 1).map Item.number := by
    clear h1
    unfold numbers
    induction d using List.reverseRecOn with
    | nil => rfl
    | append_singleton l x ih =>
      rw [List.length_append, List.length_singleton, List.range_succ, List.filter_append, List.filterMap_append,
        List.filter_append, List.map_append]
      congr 1
      · rw [← ih]
        have : (List.range l.length).filter (fun i => decide ¬ IsSum (l ++ [x]) i) = (List.range l.length).filter fun i => decide ¬ IsSum l i := by
          apply List.filter_congr
          intro i hi
          rw [decide_eq_decide]
          unfold IsSum reps
          rw [List.getElem?_append_left (List.mem_range.1 hi)]
        rw [this]
        apply List.filterMap_congr
        intro i hi
        rw [List.getElem?_append_left (List.mem_range.1 (List.mem_filter.1 hi).1)]
      · have : IsSum (l ++ [x]) l.length ↔ 1 < x.repeats := by
          unfold IsSum reps
          simp
        by_cases h : 1 < x.repeats
        · simp [this, h, Nat.not_le.2 h]
        · have h' : x.repeats ≤ 1 := by omega
          simp [this, h']
  rw [← h2]
  exact List.Perm.filterMap _ h1

example : groups ⟨false, true, false⟩ [⟨3, 1⟩, ⟨4, 1⟩, ⟨5, 2⟩, ⟨7, 1⟩, ⟨8, 0⟩] = [[3, 4], [7], [8]] := rfl

/-- With individual scans kept, no scan that should be there is lost: the numbers in the groups are the
numbers of all scans, without those of sums when sums are not kept. -/
theorem groups_mem (f : Flags) (d : List Item) (n : Nat) :
    n ∈ (groups f d).flatten ↔ ∃ x ∈ d, x.number = n ∧ (f.keepsum = true ∨ x.repeats ≤ 1) := by
  rw [flatten_groups]
  unfold numbers
  simp only [List.mem_filterMap, places_mem, Option.map_eq_some_iff]
  have key : ∀ (i : Nat) (x : Item), d[i]? = some x → (IsSum d i ↔ 1 < x.repeats) := by
    intro i x hx
    unfold IsSum reps
    simp [hx]
  constructor
  · rintro ⟨i, ⟨hi, hk⟩, x, hx, rfl⟩
    refine ⟨x, List.mem_of_getElem? hx, rfl, ?_⟩
    rw [key i x hx] at hk
    rcases hk with hk | hk
    · exact Or.inl hk
    · exact Or.inr (by omega)
  · rintro ⟨x, hx, rfl, hk⟩
    obtain ⟨i, hi, he⟩ := List.getElem_of_mem hx
    have hx' : d[i]? = some x := by rw [List.getElem?_eq_getElem hi, he]
    refine ⟨i, ⟨hi, ?_⟩, x, hx', rfl⟩
    rw [key i x hx']
    rcases hk with hk | hk
    · exact Or.inl hk
    · exact Or.inr (by omega)

example : groups ⟨true, true, true⟩ [⟨3, 1⟩, ⟨4, 1⟩, ⟨5, 2⟩, ⟨7, 1⟩] = [[3, 4, 5], [3], [4], [5], [7]] := rfl

/-- No group is empty. -/
theorem groups_nonempty (f : Flags) (d : List Item) (g : List Nat) (hg : g ∈ groups f d) : g ≠ [] := by
  rw [groups_eq] at hg
  unfold allGroups at hg
  rw [List.mem_append] at hg
  rcases hg with hg | hg
  · rw [List.mem_filter] at hg
    intro h
    rw [h] at hg
    simp at hg
  · obtain ⟨i, hi, rfl⟩ := List.mem_map.1 hg
    rw [List.mem_filter, List.mem_range] at hi
    unfold numbers
    simp [hi.1]

/-- A sum of `n` repeats just after `n` single scans is grouped with exactly these. -/
theorem members_exact (a b : List Item) (s : List Item) (x : Item) (h1 : ∀ y ∈ s, y.repeats = 1)
    (hx : x.repeats = s.length) :
    numbers (a ++ s ++ x :: b) (members (a ++ s ++ x :: b) (a.length + s.length)) = s.map Item.number := by
  have hrep : reps (a ++ s ++ x :: b) (a.length + s.length) = s.length := by
    unfold reps
    rw [List.getElem?_append_right (by simp)]
    simp [hx]
  have hm : members (a ++ s ++ x :: b) (a.length + s.length) = rangeFrom a.length (a.length + s.length) := by
    rw [rangeFrom_eq _ _ (by omega)]
    unfold members
    apply List.filter_congr
    intro k hk
    have hk' := List.mem_range.1 hk
    rw [decide_eq_decide]
    unfold Member
    rw [hrep]
    constructor
    · rintro ⟨_, h, _⟩; omega
    · intro h
      refine ⟨hk', by omega, ?_⟩
      intro j hj hkj
      unfold reps
      rw [List.getElem?_append_left (by simp; omega), List.getElem?_append_right (by omega),
        List.getElem?_eq_getElem (by omega)]
      simp only [Option.map_some, Option.getD_some]
      exact h1 _ (List.getElem_mem _)
  rw [hm]
  unfold rangeFrom numbers
  rw [show a.length + s.length - a.length = s.length by omega, List.filterMap_map]
  have := numbers_range s
  unfold numbers at this
  rw [← this]
  apply List.filterMap_congr
  intro k hk
  have hk' := List.mem_range.1 hk
  simp only [Function.comp]
  rw [List.getElem?_append_left (by simp; omega), List.getElem?_append_right (by omega)]
  simp

example : numbers [⟨1, 1⟩, ⟨3, 1⟩, ⟨4, 1⟩, ⟨5, 2⟩] (members [⟨1, 1⟩, ⟨3, 1⟩, ⟨4, 1⟩, ⟨5, 2⟩] 3) = [3, 4] := rfl

/-- Not so: with repeats missing, the group is smaller than what the sum says, without a message. -/
theorem members_incomplete : groups ⟨true, false, false⟩ [⟨1, 1⟩, ⟨2, 3⟩] = [[1], [2]] := rfl

/-- Not so: when the single scans of a sum are skipped or empty, other scans before are taken for it. -/
theorem members_foreign : ∃ d d' : List Item, d' = d.filter (fun x => x.number ≠ 3) ∧
    groups ⟨false, false, false⟩ d = [[3, 4], [1], [2]] ∧ groups ⟨false, false, false⟩ d' = [[2, 4], [1]] :=
  ⟨[⟨1, 1⟩, ⟨2, 1⟩, ⟨3, 1⟩, ⟨4, 1⟩, ⟨5, 2⟩], _, rfl, rfl, rfl⟩

end SC.Xanes
