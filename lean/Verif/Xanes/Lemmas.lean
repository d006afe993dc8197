import Verif.Xanes.Spec
/-! # Lemmas on the grouping of XANES scans -/
namespace SC.Xanes

theorem reps_one (d : List Item) (j : Nat) : (d[j]?.map Item.repeats) = some 1 ↔ reps d j = 1 := by
  unfold reps
  cases d[j]? <;> simp

theorem runStart_le (d : List Item) (i : Nat) : runStart d i ≤ i := by
  induction i with
  | zero => simp [runStart]
  | succ i ih =>
    unfold runStart
    split
    · omega
    · omega

theorem runStart_iff (d : List Item) (i k : Nat) (hk : k ≤ i) :
    runStart d i ≤ k ↔ ∀ j < i, k ≤ j → reps d j = 1 := by
  induction i with
  | zero => simp [runStart]
  | succ i ih =>
    unfold runStart
    split
    · rename_i h
      have h1 := (reps_one d i).1 h
      rcases Nat.lt_or_ge i k with hik | hik
      · have : k = i + 1 := by omega
        subst this
        have := runStart_le d i
        constructor
        · intro _ j hj hkj; omega
        · intro _; omega
      · rw [ih hik]
        constructor
        · intro hh j hj hkj
          rcases Nat.lt_or_ge j i with h2 | h2
          · exact hh j h2 hkj
          · have : j = i := by omega
            rw [this]; exact h1
        · intro hh j hj hkj
          exact hh j (by omega) hkj
    · rename_i h
      constructor
      · intro hh j hj hkj; omega
      · intro hh
        rcases Nat.lt_or_ge i k with hik | hik
        · omega
        · exact absurd ((reps_one d i).2 (hh i (by omega) hik)) h

theorem rangeFrom_eq (a i : Nat) (h : a ≤ i) : rangeFrom a i = (List.range i).filter fun k => decide (a ≤ k) := by
  obtain ⟨c, rfl⟩ := Nat.exists_eq_add_of_le h
  unfold rangeFrom
  rw [List.range_add, List.filter_append]
  have h1 : (List.range a).filter (fun k => decide (a ≤ k)) = [] := by
    rw [List.filter_eq_nil_iff]
    intro x hx
    have := List.mem_range.1 hx
    simp; omega
  have h2 : ((List.range c).map (a + ·)).filter (fun k => decide (a ≤ k)) = (List.range c).map (a + ·) := by
    rw [List.filter_eq_self]
    intro x hx
    obtain ⟨y, _, rfl⟩ := List.mem_map.1 hx
    simp
  rw [h1, h2]
  simp

theorem members_eq (d : List Item) (i : Nat) :
    rangeFrom (max (runStart d i) (i - reps d i)) i = members d i := by
  rw [rangeFrom_eq _ _ (by have := runStart_le d i; omega)]
  unfold members
  apply List.filter_congr
  intro k hk
  have hk' := List.mem_range.1 hk
  rw [decide_eq_decide]
  unfold Member
  rw [← runStart_iff d i k (by omega)]
  omega

theorem members_mem (d : List Item) (i k : Nat) : k ∈ members d i ↔ Member d i k := by
  unfold members
  rw [List.mem_filter, List.mem_range]
  simp only [decide_eq_true_eq]
  exact ⟨fun h => h.2, fun h => ⟨h.1, h⟩⟩

/-- Members are no sums. -/
theorem member_not_sum {d : List Item} {i k : Nat} (h : Member d i k) : ¬ IsSum d k := by
  have := h.2.2 k h.1 (Nat.le_refl _)
  unfold IsSum
  omega

/-- No single scan has two sums. -/
theorem member_unique {d : List Item} {i i' k : Nat} (h : Member d i k) (h' : Member d i' k)
    (hs : IsSum d i) (hs' : IsSum d i') : i = i' := by
  unfold IsSum at hs hs'
  rcases Nat.lt_trichotomy i i' with hl | hl | hl
  · have := h'.2.2 i hl (by have := h.1; omega)
    omega
  · exact hl
  · have := h.2.2 i' hl (by have := h'.1; omega)
    omega

theorem foldl_set (l : List Nat) (b : List Bool) (v : Bool) :
    (l.foldl (fun b k => b.set k v) b).length = b.length ∧
    ∀ k < b.length, (l.foldl (fun b k => b.set k v) b).getD k false = if k ∈ l then v else b.getD k false := by
  induction l generalizing b with
  | nil => simp
  | cons x r ih =>
    simp only [List.foldl_cons]
    obtain ⟨h1, h2⟩ := ih (b.set x v)
    refine ⟨by rw [h1]; simp, ?_⟩
    intro k hk
    rw [h2 k (by simpa using hk)]
    by_cases hx : k = x
    · subst hx
      by_cases hr : k ∈ r <;> simp [hr, hk]
    · have : (b.set x v).getD k false = b.getD k false := by
        simp only [List.getD_eq_getElem?_getD]
        rw [List.getElem?_set_ne (by omega)]
      rw [this]
      simp [hx]

/-- What the list of flags is after the places before `m`. -/
def flagAt (f : Flags) (d : List Item) (m k : Nat) : Bool :=
  if IsSum d k then (if k < m then f.keepsum && (!f.sumingroups || f.keepindividual) else true)
  else if ∃ i < m, IsSum d i ∧ Member d i k then f.keepindividual else true

/-- What the list of groups is after the places before `m`. -/
def groupsAt (f : Flags) (d : List Item) (m : Nat) : List (List Nat) :=
  (((List.range m).filter fun i => IsSum d i).map (sumGroup f d)).filter (fun g => !g.isEmpty)

theorem getD_set (b : List Bool) (i k : Nat) (v : Bool) (hi : k < b.length) :
    (b.set i v).getD k false = if k = i then v else b.getD k false := by
  simp only [List.getD_eq_getElem?_getD]
  by_cases h : k = i
  · subst h; simp [hi]
  · rw [List.getElem?_set_ne (by omega)]; simp [h]

theorem flagAt_succ_not (f : Flags) (d : List Item) (m k : Nat) (h : ¬ IsSum d m) :
    flagAt f d (m + 1) k = flagAt f d m k := by
  unfold flagAt
  by_cases hk : IsSum d k
  · have : k ≠ m := fun e => h (e ▸ hk)
    simp only [hk, if_true]
    by_cases h1 : k < m
    · rw [if_pos h1, if_pos (by omega)]
    · rw [if_neg h1, if_neg (by omega)]
  · simp only [hk, if_false]
    have : (∃ i < m + 1, IsSum d i ∧ Member d i k) ↔ (∃ i < m, IsSum d i ∧ Member d i k) := by
      constructor
      · rintro ⟨i, h1, h2, h3⟩
        refine ⟨i, ?_, h2, h3⟩
        have : i ≠ m := fun e => h (e ▸ h2)
        omega
      · rintro ⟨i, h1, h2⟩
        exact ⟨i, by omega, h2⟩
    simp only [this]

theorem flagAt_succ_sum (f : Flags) (d : List Item) (m k : Nat) (h : IsSum d m) :
    flagAt f d (m + 1) k = if k = m then f.keepsum && (!f.sumingroups || f.keepindividual)
      else if Member d m k then f.keepindividual else flagAt f d m k := by
  unfold flagAt
  by_cases hk : IsSum d k
  · simp only [hk, if_true]
    have hm : ¬ Member d m k := fun hm => member_not_sum hm hk
    simp only [hm, if_false]
    by_cases h1 : k = m
    · rw [if_pos h1, if_pos (by omega)]
    · rw [if_neg h1]
      by_cases h2 : k < m
      · rw [if_pos h2, if_pos (by omega)]
      · rw [if_neg h2, if_neg (by omega)]
  · have h1 : k ≠ m := fun e => hk (e ▸ h)
    simp only [hk, if_false, h1]
    by_cases hm : Member d m k
    · rw [if_pos hm, if_pos ⟨m, by omega, h, hm⟩]
    · rw [if_neg hm]
      have : (∃ i < m + 1, IsSum d i ∧ Member d i k) ↔ (∃ i < m, IsSum d i ∧ Member d i k) := by
        constructor
        · rintro ⟨i, h1, h2, h3⟩
          refine ⟨i, ?_, h2, h3⟩
          have : i ≠ m := fun e => hm (e ▸ h3)
          omega
        · rintro ⟨i, h1, h2⟩
          exact ⟨i, by omega, h2⟩
      simp only [this]

theorem groupsAt_succ (f : Flags) (d : List Item) (m : Nat) :
    groupsAt f d (m + 1) = if IsSum d m then (if (sumGroup f d m).isEmpty then groupsAt f d m
      else groupsAt f d m ++ [sumGroup f d m]) else groupsAt f d m := by
  unfold groupsAt
  rw [List.range_succ, List.filter_append, List.map_append, List.filter_append]
  by_cases h : IsSum d m
  · by_cases hg : (sumGroup f d m).isEmpty
    · simp [h, hg]
    · simp [h, hg]
  · simp [h]

theorem numbers_append (d : List Item) (a b : List Nat) : numbers d (a ++ b) = numbers d a ++ numbers d b := by
  unfold numbers; rw [List.filterMap_append]

theorem loop_inv (f : Flags) (d : List Item) (m : Nat) (hm : m ≤ d.length) :
    ((List.range m).foldl (groupStep d f) (List.replicate d.length true, [])).1.length = d.length ∧
    (∀ k < d.length, ((List.range m).foldl (groupStep d f) (List.replicate d.length true, [])).1.getD k false = flagAt f d m k) ∧
    ((List.range m).foldl (groupStep d f) (List.replicate d.length true, [])).2 = groupsAt f d m := by
  induction m with
  | zero =>
    refine ⟨by simp, ?_, by simp [groupsAt]⟩
    intro k hk
    simp [flagAt, hk]
  | succ m ih =>
    obtain ⟨h1, h2, h3⟩ := ih (by omega)
    rw [List.range_succ, List.foldl_append]
    generalize (List.range m).foldl (groupStep d f) (List.replicate d.length true, []) = st at h1 h2 h3
    simp only [List.foldl_cons, List.foldl_nil]
    have hfm : flagAt f d m m = true := by
      by_cases hs : IsSum d m
      · simp [flagAt, hs]
      · unfold flagAt
        rw [if_neg hs, if_neg]
        rintro ⟨i, hi, _, hmem⟩
        have := hmem.1
        omega
    have hg : st.1.getD m false = true := by rw [h2 m (by omega)]; exact hfm
    unfold groupStep
    simp only [hg, Bool.true_eq_false, if_false]
    have hr : (d[m]?.map Item.repeats).getD 0 = reps d m := rfl
    rw [hr, members_eq]
    by_cases hs : IsSum d m
    · have hs' : 1 < reps d m := hs
      rw [if_pos hs']
      have hfil : (members d m).filter (fun k => st.1.getD k false) = members d m := by
        rw [List.filter_eq_self]
        intro k hk
        have hmem := (members_mem d m k).1 hk
        rw [h2 k (by have := hmem.1; omega)]
        unfold flagAt
        rw [if_neg (member_not_sum hmem), if_neg]
        rintro ⟨i, hi, hsi, hmi⟩
        have := member_unique hmem hmi hs hsi
        omega
      rw [hfil]
      obtain ⟨f1, f2⟩ := foldl_set (members d m) st.1 f.keepindividual
      generalize (members d m).foldl (fun b k => b.set k f.keepindividual) st.1 = bp at f1 f2
      have hbp : ∀ k < d.length, bp.getD k false = if Member d m k then f.keepindividual else flagAt f d m k := by
        intro k hk
        rw [f2 k (by omega), h2 k hk]
        simp only [members_mem]
      have hmm : ¬ Member d m m := fun h => by have := h.1; omega
      rw [groupsAt_succ, if_pos hs]
      have hflag : ∀ k < d.length, flagAt f d (m + 1) k = if k = m then f.keepsum && (!f.sumingroups || f.keepindividual)
          else bp.getD k false := by
        intro k hk
        rw [flagAt_succ_sum f d m k hs, hbp k hk]
      cases hks : f.keepsum with
      | true =>
        cases hsg : f.sumingroups with
        | true =>
          simp only [if_true]
          refine ⟨by simp [f1, h1], ?_, ?_⟩
          · intro k hk
            rw [getD_set _ _ _ _ (by omega), hflag k hk]
            simp [hks, hsg]
          · have : numbers d (members d m) ++ numbers d [m] = sumGroup f d m := by
              unfold sumGroup
              rw [numbers_append]
              simp [hks, hsg]
            rw [this, h3]
        | false =>
          simp only [if_true, Bool.false_eq_true, if_false]
          refine ⟨by omega, ?_, ?_⟩
          · intro k hk
            rw [hflag k hk]
            by_cases hkm : k = m
            · subst hkm
              rw [hbp k hk, if_neg hmm, hfm]
              simp [hks, hsg]
            · rw [if_neg hkm]
          · have : numbers d (members d m) = sumGroup f d m := by
              unfold sumGroup
              simp [hsg]
            rw [this, h3]
      | false =>
        simp only [Bool.false_eq_true, if_false]
        refine ⟨by simp [f1, h1], ?_, ?_⟩
        · intro k hk
          rw [getD_set _ _ _ _ (by omega), hflag k hk]
          simp [hks]
        · have : numbers d (members d m) = sumGroup f d m := by
            unfold sumGroup
            simp [hks]
          rw [this, h3]
    · have hs' : ¬ 1 < reps d m := hs
      rw [if_neg hs', groupsAt_succ, if_neg hs]
      refine ⟨h1, ?_, h3⟩
      intro k hk
      rw [h2 k hk, flagAt_succ_not f d m k hs]

end SC.Xanes
