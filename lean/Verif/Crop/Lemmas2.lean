import Verif.Crop.Lemmas
import Mathlib.Tactic.ByContra
/-! # Helper lemmas about the mask, the ROI of one dimension and the loop over the dimensions -/
namespace SC.Crop
open SC.Numpy SC.Py

/-! ## the mask -/

theorem maskSliced_eq (a : Arr Px) (sd : Nat) (nv : NanVal) (sA sB : List Nat) (n : Nat)
    (hs : a.shape = sA ++ n :: sB) (hsd : sA.length = sd) : ∀ (is : List Nat) (m : List Nat → Bool), (∀ i ∈ is, i < n) →
    ∃ m', maskSliced a sd nv is m = some m' ∧
      ∀ r, InB r (sA ++ sB) → m' r = (m r && is.all fun (k : Nat) => !isBad nv (a.get (r.insertIdx sd k)))
  | [], m, _ => ⟨m, rfl, fun r _ => by simp⟩
  | i :: is, m, h => by
    obtain ⟨b, hb, _, hg⟩ := sliceItems_get a sd i sA sB n hs hsd (h i (by simp))
    obtain ⟨m', hm, hr⟩ := maskSliced_eq a sd nv sA sB n hs hsd is (fun r => m r && !isBad nv (b.get r))
      (fun k hk => h k (by simp [hk]))
    refine ⟨m', by simp [maskSliced, hb, hm], fun r hin => ?_⟩
    rw [hr r hin, hg r hin, List.all_cons, Bool.and_assoc]

theorem maskWhole_all (a : Arr Px) (sd : Nat) (nv : NanVal) (r : List Nat) :
    maskWhole a sd nv r = (List.range (a.shape.getD sd 0)).all fun (k : Nat) => !isBad nv (a.get (r.insertIdx sd k)) := by
  unfold maskWhole
  rw [Bool.eq_iff_iff]
  simp [List.length_eq_zero_iff, List.filter_eq_nil_iff]

theorem count_congr (s : List Nat) (m m' : List Nat → Bool) (h : ∀ r, InB r s → m r = m' r) (d j : Nat) :
    count s m d j = count s m' d j := by
  unfold count
  congr 1
  apply List.filter_congr
  intro r hr
  rw [h r ((mem_allIdx _ _).1 hr)]

theorem roiLoop_congr (s : List Nat) (m m' : List Nat → Bool) (h : ∀ r, InB r s → m r = m' r) (nf : Bool) (sd n : Nat) :
    ∀ (gs : List Nat) (im : Nat), roiLoop s m nf sd n gs im = roiLoop s m' nf sd n gs im
  | [], _ => rfl
  | g :: gs, im => by
    unfold roiLoop
    rw [roiLoop_congr s m m' h nf sd n gs im, roiLoop_congr s m m' h nf sd n gs (im + 1)]
    simp only [count_congr s m m' h]

theorem split_shape (s : List Nat) (sd : Nat) (h : sd < s.length) :
    s = s.take sd ++ s.getD sd 0 :: s.drop (sd + 1) ∧ (s.take sd).length = sd := by
  refine ⟨?_, by simp; omega⟩
  conv_lhs => rw [← List.take_append_drop sd s, List.drop_eq_getElem_cons h]
  simp [List.getD_eq_getElem?_getD, h]

theorem calc_whole (a : Arr Px) (sd : Nat) (nv : NanVal) (nf sl : Bool) (h : sd < a.shape.length) :
    calccroproi a sd nv nf sl =
      roiLoop (a.shape.eraseIdx sd) (maskWhole a sd nv) nf sd (a.shape.getD sd 0) (List.range a.shape.length) 0 := by
  obtain ⟨h1, h2⟩ := split_shape a.shape sd h
  cases sl with
  | false => rfl
  | true =>
    obtain ⟨m', hm, hr⟩ := maskSliced_eq a sd nv _ _ _ h1 h2 (List.range (a.shape.getD sd 0)) (fun _ => true)
      (fun i hi => List.mem_range.1 hi)
    have e1 : a.shape.eraseIdx sd = a.shape.take sd ++ a.shape.drop (sd + 1) := by
      conv_lhs => rw [h1]
      have := eraseIdx_mid (a.shape.take sd) (a.shape.drop (sd + 1)) (a.shape.getD sd 0)
      rwa [h2] at this
    have e2 : sliceShape a.shape sd = a.shape.take sd ++ a.shape.drop (sd + 1) := by
      have := sliceShape_eq (a.shape.take sd) (a.shape.drop (sd + 1)) (a.shape.getD sd 0)
      rwa [h2, ← h1] at this
    unfold calccroproi
    simp only [hm, if_true]
    rw [e1, e2]
    apply roiLoop_congr
    intro r hin
    rw [hr r hin, maskWhole_all, Bool.true_and]

/-! ## the loop over the dimensions -/

/-- The mask dimension of a grid dimension. -/
def dm (sd g : Nat) : Nat := if g < sd then g else g - 1

/-- The counts along a mask dimension. -/
def counts (s : List Nat) (m : List Nat → Bool) (d : Nat) : List Nat :=
  (List.range (s.getD d 0)).map fun (j : Nat) => count s m d j

theorem roiLoop_some (s : List Nat) (m : List Nat → Bool) (nf : Bool) (sd n : Nat) (f : Nat → Nat × Nat) :
    ∀ (len g0 : Nat), (∀ g, g0 ≤ g → g < g0 + len → g ≠ sd → axisRoi nf (counts s m (dm sd g)) = some (some (f g))) →
    roiLoop s m nf sd n (List.range' g0 len) (if g0 ≤ sd then g0 else g0 - 1) =
      some (some ((List.range' g0 len).map fun g => if g = sd then (0, n) else f g))
  | 0, g0, _ => by simp [roiLoop]
  | len + 1, g0, h => by
    have ih := roiLoop_some s m nf sd n f len (g0 + 1) (fun g h1 h2 h3 => h g (by omega) (by omega) h3)
    rw [List.range'_succ]
    unfold roiLoop
    by_cases hg : g0 = sd
    · subst hg
      rw [if_neg (by omega)] at ih
      simp only [Nat.add_sub_cancel] at ih
      simp [ih]
    · have h0 := h g0 (le_refl _) (by omega) hg
      have e1 : (if g0 ≤ sd then g0 else g0 - 1) = dm sd g0 := by
        unfold dm; split_ifs <;> omega
      have e2 : dm sd g0 + 1 = (if g0 + 1 ≤ sd then g0 + 1 else g0 + 1 - 1) := by
        unfold dm; split_ifs <;> omega
      rw [if_neg hg, e1]
      unfold counts at h0
      rw [h0, e2, ih]
      simp [hg]

theorem roiLoop_none (s : List Nat) (m : List Nat → Bool) (nf : Bool) (sd n : Nat) :
    ∀ (len g0 : Nat), (∀ g, g0 ≤ g → g < g0 + len → g ≠ sd → axisRoi nf (counts s m (dm sd g)) ≠ none) →
    (∃ g, g0 ≤ g ∧ g < g0 + len ∧ g ≠ sd ∧ axisRoi nf (counts s m (dm sd g)) = some none) →
    roiLoop s m nf sd n (List.range' g0 len) (if g0 ≤ sd then g0 else g0 - 1) = some none
  | 0, g0, _, h => by obtain ⟨g, h1, h2, _⟩ := h; omega
  | len + 1, g0, hn, h => by
    obtain ⟨g, h1, h2, h3, h4⟩ := h
    have ih := roiLoop_none s m nf sd n len (g0 + 1) (fun g h1 h2 h3 => hn g (by omega) (by omega) h3)
    rw [List.range'_succ]
    unfold roiLoop
    by_cases hg : g0 = sd
    · subst hg
      have ih := ih ⟨g, by omega, by omega, h3, h4⟩
      rw [if_neg (by omega)] at ih
      simp only [Nat.add_sub_cancel] at ih
      simp [ih]
    · have h0 := hn g0 (le_refl _) (by omega) hg
      have e1 : (if g0 ≤ sd then g0 else g0 - 1) = dm sd g0 := by
        unfold dm; split_ifs <;> omega
      have e2 : dm sd g0 + 1 = (if g0 + 1 ≤ sd then g0 + 1 else g0 + 1 - 1) := by
        unfold dm; split_ifs <;> omega
      rw [if_neg hg, e1]
      unfold counts at h0
      generalize hx : axisRoi nf ((List.range (s.getD (dm sd g0) 0)).map fun (j : Nat) => count s m (dm sd g0) j) = x at h0
      match x, h0 with
      | some none, _ => rfl
      | some (some ab), _ =>
        have hne : g ≠ g0 := by
          rintro rfl
          unfold counts at h4
          rw [hx] at h4; simp at h4
        have ih := ih ⟨g, by omega, by omega, h3, h4⟩
        simp only [e2, ih]

/-! ## one dimension -/

theorem counts_get (s : List Nat) (m : List Nat → Bool) (d k : Nat) :
    (counts s m d)[k]? = if k < s.getD d 0 then some (count s m d k) else none := by
  unfold counts
  by_cases hk : k < s.getD d 0
  · rw [List.getElem?_map, List.getElem?_range hk, if_pos hk]; rfl
  · rw [List.getElem?_map, List.getElem?_eq_none (by simpa using hk), if_neg hk]; rfl

theorem inB_lt {r s : List Nat} (h : InB r s) {d : Nat} (hd : d < s.length) : r.getD d 0 < s.getD d 0 := by
  obtain ⟨i, h1, h2⟩ := h.getElem? (k := d) (n := s.getD d 0) (by simp [List.getD_eq_getElem?_getD, hd])
  simp [List.getD_eq_getElem?_getD, h1] at *
  exact h2

theorem axis_empty (nf : Bool) (s : List Nat) (m : List Nat → Bool) (d : Nat) (hc : nf = true → 0 < s.getD d 0)
    (h : ∀ r, InB r s → m r = false) : axisRoi nf (counts s m d) = some none := by
  have hz : ∀ x ∈ counts s m d, x = 0 := by
    intro x hx
    simp only [counts, List.mem_map] at hx
    obtain ⟨j, _, rfl⟩ := hx
    by_contra hne
    obtain ⟨r, h1, h2, _⟩ := (count_pos _ _ _ _).1 hne
    rw [h r h1] at h2; simp at h2
  have hm : (counts s m d).foldr max 0 = 0 := by
    generalize counts s m d = l at hz
    induction l with
    | nil => rfl
    | cons x l ih =>
      simp only [List.foldr_cons, ih (fun y hy => hz y (by simp [hy])), hz x (by simp)]
      rfl
  have hne : (nf && decide (counts s m d = [])) = false := by
    cases nf with
    | false => rfl
    | true =>
      have := hc rfl
      simp only [Bool.true_and, decide_eq_false_iff_not, counts, List.map_eq_nil_iff]
      intro h; rw [List.range_eq_nil] at h; omega
  unfold axisRoi
  simp only [hne, hm]
  simp only [ne_eq, not_true_eq_false, decide_false, Bool.and_false, Bool.false_eq_true, if_false]
  rcases first_last ((counts s m d).map fun (x : Nat) => decide (¬ x = 0)) with ⟨_, h2⟩ | ⟨i, j, _, _, h3, _⟩
  · rw [h2]
  · rw [List.getElem?_map] at h3
    cases hx : (counts s m d)[i]? with
    | none => rw [hx] at h3; simp at h3
    | some x =>
      rw [hx] at h3
      have := hz x (List.mem_of_getElem? hx)
      simp [this] at h3

/-- `nanfull=False`: the ROI goes from the first to the last slice with a valid pixel. -/
theorem axis_any (s : List Nat) (m : List Nat → Bool) (d : Nat) (hd : d < s.length)
    (h : ∃ r, InB r s ∧ m r = true) :
    ∃ i j, axisRoi false (counts s m d) = some (some (i, j + 1)) ∧
      (∃ r, InB r s ∧ m r = true ∧ r.getD d 0 = i) ∧ (∃ r, InB r s ∧ m r = true ∧ r.getD d 0 = j) ∧
      ∀ r, InB r s → m r = true → i ≤ r.getD d 0 ∧ r.getD d 0 ≤ j := by
  have key : ∀ k, ((counts s m d).map fun (x : Nat) => decide (x ≠ 0))[k]? = some true ↔
      ∃ r, InB r s ∧ m r = true ∧ r.getD d 0 = k := by
    intro k
    rw [List.getElem?_map, counts_get, ← count_pos]
    by_cases hk : k < s.getD d 0
    · rw [if_pos hk]; simp
    · simp only [hk, if_false, Option.map_none, reduceCtorEq, false_iff]
      rw [count_pos]
      rintro ⟨r, h1, _, h3⟩
      have := inB_lt h1 hd
      omega
  unfold axisRoi
  simp only [Bool.false_and, Bool.false_eq_true, if_false]
  rcases first_last ((counts s m d).map fun (x : Nat) => decide (x ≠ 0)) with ⟨h1, _⟩ | ⟨i, j, h1, h2, h3, h4, h5⟩
  · obtain ⟨r, hr, hm⟩ := h
    exact absurd (List.mem_of_getElem? ((key (r.getD d 0)).2 ⟨r, hr, hm, rfl⟩)) h1
  · refine ⟨i, j, by rw [h1, h2], (key i).1 h3, (key j).1 h4, fun r hr hm => h5 _ ((key _).2 ⟨r, hr, hm, rfl⟩)⟩

theorem le_foldr_max : ∀ (l : List Nat) (x : Nat), x ∈ l → x ≤ l.foldr max 0
  | y :: l, x, h => by
    rcases List.mem_cons.1 h with h | h
    · subst h; exact le_max_left _ _
    · exact le_trans (le_foldr_max l x h) (le_max_right _ _)

theorem foldr_max_mem : ∀ (l : List Nat), l.foldr max 0 ≠ 0 → l.foldr max 0 ∈ l
  | [], h => by simp at h
  | y :: l, h => by
    simp only [List.foldr_cons] at h ⊢
    rcases le_total y (l.foldr max 0) with h1 | h1
    · rw [max_eq_right h1] at h ⊢
      exact List.mem_cons_of_mem _ (foldr_max_mem l h)
    · rw [max_eq_left h1]; simp

/-- `nanfull=True`: the ROI goes from the first to the last slice with the largest number of valid
pixels. -/
theorem axis_full (s : List Nat) (m : List Nat → Bool) (d : Nat) (hd : d < s.length)
    (h : ∃ r, InB r s ∧ m r = true) :
    ∃ i j, axisRoi true (counts s m d) = some (some (i, j + 1)) ∧ i ≤ j ∧ j < s.getD d 0 ∧
      (∀ k, count s m d k ≤ count s m d i) ∧ count s m d i = count s m d j ∧ 0 < count s m d i ∧
      ∀ k, k < s.getD d 0 → count s m d k = count s m d i → i ≤ k ∧ k ≤ j := by
  obtain ⟨r, hr, hm⟩ := h
  have hlt := inB_lt hr hd
  have hp : count s m d (r.getD d 0) ≠ 0 := (count_pos _ _ _ _).2 ⟨r, hr, hm, rfl⟩
  have hmem : count s m d (r.getD d 0) ∈ counts s m d :=
    List.mem_map.2 ⟨_, List.mem_range.2 hlt, rfl⟩
  have hM : (counts s m d).foldr max 0 ≠ 0 := by
    have := le_foldr_max _ _ hmem; omega
  have hMm := foldr_max_mem _ hM
  have hz : ∀ k, ¬ k < s.getD d 0 → count s m d k = 0 := by
    intro k hk
    by_contra hne
    obtain ⟨q, h1, _, h3⟩ := (count_pos _ _ _ _).1 hne
    have := inB_lt h1 hd
    omega
  have hle : ∀ k, count s m d k ≤ (counts s m d).foldr max 0 := by
    intro k
    by_cases hk : k < s.getD d 0
    · exact le_foldr_max _ _ (List.mem_map.2 ⟨k, List.mem_range.2 hk, rfl⟩)
    · rw [hz k hk]; omega
  have hc : (counts s m d) ≠ [] := List.ne_nil_of_mem hmem
  unfold axisRoi
  generalize (counts s m d).foldr max 0 = M at *
  have key : ∀ k, ((counts s m d).map fun (x : Nat) => decide (x = M))[k]? = some true ↔
      k < s.getD d 0 ∧ count s m d k = M := by
    intro k
    rw [List.getElem?_map, counts_get]
    by_cases hk : k < s.getD d 0
    · rw [if_pos hk]; simp only [hk, true_and, Option.map_some, Option.some.injEq, decide_eq_true_eq]
    · rw [if_neg hk]; simp only [hk, false_and, Option.map_none, reduceCtorEq]
  simp only [hc, decide_false, Bool.and_false, Bool.false_eq_true, if_false, ne_eq, hM, not_false_eq_true, decide_true,
    Bool.and_self, if_true]
  rcases first_last ((counts s m d).map fun (x : Nat) => decide (x = M)) with ⟨h1, _⟩ | ⟨i, j, h1, h2, h3, h4, h5⟩
  · obtain ⟨k, hk, hk2⟩ := List.mem_map.1 hMm
    exact absurd (List.mem_of_getElem? ((key k).2 ⟨List.mem_range.1 hk, hk2⟩)) h1
  · obtain ⟨hi, hi2⟩ := (key i).1 h3
    obtain ⟨hj, hj2⟩ := (key j).1 h4
    refine ⟨i, j, by rw [h1, h2], (h5 i h3).2, hj, fun k => hi2 ▸ hle k, by rw [hi2, hj2], by omega, ?_⟩
    intro k hk hk2
    exact h5 k ((key k).2 ⟨hk, by omega⟩)

/-! ## pixels of the grid and of the mask -/

theorem dm_lt {sd g n : Nat} (hs : sd < n) (hg : g < n) (hne : g ≠ sd) : dm sd g < n - 1 := by
  unfold dm; split_ifs <;> omega

theorem insert_dm (r : List Nat) (sd k g : Nat) (hs : sd ≤ r.length) (hne : g ≠ sd) :
    (r.insertIdx sd k).getD g 0 = r.getD (dm sd g) 0 := by
  unfold dm
  simp only [List.getD_eq_getElem?_getD, List.getElem?_insertIdx]
  split_ifs <;> first | rfl | omega

theorem insert_self (r : List Nat) (sd k : Nat) (hs : sd ≤ r.length) : (r.insertIdx sd k).getD sd 0 = k :=
  getD_insertIdx_self hs

theorem insert_set (r : List Nat) (sd k k' : Nat) (hs : sd ≤ r.length) :
    (r.insertIdx sd k).set sd k' = r.insertIdx sd k' := by
  apply List.ext_getElem?
  intro i
  simp only [List.getElem?_set, List.getElem?_insertIdx, List.length_insertIdx_of_le_length hs]
  split_ifs <;> first | rfl | omega | simp_all

theorem inB_split {p s : List Nat} {sd : Nat} (hs : sd < s.length) (h : InB p s) :
    ∃ k r, k < s.getD sd 0 ∧ InB r (s.eraseIdx sd) ∧ p = r.insertIdx sd k := by
  have e : (s.eraseIdx sd).insertIdx sd (s.getD sd 0) = s := by
    rw [List.insertIdx_eraseIdx_self (by omega)]
    apply List.ext_getElem?
    intro i
    rw [List.getElem?_set]
    by_cases h1 : sd = i
    · subst h1; simp [List.getD_eq_getElem?_getD, hs]
    · rw [if_neg h1]
  rw [← e] at h
  obtain ⟨j, r, h1, h2, h3⟩ := InB.insert_split (by rw [List.length_eraseIdx_of_lt hs]; omega) h
  exact ⟨j, r, h1, h2, h3⟩

theorem inB_join {s r : List Nat} {sd k : Nat} (hs : sd < s.length) (hk : k < s.getD sd 0) (h : InB r (s.eraseIdx sd)) :
    InB (r.insertIdx sd k) s := by
  have e : (s.eraseIdx sd).insertIdx sd (s.getD sd 0) = s := by
    rw [List.insertIdx_eraseIdx_self (by omega)]
    apply List.ext_getElem?
    intro i
    rw [List.getElem?_set]
    by_cases h1 : sd = i
    · subst h1; simp [List.getD_eq_getElem?_getD, hs]
    · rw [if_neg h1]
  have := InB.insert (p := sd) (m := s.getD sd 0) (j := k) (by rw [List.length_eraseIdx_of_lt hs]; omega) hk h
  rwa [e] at this

theorem erase_getD (s : List Nat) (sd g : Nat) (hne : g ≠ sd) : (s.eraseIdx sd).getD (dm sd g) 0 = s.getD g 0 := by
  unfold dm
  simp only [List.getD_eq_getElem?_getD, List.getElem?_eraseIdx]
  split_ifs with h1 h2 h2 <;> first | rfl | omega | (congr 2; omega)

end SC.Crop
