import Mathlib.Order.Defs.LinearOrder
/-! # Stable sorting by a key (Python's `sorted(l, key=...)`)

Python guarantees that `sorted` is stable.  Insertion sort is used as the
implementation; `stableSort_unique` shows that any stable sort gives the same list,
so the choice of algorithm is irrelevant. -/
namespace SC.Common

/-- Insert before the first entry with a key that is not smaller. -/
def orderedInsert {α κ : Type} [LinearOrder κ] (key : α → κ) (a : α) : List α → List α
  | [] => [a]
  | b :: l => if key a ≤ key b then a :: b :: l else b :: orderedInsert key a l

/-- `sorted(l, key=key)` -/
def stableSort {α κ : Type} [LinearOrder κ] (key : α → κ) : List α → List α
  | [] => []
  | a :: l => orderedInsert key a (stableSort key l)

variable {α κ : Type} [LinearOrder κ] (key : α → κ)

theorem orderedInsert_perm (a : α) (l : List α) : (orderedInsert key a l).Perm (a :: l) := by
  induction l with
  | nil => exact List.Perm.refl _
  | cons b l ih =>
    simp only [orderedInsert]
    split
    · exact List.Perm.refl _
    · exact (ih.cons b).trans (List.Perm.swap a b l)

theorem stableSort_perm (l : List α) : (stableSort key l).Perm l := by
  induction l with
  | nil => exact List.Perm.refl _
  | cons a l ih => exact (orderedInsert_perm key a _).trans (ih.cons a)

theorem orderedInsert_sorted (a : α) (l : List α)
    (h : l.Pairwise (fun a b => key a ≤ key b)) :
    (orderedInsert key a l).Pairwise (fun a b => key a ≤ key b) := by
  induction l with
  | nil => simp [orderedInsert]
  | cons b l ih =>
    rw [List.pairwise_cons] at h
    simp only [orderedInsert]
    split
    · next hab =>
      rw [List.pairwise_cons]
      refine ⟨fun c hc => ?_, List.pairwise_cons.mpr h⟩
      rcases List.mem_cons.mp hc with rfl | hc
      · exact hab
      · exact le_trans hab (h.1 c hc)
    · next hab =>
      rw [List.pairwise_cons]
      refine ⟨fun c hc => ?_, ih h.2⟩
      rcases List.mem_cons.mp ((orderedInsert_perm key a l).mem_iff.mp hc) with rfl | hc
      · exact le_of_lt (not_le.mp hab)
      · exact h.1 c hc

theorem stableSort_sorted (l : List α) :
    (stableSort key l).Pairwise (fun a b => key a ≤ key b) := by
  induction l with
  | nil => simp [stableSort]
  | cons a l ih => exact orderedInsert_sorted key a _ ih

theorem orderedInsert_filter (a : α) (l : List α) (k : κ) :
    (orderedInsert key a l).filter (fun a => decide (key a = k)) =
      (a :: l).filter (fun a => decide (key a = k)) := by
  induction l with
  | nil => rfl
  | cons b l ih =>
    simp only [orderedInsert]
    split
    · rfl
    · next hab =>
      rw [List.filter_cons, ih]
      by_cases hb : key b = k
      · have ha : ¬ key a = k := fun h => hab (le_of_eq (h.trans hb.symm))
        simp [hb, ha]
      · simp [hb, List.filter_cons]

theorem stableSort_filter (l : List α) (k : κ) :
    (stableSort key l).filter (fun a => decide (key a = k)) =
      l.filter (fun a => decide (key a = k)) := by
  induction l with
  | nil => rfl
  | cons a l ih => rw [stableSort, orderedInsert_filter, List.filter_cons, ih, List.filter_cons]

/-- Sorting commutes with maps that preserve the key order. -/
theorem stableSort_map {β κ' : Type} [LinearOrder κ'] (key' : β → κ') (f : α → β)
    (hf : ∀ a b, key a ≤ key b ↔ key' (f a) ≤ key' (f b)) (l : List α) :
    (stableSort key l).map f = stableSort key' (l.map f) := by
  have hins : ∀ (a : α) (l : List α), (orderedInsert key a l).map f = orderedInsert key' (f a) (l.map f) := by
    intro a l
    induction l with
    | nil => rfl
    | cons b l ih =>
      simp only [orderedInsert, List.map_cons, ← hf]
      split <;> simp [ih]
  induction l with
  | nil => rfl
  | cons a l ih => simp only [stableSort, hins, ih, List.map_cons]

/-- A list sorted by key is determined by its subsequences of equal keys. -/
theorem sorted_ext : ∀ (l₁ l₂ : List α),
    l₁.Pairwise (fun a b => key a ≤ key b) → l₂.Pairwise (fun a b => key a ≤ key b) →
    (∀ k, l₁.filter (fun a => decide (key a = k)) = l₂.filter (fun a => decide (key a = k))) →
    l₁ = l₂
  | [], [], _, _, _ => rfl
  | [], b :: t, _, _, h => by have := h (key b); simp at this
  | a :: t, [], _, _, h => by have := h (key a); simp at this
  | a :: t, b :: t', h1, h2, h => by
    have hab : key a ≤ key b := by
      have hb : b ∈ (a :: t).filter (fun x => decide (key x = key b)) := by rw [h]; simp
      have := (List.mem_filter.mp hb).1
      rcases List.mem_cons.mp this with rfl | hm
      · exact le_refl _
      · exact (List.pairwise_cons.mp h1).1 _ hm
    have hba : key b ≤ key a := by
      have hb : a ∈ (b :: t').filter (fun x => decide (key x = key a)) := by rw [← h]; simp
      have := (List.mem_filter.mp hb).1
      rcases List.mem_cons.mp this with rfl | hm
      · exact le_refl _
      · exact (List.pairwise_cons.mp h2).1 _ hm
    have hk : key a = key b := le_antisymm hab hba
    have e0 := h (key a)
    simp only [List.filter_cons, decide_true, if_true, ← hk] at e0
    have hab' : a = b := (List.cons.inj e0).1
    subst hab'
    have : t = t' := by
      apply sorted_ext t t' (List.pairwise_cons.mp h1).2 (List.pairwise_cons.mp h2).2
      intro k
      have := h k
      simp only [List.filter_cons] at this
      split at this
      · exact (List.cons.inj this).2
      · exact this
    rw [this]

/-- Any list that is sorted by key and keeps equal-key elements in input order is
`stableSort key l`: the specification of a stable sort determines the result. -/
theorem stableSort_unique (l r : List α) (hs : r.Pairwise (fun a b => key a ≤ key b))
    (hf : ∀ k, r.filter (fun a => decide (key a = k)) = l.filter (fun a => decide (key a = k))) :
    r = stableSort key l :=
  sorted_ext key r _ hs (stableSort_sorted key l)
    (fun k => by rw [hf k, stableSort_filter])

theorem stableSort_of_sorted (l : List α) (hs : l.Pairwise (fun a b => key a ≤ key b)) :
    stableSort key l = l :=
  (stableSort_unique key l l hs (fun _ => rfl)).symm

/-- With pairwise distinct keys the result does not depend on the input order. -/
theorem stableSort_perm_eq (l₁ l₂ : List α) (hp : l₁.Perm l₂)
    (hinj : ∀ a ∈ l₁, ∀ b ∈ l₁, key a = key b → a = b) :
    stableSort key l₁ = stableSort key l₂ := by
  apply sorted_ext key _ _ (stableSort_sorted key l₁) (stableSort_sorted key l₂)
  intro k
  have hp' := ((stableSort_perm key l₁).trans (hp.trans (stableSort_perm key l₂).symm)).filter
    (fun a => decide (key a = k))
  -- both are permutations of each other and all elements are equal
  have hall : ∀ a ∈ (stableSort key l₁).filter (fun a => decide (key a = k)),
      ∀ b ∈ (stableSort key l₁).filter (fun a => decide (key a = k)), a = b := by
    intro a ha b hb
    simp only [List.mem_filter, decide_eq_true_eq] at ha hb
    exact hinj a ((stableSort_perm key l₁).mem_iff.mp ha.1) b
      ((stableSort_perm key l₁).mem_iff.mp hb.1) (ha.2.trans hb.2.symm)
  generalize (stableSort key l₁).filter (fun a => decide (key a = k)) = u at hp' hall
  generalize (stableSort key l₂).filter (fun a => decide (key a = k)) = v at hp'
  cases u with
  | nil => exact (List.nil_perm.mp hp').symm
  | cons a u =>
    have hu : a :: u = List.replicate (u.length + 1) a :=
      List.eq_replicate_iff.mpr ⟨rfl, fun b hb => hall b hb a (by simp)⟩
    have hv : v = List.replicate v.length a :=
      List.eq_replicate_iff.mpr ⟨rfl, fun b hb => hall b (hp'.mem_iff.mpr hb) a (by simp)⟩
    rw [hu, hv, ← hp'.length_eq]; rfl

end SC.Common
