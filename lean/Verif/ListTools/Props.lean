import Verif.ListTools.Lemmas
import Mathlib.Order.Nat
/-! # C10, C12: joint list operations (utils/listtools.py)

Specification vocabulary: multisets are `List.Perm`, stability is "the subsequence of
entries with a given key is unchanged", first occurrence is stated with positions. -/
namespace SC.ListTools
open SC.Py

/-! ## sort2lists -/

/-- **C12.** `sort2lists` on equally long, non-empty lists: the result is a pair of
equally long lists; the pairs are the input pairs (as a multiset), sorted by the first
list, and pairs with equal keys keep their input order. -/
theorem sort2lists_spec {κ β : Type} [LinearOrder κ] (l1 : List κ) (l2 : List β)
    (hlen : l1.length = l2.length) (hne : l1 ≠ []) :
    ∃ s1 s2, sort2lists l1 l2 = some (s1, s2) ∧ s1.length = l1.length ∧ s2.length = l1.length ∧
      (s1.zip s2).Perm (l1.zip l2) ∧ s1.Pairwise (· ≤ ·) ∧
      ∀ k, ((s1.zip s2).filter (fun p => decide (p.1 = k))) =
            ((l1.zip l2).filter (fun p => decide (p.1 = k))) := by
  have hp := Common.stableSort_perm (Prod.fst : κ × β → κ) (l1.zip l2)
  have hs := Common.stableSort_sorted (Prod.fst : κ × β → κ) (l1.zip l2)
  have hf := Common.stableSort_filter (Prod.fst : κ × β → κ) (l1.zip l2)
  have hz : (l1.zip l2).length = l1.length := by simp [List.length_zip, hlen]
  have hl := hp.length_eq
  generalize hg : Common.stableSort (Prod.fst : κ × β → κ) (l1.zip l2) = s at *
  have hsne : s ≠ [] := by
    rintro rfl
    simp at hl
    exact hne (List.length_eq_zero_iff.mp (by omega))
  obtain ⟨a, t, rfl⟩ := List.exists_cons_of_ne_nil hsne
  have hzip : ((a :: t).map Prod.fst).zip ((a :: t).map Prod.snd) = a :: t := by
    rw [List.zip_map']; simp
  refine ⟨(a :: t).map Prod.fst, (a :: t).map Prod.snd, by simp [sort2lists, hg], ?_, ?_, ?_, ?_, ?_⟩
  · simp only [List.length_map]; omega
  · simp only [List.length_map]; omega
  · rw [hzip]; exact hp
  · rw [List.pairwise_map]; exact hs
  · intro k; rw [hzip]; exact hf k

example : sort2lists [3, 1, 2, 1] ["c", "a", "b", "a'"] = some ([1, 1, 2, 3], ["a", "a'", "b", "c"]) := by
  decide

/-- **C12.** Empty input: `sort2lists` yields an empty tuple, which callers cannot unpack. -/
theorem sort2lists_nil {κ β : Type} [LinearOrder κ] (l2 : List β) :
    sort2lists ([] : List κ) l2 = none := by
  simp [sort2lists, Common.stableSort]

/-! ## unique2lists, sumrepeats -/

/-! ### first occurrences -/

/-- **C12.** `unique_everseen(l, key)` keeps exactly the entries whose key differs from the keys
of all earlier entries, in input order. -/
theorem uniqueEverseen_spec {α κ : Type} [DecidableEq κ] (key : α → κ) (l : List α) :
    uniqueEverseen key [] l = (List.range l.length).filterMap fun i =>
      if ∀ j < i, (l[j]?).map key ≠ (l[i]?).map key then l[i]? else none := by
  rw [uniqueEverseen_eq]
  simp [keepFirst]

/-- Consequences of `unique_everseen`'s definition: no key twice, every key present, order kept. -/
theorem uniqueEverseen_nodup {α κ : Type} [DecidableEq κ] (key : α → κ) (l : List α) :
    ((uniqueEverseen key [] l).map key).Nodup ∧
    (∀ k, k ∈ (uniqueEverseen key [] l).map key ↔ k ∈ l.map key) ∧
    (uniqueEverseen key [] l).Sublist l := by
  have gen : ∀ (l : List α) (seen : List κ), ((uniqueEverseen key seen l).map key).Nodup ∧
      (∀ k, k ∈ (uniqueEverseen key seen l).map key ↔ (k ∈ l.map key ∧ k ∉ seen)) ∧
      (uniqueEverseen key seen l).Sublist l := by
    intro l
    induction l with
    | nil => intro seen; simp [uniqueEverseen]
    | cons a l ih =>
      intro seen
      simp only [uniqueEverseen]
      split
      · next hm =>
        obtain ⟨h1, h2, h3⟩ := ih seen
        refine ⟨h1, fun k => ?_, h3.cons a⟩
        rw [h2 k]; simp only [List.map_cons, List.mem_cons]
        constructor
        · rintro ⟨h, h'⟩; exact ⟨Or.inr h, h'⟩
        · rintro ⟨h | h, h'⟩
          · exact absurd (h ▸ hm) h'
          · exact ⟨h, h'⟩
      · next hm =>
        obtain ⟨h1, h2, h3⟩ := ih (key a :: seen)
        refine ⟨?_, fun k => ?_, h3.cons_cons a⟩
        · rw [List.map_cons, List.nodup_cons]
          refine ⟨?_, h1⟩
          rw [h2]; simp
        · simp only [List.map_cons, List.mem_cons, h2 k, not_or]
          constructor
          · rintro (rfl | ⟨h, h', h''⟩)
            · exact ⟨Or.inl rfl, hm⟩
            · exact ⟨Or.inr h, h''⟩
          · rintro ⟨rfl | h, h'⟩
            · exact Or.inl rfl
            · by_cases e : k = key a
              · exact Or.inl e
              · exact Or.inr ⟨h, e, h'⟩
  obtain ⟨h1, h2, h3⟩ := gen l []
  exact ⟨h1, fun k => by rw [h2 k]; simp, h3⟩

example : uniqueEverseen (fun n => n % 3) [] [4, 1, 5, 3, 2, 7] = [4, 5, 3] := by decide

/-- **C10.** `unique2lists(keys, values, add=True)`: the keys are the distinct keys in order of
first occurrence and each value is the total of the values of that key. -/
theorem unique2listsAdd_spec {κ β : Type} [DecidableEq κ] [AddCommMonoid β] (l1 : List κ)
    (l2 : List β) (hlen : l1.length = l2.length) :
    (unique2listsAdd l1 l2).1 = firstKeys l1 ∧
    (unique2listsAdd l1 l2).2 = (firstKeys l1).map (fun k => total k (l1.zip l2)) := by
  have hz : (l1.zip l2).map Prod.fst = l1 := List.map_fst_zip (by omega)
  have hk : (unique2listsAdd l1 l2).1 = firstKeys l1 := by
    simp only [unique2listsAdd, addLoop_keys, List.map_nil, hz]
    rw [uniqueEverseen_spec]
    simp [firstKeys]
  refine ⟨hk, ?_⟩
  rw [← hk]
  simp only [unique2listsAdd]
  apply List.map_congr_left
  intro k _
  simp [addLoop_get, Counter.get]

example : unique2listsAdd [2, 1, 2, 3, 1] [10, 20, 30, 40, 50] = ([2, 1, 3], [40, 70, 40]) := by
  decide

/-- **C10.** `sumrepeats` returns the distinct labels in order of first occurrence with their
totals, and the grand total is unchanged. -/
theorem sumrepeats_spec {κ β : Type} [DecidableEq κ] [AddCommMonoid β] (l1 : List κ) (l2 : List β)
    (hlen : l1.length = l2.length) :
    (sumrepeats l1 l2).1 = firstKeys l1 ∧
    (sumrepeats l1 l2).2 = (firstKeys l1).map (fun k => total k (l1.zip l2)) ∧
    (sumrepeats l1 l2).2.sum = l2.sum := by
  have hz : (l1.zip l2).map Prod.fst = l1 := List.map_fst_zip (by omega)
  have hz2 : (l1.zip l2).map Prod.snd = l2 := List.map_snd_zip (by omega)
  have h := sumrepeats_loop (l1.zip l2) [] (by simp)
  simp only [List.map_nil, List.nil_append, hz] at h
  have hfk : uniqueEverseen id [] l1 = firstKeys l1 := by
    rw [uniqueEverseen_spec]; simp [firstKeys]
  rw [hfk] at h
  have hnd : (firstKeys l1).Nodup := by
    rw [← hfk]; simpa using (uniqueEverseen_nodup id l1).1
  have e1 : (sumrepeats l1 l2).1 = firstKeys l1 := h.2
  have e2 : (sumrepeats l1 l2).2 = (firstKeys l1).map (fun k => total k (l1.zip l2)) := by
    simp only [sumrepeats]
    rw [Counter.values_eq _ (by rw [h.2]; exact hnd), h.2]
    apply List.map_congr_left
    intro k _
    rw [h.1 k]; simp [Counter.get]
  refine ⟨e1, e2, ?_⟩
  rw [e2, total_sum_partition _ hnd, hz2]
  intro p hp
  have : p.1 ∈ l1 := by rw [← hz]; exact List.mem_map_of_mem hp
  rw [← hfk]
  have := ((uniqueEverseen_nodup id l1).2.1 p.1).mpr (by simpa using this)
  simpa using this

example : sumrepeats ["b", "a", "b"] [1, 2, 3] = (["b", "a"], [4, 2]) := by decide

/-- **C10.** `unique2lists(keys, values, add=False)` on non-empty, equally long lists keeps
exactly the first pair of every key. -/
theorem unique2listsFirst_spec {κ β : Type} [DecidableEq κ] (l1 : List κ) (l2 : List β)
    (hne : l1.zip l2 ≠ []) :
    ∃ s, unique2listsFirst l1 l2 = .ok (s.map (·.1), s.map (·.2)) ∧
      s = (List.range (l1.zip l2).length).filterMap fun i =>
        if ∀ j < i, ((l1.zip l2)[j]?).map Prod.fst ≠ ((l1.zip l2)[i]?).map Prod.fst
        then (l1.zip l2)[i]? else none := by
  have hfl : ∀ (l : List (κ × β)) seen, firstLoop seen l = uniqueEverseen Prod.fst seen l := by
    intro l
    induction l with
    | nil => intro _; rfl
    | cons p l ih =>
      obtain ⟨x, y⟩ := p
      intro seen
      simp only [firstLoop, uniqueEverseen, ih]
  refine ⟨uniqueEverseen Prod.fst [] (l1.zip l2), ?_, uniqueEverseen_spec _ _⟩
  have hh : uniqueEverseen Prod.fst [] (l1.zip l2) ≠ [] := by
    obtain ⟨a, t, e⟩ := List.exists_cons_of_ne_nil hne
    rw [e]; simp [uniqueEverseen]
  simp only [unique2listsFirst, hfl]

example : unique2listsFirst [2, 1, 2] ["x", "y", "z"] = .ok ([2, 1], ["x", "y"]) := by decide

/-- **C10.** Empty input with `add=False` raises `ValueError`; with `add=True` it returns two
empty lists. -/
theorem unique2lists_nil {κ β : Type} [DecidableEq κ] [AddCommMonoid β] :
    unique2listsFirst ([] : List κ) ([] : List β) = .error .valueError ∧
    unique2listsAdd ([] : List κ) ([] : List β) = ([], []) := by
  constructor <;> rfl

end SC.ListTools
