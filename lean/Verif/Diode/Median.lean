import Verif.Diode.Spec
import Mathlib.Tactic.Linarith
import Mathlib.Algebra.Order.Field.Basic
/-! # The median -/
namespace SC.Diode

variable {K : Type} [Field K] [LinearOrder K] [IsStrictOrderedRing K]

omit [Field K] [LinearOrder K] [IsStrictOrderedRing K] in
theorem countP_take {p : K → Bool} (s : List K) (n : Nat) (h : ∀ a ∈ s.take n, p a = true) (hn : n ≤ s.length) :
    n ≤ s.countP p := by
  have h1 : (s.take n).countP p = n := by
    rw [List.countP_eq_length.mpr h, List.length_take, min_eq_left hn]
  calc n = (s.take n).countP p := h1.symm
    _ ≤ s.countP p := List.Sublist.countP_le (List.take_sublist n s)

omit [Field K] [LinearOrder K] [IsStrictOrderedRing K] in
theorem countP_drop {p : K → Bool} (s : List K) (n : Nat) (h : ∀ a ∈ s.drop n, p a = true) :
    s.length - n ≤ s.countP p := by
  have h1 : (s.drop n).countP p = s.length - n := by
    rw [List.countP_eq_length.mpr h, List.length_drop]
  calc s.length - n = (s.drop n).countP p := h1.symm
    _ ≤ s.countP p := List.Sublist.countP_le (List.drop_sublist n s)

theorem middle_median (s : List K) (hs : s.Pairwise (· ≤ ·)) (hne : s ≠ []) : IsMedian s (middle s) := by
  have hl : 0 < s.length := List.length_pos_iff.mpr hne
  have get : ∀ i (hi : i < s.length), s.getD i 0 = s[i] := fun i hi => by simp [hi]
  have mono : ∀ i j (hi : i < s.length) (hj : j < s.length), i ≤ j → s[i] ≤ s[j] := by
    intro i j hi hj hij
    rcases Nat.lt_or_eq_of_le hij with h | h
    · exact List.pairwise_iff_getElem.mp hs i j hi hj h
    · subst h; exact le_refl _
  have tk : ∀ n (hn : n < s.length) (m : K), s[n] ≤ m → ∀ a ∈ s.take (n + 1), decide (a ≤ m) = true := by
    intro n hn m hm a ha
    obtain ⟨i, hi, rfl⟩ := List.mem_iff_getElem.mp ha
    rw [List.length_take] at hi
    rw [List.getElem_take]
    simpa using le_trans (mono i n (by omega) hn (by omega)) hm
  have dp : ∀ n (hn : n < s.length) (m : K), m ≤ s[n] → ∀ a ∈ s.drop n, decide (m ≤ a) = true := by
    intro n hn m hm a ha
    obtain ⟨i, hi, rfl⟩ := List.mem_iff_getElem.mp ha
    rw [List.length_drop] at hi
    rw [List.getElem_drop]
    simpa using le_trans hm (mono n (n + i) hn (by omega) (by omega))
  unfold middle IsMedian
  split
  · rename_i hodd
    have hn : s.length / 2 < s.length := by omega
    rw [get _ hn]
    have h1 := countP_take s _ (tk _ hn _ (le_refl _)) (by omega)
    have h2 := countP_drop s _ (dp _ hn _ (le_refl _))
    constructor <;> omega
  · rename_i heven
    have hn : s.length / 2 < s.length := by omega
    have hn' : s.length / 2 - 1 < s.length := by omega
    rw [get _ hn, get _ hn']
    have hm := mono _ _ hn' hn (by omega)
    have h1 := countP_take s _ (tk _ hn' ((s[s.length / 2 - 1] + s[s.length / 2]) / 2) (by linarith)) (by omega)
    have h2 := countP_drop s _ (dp _ hn ((s[s.length / 2 - 1] + s[s.length / 2]) / 2) (by linarith))
    constructor <;> omega

/-- The median of a list that is not empty is a median. -/
theorem median_spec (l : List K) (hne : l ≠ []) : ∃ m, median l = .ok m ∧ IsMedian l m := by
  refine ⟨middle (l.mergeSort fun a b => decide (a ≤ b)), by simp [median, hne], ?_⟩
  have hp := List.mergeSort_perm l (fun a b => decide (a ≤ b))
  have hs : (l.mergeSort fun a b => decide (a ≤ b)).Pairwise (· ≤ ·) := by
    have := List.pairwise_mergeSort (le := fun a b : K => decide (a ≤ b))
      (by simpa using fun a b c => le_trans) (by simpa using le_total) l
    exact this.imp (fun h => by simpa using h)
  have hne' : (l.mergeSort fun a b => decide (a ≤ b)) ≠ [] := by
    intro h; rw [h] at hp; exact hne (List.Perm.nil_eq hp).symm
  have := middle_median _ hs hne'
  unfold IsMedian at this ⊢
  rw [hp.countP_eq, hp.countP_eq, hp.length_eq] at this
  exact this

/-- The median of a constant. -/
theorem median_const (l : List K) (hne : l ≠ []) (r : K) (h : ∀ a ∈ l, a = r) : median l = .ok r := by
  obtain ⟨m, hm, h1, h2⟩ := median_spec l hne
  have hl : 0 < l.length := List.length_pos_iff.mpr hne
  have a1 : r ≤ m := by
    by_contra hc
    have : l.countP (fun a => decide (a ≤ m)) = 0 := by
      rw [List.countP_eq_zero]; intro a ha; rw [h a ha]; simpa using hc
    omega
  have a2 : m ≤ r := by
    by_contra hc
    have : l.countP (fun a => decide (m ≤ a)) = 0 := by
      rw [List.countP_eq_zero]; intro a ha; rw [h a ha]; simpa using hc
    omega
  rw [hm, le_antisymm a2 a1]

end SC.Diode
