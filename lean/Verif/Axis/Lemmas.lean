import Verif.Axis.Model
import Mathlib.Tactic.Ring
import Mathlib.Tactic.Linarith
import Mathlib.Tactic.FieldSimp
import Mathlib.Tactic.Positivity
import Mathlib.Tactic.ByContra
import Mathlib.Algebra.Order.BigOperators.Group.List
/-! Lemmas on axes (C24). -/
namespace SC.Axis

theorem linspace_length (s e : Rat) (n : Nat) : (linspace s e n).length = n := by
  match n with
  | 0 => rfl
  | 1 => rfl
  | n + 2 => simp [linspace]

theorem linspace_get (s e : Rat) (n : Nat) (i : Nat) (hi : i < n + 2) :
    (linspace s e (n + 2)).getD i 0 = s + i * ((e - s) / ((n + 1 : Nat) : Rat)) := by
  simp only [linspace]
  by_cases h : i < n + 1
  · simp [List.getD, List.getElem?_append, h]
  · have : i = n + 1 := by omega
    subst this
    have : ((n : Rat) + 1) ≠ 0 := by positivity
    simp [List.getD, List.getElem?_append]
    field_simp
    ring

theorem ext_getD {l m : List Rat} (hl : l.length = m.length)
    (h : ∀ i, i < l.length → l.getD i 0 = m.getD i 0) : l = m := by
  apply List.ext_getElem hl
  intro i h1 h2
  have := h i h1
  simpa [List.getD, h1, h2] using this

theorem diff_length {α : Type} [Sub α] (l : List α) : (diff l).length = l.length - 1 := by
  simp [diff]

theorem diff_get (l : List Rat) (i : Nat) (hi : i + 1 < l.length) :
    (diff l).getD i 0 = l.getD (i + 1) 0 - l.getD i 0 := by
  have h1 : i < l.length := by omega
  simp [diff, List.getD, List.getElem?_zipWith, List.getElem?_tail, hi, h1]

theorem secondDiff_length (l : List Rat) : (secondDiff l).length = l.length - 2 := by
  simp only [secondDiff, List.length_map, diff_length]; omega

theorem secondDiff_get (l : List Rat) (i : Nat) (hi : i + 2 < l.length) :
    (secondDiff l).getD i 0 = |l.getD (i + 2) 0 - 2 * l.getD (i + 1) 0 + l.getD i 0| := by
  have hlen : (diff l).length = l.length - 1 := diff_length l
  have hlen2 : (diff (diff l)).length = l.length - 2 := by rw [diff_length, diff_length]; omega
  have h0 : (secondDiff l).getD i 0 = |(diff (diff l)).getD i 0| := by
    have : i < (diff (diff l)).length := by omega
    simp [secondDiff, List.getD, this]
  rw [h0, diff_get _ _ (by omega), diff_get _ _ (by omega), diff_get _ _ (by omega)]
  congr 1; ring

/-- A sequence with non-positive second differences that vanishes at both ends is non-negative. -/
theorem concave_nonneg (h : Nat → Rat) (N : Nat) (h0 : h 0 = 0) (hN : h N = 0)
    (hc : ∀ i, 0 < i → i < N → h (i + 1) - 2 * h i + h (i - 1) ≤ 0) :
    ∀ i, i ≤ N → 0 ≤ h i := by
  -- increments decrease
  have hdec : ∀ d i, i + d < N → h (i + d + 1) - h (i + d) ≤ h (i + 1) - h i := by
    intro d
    induction d with
    | zero => intro i _; exact le_refl _
    | succ d ih =>
      intro i hi
      have h1 := ih i (by omega)
      have h2 := hc (i + d + 1) (by omega) (by omega)
      have e : i + d + 1 - 1 = i + d := by omega
      rw [e] at h2
      have e2 : i + (d + 1) = i + d + 1 := by omega
      rw [e2]
      linarith
  -- if an increment at i is non-negative then h is non-negative up to i
  have hup : ∀ i, i < N → 0 ≤ h (i + 1) - h i → 0 ≤ h i := by
    intro i hi hpos
    have : ∀ j, j ≤ i → 0 ≤ h j := by
      intro j
      induction j with
      | zero => intro _; rw [h0]
      | succ j ih =>
        intro hj
        have h1 := ih (by omega)
        have h2 := hdec (i - j) j (by omega)
        have e : j + (i - j) = i := by omega
        rw [e] at h2
        linarith
    exact this i (le_refl _)
  have hdown : ∀ d i, i + d = N → (∀ j, i ≤ j → j < N → h (j + 1) - h j ≤ 0) → 0 ≤ h i := by
    intro d
    induction d with
    | zero => intro i hi _; rw [show i = N by omega, hN]
    | succ d ih =>
      intro i hi hneg
      have h1 := ih (i + 1) (by omega) (fun j hj => hneg j (by omega))
      have h2 := hneg i (le_refl _) (by omega)
      linarith
  intro i hi
  rcases Nat.lt_or_ge i N with hi2 | hi2
  · by_cases hpos : 0 ≤ h (i + 1) - h i
    · exact hup i hi2 hpos
    · refine hdown (N - i) i (by omega) ?_
      intro j hj hjN
      have := hdec (j - i) i (by omega)
      have e : i + (j - i) = j := by omega
      rw [e] at this
      simp only [not_le] at hpos
      linarith
  · rw [show i = N by omega, hN]

/-- A sequence whose second differences are at most `p` stays close to the line between its ends. -/
theorem lin_bound (f : Nat → Rat) (N : Nat) (hN : 0 < N) (p : Rat)
    (hc : ∀ i, 0 < i → i < N → |f (i + 1) - 2 * f i + f (i - 1)| ≤ p) (i : Nat) (hi : i ≤ N) :
    |f 0 + i * ((f N - f 0) / N) - f i| ≤ p * i * ((N : Rat) - i) / 2 := by
  have hN' : (N : Rat) ≠ 0 := by positivity
  have e : ∀ σ : Rat, |σ| = 1 → 0 ≤ p * i * ((N : Rat) - i) / 2 - σ * (f 0 + i * ((f N - f 0) / N) - f i) := by
    intro σ hσ
    refine concave_nonneg (fun i => p * i * ((N : Rat) - i) / 2 - σ * (f 0 + i * ((f N - f 0) / N) - f i)) N
      ?_ ?_ ?_ i hi
    · simp
    · field_simp; ring
    · intro j hj hjN
      have h1 := hc j hj hjN
      obtain ⟨k, rfl⟩ : ∃ k, j = k + 1 := ⟨j - 1, by omega⟩
      simp only [Nat.add_sub_cancel] at h1 ⊢
      have h2 : σ * (f (k + 1 + 1) - 2 * f (k + 1) + f k) ≤ p := by
        calc _ ≤ |σ * (f (k + 1 + 1) - 2 * f (k + 1) + f k)| := le_abs_self _
          _ = |f (k + 1 + 1) - 2 * f (k + 1) + f k| := by rw [abs_mul, hσ, one_mul]
          _ ≤ p := h1
      push_cast
      nlinarith
  rw [abs_le]
  have h1 := e 1 (by simp)
  have h2 := e (-1) (by simp)
  constructor <;> linarith

theorem parabola {p N i : Rat} (hp : 0 ≤ p) : p * i * (N - i) / 2 ≤ p * N ^ 2 / 8 := by
  have : 0 ≤ p * (N - 2 * i) ^ 2 := by positivity
  nlinarith

theorem seg_bound (f : Nat → Rat) (p : Rat) (hp : 0 ≤ p) (M : Nat) :
    ∀ (rest : List Nat) (a : Nat), (a :: rest).Pairwise (· < ·) →
    (a :: rest).getLastD 0 ≤ a + M →
    (∀ i, a < i → i < (a :: rest).getLastD 0 → i ∉ rest → |f (i + 1) - 2 * f i + f (i - 1)| ≤ p) →
    ∃ v s, segLoop ((a :: rest).map f) (diff ((a :: rest).map Int.ofNat)) = some (v, s) ∧
      s.length = rest.length ∧ a + v.length = (a :: rest).getLastD 0 + 1 ∧
      ∀ j, j < v.length → |v.getD j 0 - f (a + j)| ≤ p * M ^ 2 / 8 := by
  intro rest
  induction rest with
  | nil =>
    intro a _ _ _
    refine ⟨[f a], [], by simp [segLoop, diff], rfl, by simp, ?_⟩
    intro j hj
    simp only [List.length_singleton, Nat.lt_one_iff] at hj
    subst hj
    simp only [List.getD_cons_zero, Nat.add_zero, sub_self, abs_zero]
    positivity
  | cons b rest ih =>
    intro a hs hM hc
    have hab : a < b := (List.pairwise_cons.1 hs).1 b (by simp)
    have hs' := (List.pairwise_cons.1 hs).2
    have hlast : (a :: b :: rest).getLastD 0 = (b :: rest).getLastD 0 := by
      simp [List.getLastD_cons]
    have hble : b ≤ (b :: rest).getLastD 0 := by
      have hm : (b :: rest).getLastD 0 ∈ b :: rest := by
        rw [List.getLastD_eq_getLast?, List.getLast?_eq_getLast_of_ne_nil (by simp)]
        exact List.getLast_mem _
      rcases List.mem_cons.1 hm with h | h
      · omega
      · exact le_of_lt ((List.pairwise_cons.1 hs').1 _ h)
    rw [hlast] at hM hc
    obtain ⟨v, s, h1, h2, h3, h4⟩ := ih b hs' (by omega) (by
      intro i hi hi2 hn
      exact hc i (by omega) hi2 (by simp only [List.mem_cons, not_or]; exact ⟨by omega, hn⟩))
    have hd : diff ((a :: b :: rest).map Int.ofNat) =
        (Int.ofNat b - Int.ofNat a) :: diff ((b :: rest).map Int.ofNat) := by simp [diff]
    obtain ⟨N, hN⟩ : ∃ N : Nat, b = a + N := ⟨b - a, by omega⟩
    have hn0 : 0 < N := by omega
    have hnn : Int.ofNat b - Int.ofNat a = (N : Int) := by
      subst hN; simp
    refine ⟨((List.range N).map fun (j : Nat) => f a + ((f b - f a) / N) * j) ++ v, ((f b - f a) / N) :: s, ?_, ?_, ?_, ?_⟩
    · rw [hd, hnn]
      have hz : ¬ ((N : Int) = 0) := by omega
      simp only [List.map_cons] at h1 ⊢
      simp only [segLoop, hz, if_false, h1, Int.toNat_natCast, Int.cast_natCast]
    · simp [h2]
    · rw [hlast, List.length_append, List.length_map, List.length_range]; omega
    · intro j hj
      by_cases hjN : j < N
      · have hv : (((List.range N).map fun (j : Nat) => f a + ((f b - f a) / N) * j) ++ v).getD j 0 =
            f a + j * ((f b - f a) / N) := by
          simp [List.getD, List.getElem?_append, hjN, mul_comm]
        rw [hv]
        have := lin_bound (fun i => f (a + i)) N hn0 p (by
          intro i hi hiN
          have hni : a + i ∉ b :: rest := by
            intro hm
            rcases List.mem_cons.1 hm with h | h
            · omega
            · have := (List.pairwise_cons.1 hs').1 _ h; omega
          have := hc (a + i) (by omega) (by omega) hni
          have e : a + i - 1 = a + (i - 1) := by omega
          rw [e] at this
          exact this) j (by omega)
        simp only [Nat.add_zero, ← hN] at this
        have hb : p * (j : Rat) * ((N : Rat) - j) / 2 ≤ p * (N : Rat) ^ 2 / 8 := parabola hp
        have hNM : (N : Rat) ≤ M := by exact_mod_cast (by omega : N ≤ M)
        have : p * (N : Rat) ^ 2 / 8 ≤ p * (M : Rat) ^ 2 / 8 := by
          have hN0 : (0 : Rat) ≤ N := by positivity
          have : (N : Rat) ^ 2 ≤ (M : Rat) ^ 2 := by nlinarith
          nlinarith
        linarith
      · have hv : (((List.range N).map fun (j : Nat) => f a + ((f b - f a) / N) * j) ++ v).getD j 0 =
            v.getD (j - N) 0 := by
          have : N ≤ j := by omega
          simp [List.getD, List.getElem?_append, hjN]
        rw [hv]
        have := h4 (j - N) (by simp only [List.length_append, List.length_map, List.length_range] at hj; omega)
        have e : b + (j - N) = a + j := by omega
        rw [e] at this
        exact this

theorem mem_bends (p : Rat) (xs : List Rat) (i : Nat) :
    i ∈ bends p xs ↔ 0 < i ∧ i + 1 < xs.length ∧
      p < |xs.getD (i + 1) 0 - 2 * xs.getD i 0 + xs.getD (i - 1) 0| := by
  simp only [bends, List.mem_map, List.mem_filter, List.mem_range, decide_eq_true_eq, secondDiff_length]
  constructor
  · rintro ⟨k, ⟨hk, hp⟩, rfl⟩
    rw [secondDiff_get _ _ (by omega)] at hp
    exact ⟨by omega, by omega, by simpa using hp⟩
  · rintro ⟨h0, h1, h2⟩
    refine ⟨i - 1, ⟨by omega, ?_⟩, by omega⟩
    rw [secondDiff_get _ _ (by omega), show i - 1 + 2 = i + 1 by omega, show i - 1 + 1 = i by omega]
    exact h2

theorem cuts_sorted (p : Rat) (xs : List Rat) (hx : 2 ≤ xs.length) : (cuts p xs).Pairwise (· < ·) := by
  have hb : (bends p xs).Pairwise (· < ·) := by
    unfold bends
    rw [List.pairwise_map]
    exact ((List.pairwise_lt_range).filter _).imp (by intro a b h; omega)
  unfold cuts
  rw [List.append_assoc, List.singleton_append, List.pairwise_cons]
  refine ⟨?_, ?_⟩
  · intro i hi
    rcases List.mem_append.1 hi with h | h
    · exact ((mem_bends p xs i).1 h).1
    · simp at h; omega
  · rw [List.pairwise_append]
    refine ⟨hb, by simp, ?_⟩
    intro i hi j hj
    have := (mem_bends p xs i).1 hi
    simp at hj; omega

end SC.Axis
