import Verif.Ft.Props
import Mathlib.Analysis.SpecialFunctions.Complex.Log
import Mathlib.Algebra.Field.GeomSum
import Mathlib.Tactic.FieldSimp
/-! # Helper lemmas about discrete Fourier transforms -/
namespace SC.Ft
open Finset

/-- `exp(2 π i t)` -/
noncomputable def e (t : ℝ) : ℂ := Complex.exp ((2 * Real.pi * t : ℝ) * Complex.I)

theorem e_add (s t : ℝ) : e (s + t) = e s * e t := by
  unfold e; rw [← Complex.exp_add]; congr 1; push_cast; ring

theorem e_zero : e 0 = 1 := by simp [e]

theorem e_int (m : ℤ) : e m = 1 := by
  unfold e
  rw [Complex.exp_eq_one_iff]
  exact ⟨m, by push_cast; ring⟩

theorem e_neg (t : ℝ) : e (-t) = (e t)⁻¹ := by
  rw [eq_comm, inv_eq_of_mul_eq_one_left]
  rw [← e_add]; simp [e_zero]

theorem e_ne_zero (t : ℝ) : e t ≠ 0 := Complex.exp_ne_zero _

theorem e_eq_one_iff (t : ℝ) : e t = 1 ↔ ∃ m : ℤ, t = m := by
  unfold e
  rw [Complex.exp_eq_one_iff]
  constructor
  · rintro ⟨m, hm⟩
    refine ⟨m, ?_⟩
    have h : ((2 * Real.pi * t : ℝ) : ℂ) * Complex.I = ((2 * Real.pi * m : ℝ) : ℂ) * Complex.I := by
      rw [hm]; push_cast; ring
    have h2 := Complex.ofReal_injective (mul_right_cancel₀ Complex.I_ne_zero h)
    have hp : (2 * Real.pi) ≠ 0 := by positivity
    exact mul_left_cancel₀ hp h2
  · rintro ⟨m, hm⟩; exact ⟨m, by rw [hm]; push_cast; ring⟩

theorem e_norm (t : ℝ) : ‖e t‖ = 1 := Complex.norm_exp_ofReal_mul_I _

theorem e_conj (t : ℝ) : (starRingEnd ℂ) (e t) = e (-t) := by
  unfold e
  rw [← Complex.exp_conj, map_mul, Complex.conj_ofReal, Complex.conj_I]
  congr 1; push_cast; ring

theorem e_pow (t : ℝ) : ∀ k : ℕ, e (k * t) = e t ^ k
  | 0 => by simp [e_zero]
  | k + 1 => by rw [pow_succ, ← e_pow t k, ← e_add]; congr 1; push_cast; ring

/-- Equal up to whole turns -/
theorem e_congr {s t : ℝ} (h : ∃ m : ℤ, s = t + m) : e s = e t := by
  obtain ⟨m, rfl⟩ := h; rw [e_add, e_int, mul_one]

/-- Orthogonality -/
theorem ortho (n : ℕ) (hn : 0 < n) (c m : ℤ) :
    ∑ k ∈ range n, e (((k : ℝ) + c) * m / n) = if (n : ℤ) ∣ m then (n : ℂ) else 0 := by
  have hn' : (n : ℝ) ≠ 0 := by positivity
  have h1 : ∀ k : ℕ, e (((k : ℝ) + c) * m / n) = e (c * m / n) * e (m / n) ^ k := by
    intro k
    rw [← e_pow, ← e_add]; congr 1; field_simp; ring
  simp only [h1]
  rw [← Finset.mul_sum]
  split
  · next h =>
    obtain ⟨q, rfl⟩ := h
    have e1 : e (((n : ℤ) * q : ℤ) / n) = 1 := by
      have : (((n : ℤ) * q : ℤ) : ℝ) / n = (q : ℤ) := by push_cast; field_simp
      rw [this, e_int]
    have e2 : e (c * ((n : ℤ) * q : ℤ) / n) = 1 := by
      have : (c : ℝ) * (((n : ℤ) * q : ℤ) : ℝ) / n = ((c * q : ℤ) : ℝ) := by push_cast; field_simp
      rw [this, e_int]
    rw [e1, e2]; simp
  · next h =>
    have hz : e ((m : ℝ) / n) ≠ 1 := by
      rw [Ne, e_eq_one_iff]
      rintro ⟨q, hq⟩
      apply h
      refine ⟨q, ?_⟩
      have : (m : ℝ) = n * q := by field_simp at hq; linarith
      exact_mod_cast this
    have hzn : e ((m : ℝ) / n) ^ n = 1 := by
      rw [← e_pow, mul_div_cancel₀ _ hn', e_int]
    rw [geom_sum_eq hz, hzn]; simp

/-- The frequency at an index -/
def fr (n : ℕ) (centered : Bool) (k : ℕ) : ℤ :=
  if centered then -((n : ℤ) / 2) + k else if 2 * k < n then k else (k : ℤ) - n

theorem freqs_eq (n : ℕ) (centered : Bool) : freqs n centered .numpy = some ((List.range n).map (fr n centered)) := by
  cases centered
  · obtain ⟨l, hl, hlen, hs⟩ := freqs_spec n .numpy
    rw [hl]
    congr 1
    apply List.ext_getElem?
    intro k
    by_cases hk : k < n
    · rw [List.getElem?_map, List.getElem?_range hk, Option.map_some]
      refine (hs k _).2 ⟨hk, ?_, ?_⟩
      · unfold fr
        simp only [Bool.false_eq_true, if_false]
        split
        · exact Int.emod_eq_of_lt (by omega) (by omega)
        · rw [Int.sub_emod_right]; exact Int.emod_eq_of_lt (by omega) (by omega)
      · unfold fr InRange
        simp only [Bool.false_eq_true, if_false]
        split <;> omega
    · rw [List.getElem?_eq_none (by omega), List.getElem?_eq_none (by simp; omega)]
  · rw [freqs_true]
    congr 1
    unfold arange
    have := freqind_sum n .numpy
    have h2 : ((freqind n .numpy).2 + 1 - (freqind n .numpy).1).toNat = n := by omega
    rw [h2]
    apply List.map_congr_left
    intro k _
    simp [fr, freqind]

theorem fr_mod (n : ℕ) (centered : Bool) : ∃ c : ℤ, ∀ k : ℕ, ∃ q : ℤ, fr n centered k = k + c + n * q := by
  cases centered
  · refine ⟨0, fun k => ?_⟩
    unfold fr
    simp only [Bool.false_eq_true, if_false]
    split
    · exact ⟨0, by simp⟩
    · exact ⟨-1, by ring⟩
  · exact ⟨-((n : ℤ) / 2), fun k => ⟨0, by simp [fr]; ring⟩⟩

/-- Orthogonality over the frequencies -/
theorem ortho_fr (n : ℕ) (hn : 0 < n) (centered : Bool) (m : ℤ) :
    ∑ k ∈ range n, e ((fr n centered k : ℝ) * m / n) = if (n : ℤ) ∣ m then (n : ℂ) else 0 := by
  obtain ⟨c, hc⟩ := fr_mod n centered
  rw [← ortho n hn c m]
  apply Finset.sum_congr rfl
  intro k _
  obtain ⟨q, hq⟩ := hc k
  have hn' : (n : ℝ) ≠ 0 := by positivity
  apply e_congr
  refine ⟨q * m, ?_⟩
  rw [hq]; push_cast; field_simp

theorem fr_inj (n : ℕ) (centered : Bool) {k l : ℕ} (hk : k < n) (hl : l < n) : (n : ℤ) ∣ fr n centered l - fr n centered k ↔ k = l := by
  obtain ⟨c, hc⟩ := fr_mod n centered
  obtain ⟨q, hq⟩ := hc k
  obtain ⟨q', hq'⟩ := hc l
  rw [hq, hq']
  constructor
  · rintro ⟨z, hz⟩
    have : (l : ℤ) - k = n * (z + q - q') := by linear_combination hz
    have h1 : (n : ℤ) ∣ (l : ℤ) - k := ⟨_, this⟩
    have := Int.eq_zero_of_abs_lt_dvd h1 (by rw [abs_lt]; omega)
    omega
  · rintro rfl; exact ⟨q' - q, by ring⟩

theorem fftfreq_eq (n : ℕ) (d : ℝ) (centered : Bool) :
    fftfreq n d centered .numpy = some ((List.range n).map fun k => (fr n centered k : ℝ) / (n * d)) := by
  rw [fftfreq, freqs_eq, Option.map_some, List.map_map]; rfl

theorem getD_map_range {α : Type} (n : ℕ) (f : ℕ → α) (d : α) {k : ℕ} (h : k < n) : ((List.range n).map f).getD k d = f k := by
  simp [List.getD_eq_getElem?_getD, h]

theorem realspace_default (n : ℕ) (hn : 0 < n) (dx : ℝ) : realspace n dx 0 none = some ((List.range n).map fun (k : ℕ) => (k : ℝ) * dx) := by
  unfold realspace
  have h1 : ¬ ((n : ℝ) - 1 < 0) := by
    have : (1 : ℝ) ≤ n := by exact_mod_cast hn
    linarith
  simp only [Option.getD_none, if_neg h1]
  have h2 : (n : ℝ) - 1 + 1 - 0 = n := by ring
  rw [h2]
  simp only [zero_add, Int.ceil_natCast, Int.toNat_natCast]

/-- What the forward transform computes -/
noncomputable def fwd (n : ℕ) (centered : Bool) (norm : Conv) (f : ℕ → ℂ) (k : ℕ) : ℂ :=
  (if norm = Conv.idl then (n : ℂ)⁻¹ else 1) * ∑ j ∈ range n, e (-(fr n centered k * j / n)) * f j

/-- What the inverse transform computes, at any point of real space -/
noncomputable def inv (n : ℕ) (centered : Bool) (norm : Conv) (F : ℕ → ℂ) (t : ℝ) : ℂ :=
  (if norm = Conv.idl then 1 else (n : ℂ)⁻¹) * ∑ k ∈ range n, e (fr n centered k * t / n) * F k

theorem inv_fwd (n : ℕ) (hn : 0 < n) (centered : Bool) (norm : Conv) (f : ℕ → ℂ) {x : ℕ} (hx : x < n) :
    inv n centered norm (fwd n centered norm f) x = f x := by
  have hn' : (n : ℂ) ≠ 0 := by exact_mod_cast hn.ne'
  unfold inv fwd
  have h1 : ∑ k ∈ range n, e (fr n centered k * x / n) * ((if norm = Conv.idl then (n : ℂ)⁻¹ else 1) * ∑ j ∈ range n, e (-(fr n centered k * j / n)) * f j) =
      (if norm = Conv.idl then (n : ℂ)⁻¹ else 1) * ∑ j ∈ range n, (∑ k ∈ range n, e ((fr n centered k : ℝ) * ((x : ℤ) - (j : ℤ) : ℤ) / n)) * f j := by
    rw [Finset.mul_sum]
    simp only [Finset.sum_mul, Finset.mul_sum]
    rw [Finset.sum_comm]
    apply Finset.sum_congr rfl; intro j _
    apply Finset.sum_congr rfl; intro k _
    have : e ((fr n centered k : ℝ) * ((x : ℤ) - (j : ℤ) : ℤ) / n) = e (fr n centered k * x / n) * e (-(fr n centered k * j / n)) := by
      rw [← e_add]; congr 1; push_cast; ring
    rw [this]; ring
  rw [h1]
  simp only [ortho_fr n hn]
  rw [Finset.sum_eq_single x]
  · rw [sub_self, if_pos (dvd_zero _)]
    split <;> field_simp
  · intro j hj hjx
    rw [if_neg, zero_mul]
    intro h
    have := Int.eq_zero_of_abs_lt_dvd h (by rw [abs_lt]; have := Finset.mem_range.1 hj; omega)
    omega
  · intro h; exact absurd (Finset.mem_range.2 hx) h

theorem fwd_inv (n : ℕ) (hn : 0 < n) (centered : Bool) (norm : Conv) (F : ℕ → ℂ) {k : ℕ} (hk : k < n) :
    fwd n centered norm (fun x => inv n centered norm F x) k = F k := by
  have hn' : (n : ℂ) ≠ 0 := by exact_mod_cast hn.ne'
  unfold inv fwd
  have h1 : ∑ j ∈ range n, e (-(fr n centered k * j / n)) * ((if norm = Conv.idl then 1 else (n : ℂ)⁻¹) * ∑ l ∈ range n, e (fr n centered l * (j : ℝ) / n) * F l) =
      (if norm = Conv.idl then 1 else (n : ℂ)⁻¹) * ∑ l ∈ range n, (∑ j ∈ range n, e (((j : ℝ) + (0 : ℤ)) * (fr n centered l - fr n centered k : ℤ) / n)) * F l := by
    rw [Finset.mul_sum]
    simp only [Finset.sum_mul, Finset.mul_sum]
    rw [Finset.sum_comm]
    apply Finset.sum_congr rfl; intro l _
    apply Finset.sum_congr rfl; intro j _
    have : e (((j : ℝ) + (0 : ℤ)) * (fr n centered l - fr n centered k : ℤ) / n) = e (-(fr n centered k * j / n)) * e (fr n centered l * (j : ℝ) / n) := by
      rw [← e_add]; congr 1; push_cast; ring
    rw [this]; ring
  rw [h1]
  simp only [ortho n hn]
  rw [Finset.sum_eq_single k]
  · rw [sub_self, if_pos (dvd_zero _)]
    split <;> field_simp
  · intro l hl hlk
    rw [if_neg, zero_mul]
    rw [fr_inj n centered hk (Finset.mem_range.1 hl)]
    exact fun h => hlk h.symm
  · intro h; exact absurd (Finset.mem_range.2 hk) h

/-- Only the residue of the frequency matters on the grid -/
theorem e_fr_false (n : ℕ) (hn : 0 < n) (k : ℕ) (m : ℤ) : e ((fr n false k : ℝ) * m / n) = e ((k : ℝ) * m / n) := by
  have hn' : (n : ℝ) ≠ 0 := by positivity
  apply e_congr
  unfold fr
  simp only [Bool.false_eq_true, if_false]
  split
  · exact ⟨0, by simp⟩
  · refine ⟨-m, ?_⟩
    push_cast; field_simp; ring

/-- On the grid the inverse transform is periodic. -/
theorem inv_periodic (n : ℕ) (hn : 0 < n) (centered : Bool) (norm : Conv) (F : ℕ → ℂ) (m : ℤ) :
    inv n centered norm F m = inv n centered norm F (m % (n : ℤ) : ℤ) := by
  unfold inv
  congr 1
  apply Finset.sum_congr rfl
  intro k _
  congr 1
  have hn' : (n : ℝ) ≠ 0 := by positivity
  apply e_congr
  refine ⟨fr n centered k * (m / (n : ℤ)), ?_⟩
  have : (m : ℝ) = (m % (n : ℤ) : ℤ) + n * (m / (n : ℤ) : ℤ) := by
    have h := Int.emod_add_mul_ediv m (n : ℤ)
    exact_mod_cast h.symm
  conv_lhs => rw [this]
  push_cast; field_simp

end SC.Ft
