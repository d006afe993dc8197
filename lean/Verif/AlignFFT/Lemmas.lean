import Verif.AlignFFT.Model
import Verif.Ft.PropsDft
import Verif.Ft.PropsDft2
import Verif.Center.Props
import Mathlib.Analysis.Complex.Convex
import Mathlib.Analysis.Convex.StrictConvexSpace
import Mathlib.Analysis.InnerProductSpace.Convex
/-! # Correlation -/
namespace SC.AlignFFT
open SC.Ft SC.Center Finset

local notation "conj" => starRingEnd ℂ

/-- Index `j` moved by `s`, around the end -/
def rot (n : ℕ) (s : ℤ) (j : ℕ) : ℕ := (((j : ℤ) + s) % n).toNat

theorem rot_lt (n : ℕ) (hn : 0 < n) (s : ℤ) (j : ℕ) : rot n s j < n := by
  unfold rot
  have h1 := Int.emod_nonneg ((j : ℤ) + s) (b := (n : ℤ)) (by omega)
  have h2 := Int.emod_lt_of_pos ((j : ℤ) + s) (b := (n : ℤ)) (by omega)
  omega

theorem rot_cast (n : ℕ) (hn : 0 < n) (s : ℤ) (j : ℕ) : ∃ q : ℤ, (rot n s j : ℤ) = j + s + n * q := by
  unfold rot
  have h1 := Int.emod_nonneg ((j : ℤ) + s) (b := (n : ℤ)) (by omega)
  refine ⟨-(((j : ℤ) + s) / n), ?_⟩
  rw [Int.toNat_of_nonneg h1]
  have := Int.emod_add_mul_ediv ((j : ℤ) + s) n
  linarith

theorem rot_congr (n : ℕ) {s t : ℤ} (j : ℕ) (h : (n : ℤ) ∣ s - t) : rot n s j = rot n t j := by
  unfold rot
  congr 1
  apply Int.ModEq.eq
  apply Int.ModEq.symm
  rw [Int.modEq_iff_dvd]
  have : (j : ℤ) + s - (j + t) = s - t := by ring
  rwa [this]

theorem rot_rot (n : ℕ) (hn : 0 < n) (s t : ℤ) (j : ℕ) : rot n t (rot n s j) = rot n (s + t) j := by
  obtain ⟨q, hq⟩ := rot_cast n hn s j
  unfold rot at *
  congr 1
  rw [hq]
  rw [show (j : ℤ) + s + n * q + t = j + (s + t) + n * q by ring, Int.add_mul_emod_self_left]

theorem rot_zero (n : ℕ) {j : ℕ} (hj : j < n) : rot n 0 j = j := by
  unfold rot
  rw [add_zero, Int.emod_eq_of_lt (by omega) (by omega)]
  simp

theorem sum_rot {M : Type} [AddCommMonoid M] (n : ℕ) (hn : 0 < n) (s : ℤ) (h : ℕ → M) : ∑ j ∈ range n, h (rot n s j) = ∑ j ∈ range n, h j := by
  apply Finset.sum_nbij' (rot n s) (rot n (-s))
  · intro j _; exact Finset.mem_range.2 (rot_lt n hn s j)
  · intro j _; exact Finset.mem_range.2 (rot_lt n hn (-s) j)
  · intro j hj; rw [rot_rot n hn, add_neg_cancel, rot_zero n (Finset.mem_range.1 hj)]
  · intro j hj; rw [rot_rot n hn, neg_add_cancel, rot_zero n (Finset.mem_range.1 hj)]
  · intro j _; rfl

/-- The transform of a moved signal -/
theorem fwd_rot (n : ℕ) (hn : 0 < n) (g : ℕ → ℂ) (s : ℤ) (k : ℕ) :
    fwd n false .numpy (fun j => g (rot n (-s) j)) k = e (-(fr n false k * s / n)) * fwd n false .numpy g k := by
  have hn' : (n : ℝ) ≠ 0 := by positivity
  unfold fwd
  simp only [reduceCtorEq, if_false, one_mul]
  rw [← sum_rot n hn s, Finset.mul_sum]
  apply Finset.sum_congr rfl
  intro j hj
  rw [rot_rot n hn, add_neg_cancel, rot_zero n (Finset.mem_range.1 hj), ← mul_assoc, ← e_add]
  congr 1
  apply e_congr
  obtain ⟨q, hq⟩ := rot_cast n hn s j
  refine ⟨-(fr n false k * q), ?_⟩
  have : (rot n s j : ℝ) = j + s + n * q := by exact_mod_cast hq
  rw [this]
  push_cast; field_simp; ring

/-- A sum of unequal phases is shorter than the sum of the lengths -/
theorem two_lt {a b : ℝ} (ha : 0 < a) (hb : 0 < b) {z w : ℂ} (hz : ‖z‖ = 1) (hw : ‖w‖ = 1) (h : z ≠ w) : ‖a * z + b * w‖ < a + b := by
  have hab : 0 < a + b := by linarith
  have := norm_combo_lt_of_ne (E := ℂ) hz.le hw.le h (div_pos ha hab) (div_pos hb hab) (by field_simp)
  have e1 : (a : ℂ) * z + b * w = (a + b : ℝ) • ((a / (a + b)) • z + (b / (a + b)) • w) := by
    rw [smul_add, smul_smul, smul_smul, mul_div_cancel₀ _ hab.ne', mul_div_cancel₀ _ hab.ne']
    simp
  rw [e1, norm_smul, Real.norm_of_nonneg hab.le]
  calc (a + b) * _ < (a + b) * 1 := mul_lt_mul_of_pos_left this hab
    _ = _ := mul_one _

theorem norm_sum_le' {ι : Type} (S : Finset ι) (a : ι → ℝ) (z : ι → ℂ) (ha : ∀ k ∈ S, 0 ≤ a k) (hz : ∀ k ∈ S, ‖z k‖ = 1) :
    ‖∑ k ∈ S, (a k : ℂ) * z k‖ ≤ ∑ k ∈ S, a k := by
  refine (norm_sum_le _ _).trans (le_of_eq ?_)
  apply Finset.sum_congr rfl
  intro k hk
  rw [norm_mul, hz k hk, mul_one, Complex.norm_real, Real.norm_of_nonneg (ha k hk)]

theorem norm_sum_lt {ι : Type} [DecidableEq ι] (S : Finset ι) (a : ι → ℝ) (z : ι → ℂ) (ha : ∀ k ∈ S, 0 ≤ a k) (hz : ∀ k ∈ S, ‖z k‖ = 1)
    {k l : ι} (hk : k ∈ S) (hl : l ∈ S) (hak : 0 < a k) (hal : 0 < a l) (hne : z k ≠ z l) :
    ‖∑ k ∈ S, (a k : ℂ) * z k‖ < ∑ k ∈ S, a k := by
  have hkl : k ≠ l := fun h => hne (by rw [h])
  have hl' : l ∈ S.erase k := Finset.mem_erase.2 ⟨hkl.symm, hl⟩
  rw [← Finset.add_sum_erase S _ hk, ← Finset.add_sum_erase (S.erase k) _ hl', ← Finset.add_sum_erase S _ hk, ← Finset.add_sum_erase (S.erase k) _ hl']
  rw [← add_assoc, ← add_assoc]
  have h1 := two_lt hak hal (hz k hk) (hz l hl) hne
  have h2 := norm_sum_le' ((S.erase k).erase l) a z (fun i hi => ha i (Finset.mem_of_mem_erase (Finset.mem_of_mem_erase hi)))
    (fun i hi => hz i (Finset.mem_of_mem_erase (Finset.mem_of_mem_erase hi)))
  exact lt_of_le_of_lt (norm_add_le _ _) (add_lt_add_of_lt_of_le h1 h2)

/-- Equality in the Cauchy-Schwarz inequality -/
theorem correlation_lt {ι : Type} (S : Finset ι) (x y : ι → ℂ) (hn : ∑ i ∈ S, ‖y i‖ ^ 2 = ∑ i ∈ S, ‖x i‖ ^ 2)
    (h : ¬ ∃ c : ℂ, ∀ i ∈ S, y i = c * x i) : ‖∑ i ∈ S, y i * conj (x i)‖ < ∑ i ∈ S, ‖x i‖ ^ 2 := by
  by_contra hcon
  rw [not_lt] at hcon
  apply h
  set A := ∑ i ∈ S, ‖x i‖ ^ 2 with hA
  set W := ∑ i ∈ S, y i * conj (x i) with hW
  have hA0 : 0 ≤ A := Finset.sum_nonneg fun i _ => by positivity
  rcases hA0.eq_or_lt with h0 | h0
  · refine ⟨0, fun i hi => ?_⟩
    rw [← h0] at hn
    have := (Finset.sum_eq_zero_iff_of_nonneg (fun i _ => by positivity)).1 hn i hi
    simpa using this
  · refine ⟨W / A, ?_⟩
    have key : ∑ i ∈ S, ‖y i - W / A * x i‖ ^ 2 = A - ‖W‖ ^ 2 / A := by
      have e1 : ∀ i, ((‖y i - W / A * x i‖ ^ 2 : ℝ) : ℂ) = (‖y i‖ ^ 2 : ℝ) - conj (W / A) * (y i * conj (x i)) - (W / A) * conj (y i * conj (x i)) + (W / A) * conj (W / A) * (‖x i‖ ^ 2 : ℝ) := by
        intro i
        push_cast
        rw [← Complex.mul_conj', ← Complex.mul_conj', ← Complex.mul_conj']
        simp only [map_sub, map_mul, Complex.conj_conj]
        ring
      have e2 : ((∑ i ∈ S, ‖y i - W / A * x i‖ ^ 2 : ℝ) : ℂ) = (A : ℂ) - conj (W / A) * W - (W / A) * conj W + (W / A) * conj (W / A) * A := by
        rw [Complex.ofReal_sum]
        simp only [e1]
        rw [Finset.sum_add_distrib, Finset.sum_sub_distrib, Finset.sum_sub_distrib, ← Finset.mul_sum, ← Finset.mul_sum, ← Finset.mul_sum, ← Complex.ofReal_sum, ← Complex.ofReal_sum, hn, ← hA, ← map_sum, ← hW]
      have hAc : (A : ℂ) ≠ 0 := by exact_mod_cast h0.ne'
      have e3 : (A : ℂ) - conj (W / A) * W - (W / A) * conj W + (W / A) * conj (W / A) * A = ((A - ‖W‖ ^ 2 / A : ℝ) : ℂ) := by
        push_cast
        rw [← Complex.mul_conj', map_div₀, Complex.conj_ofReal]
        field_simp
        ring
      rw [e3] at e2
      exact_mod_cast e2
    have hle : A - ‖W‖ ^ 2 / A ≤ 0 := by
      rw [sub_nonpos, le_div_iff₀ h0]
      nlinarith
    have hz : ∑ i ∈ S, ‖y i - W / A * x i‖ ^ 2 = 0 := le_antisymm (key ▸ hle) (Finset.sum_nonneg fun i _ => by positivity)
    intro i hi
    have := (Finset.sum_eq_zero_iff_of_nonneg (fun i _ => by positivity)).1 hz i hi
    have h2 : ‖y i - W / A * x i‖ = 0 := by simpa using this
    exact sub_eq_zero.1 (norm_eq_zero.1 h2)

/-- Cross-correlation theorem -/
theorem correlation (n : ℕ) (hn : 0 < n) (f g : ℕ → ℂ) (d : ℤ) :
    inv n false .numpy (fun k => fwd n false .numpy f k * conj (fwd n false .numpy g k)) d = ∑ j ∈ range n, f (rot n d j) * conj (g j) := by
  have h1 : ∀ k, conj (fwd n false .numpy g k) = ∑ j ∈ range n, e (fr n false k * j / n) * conj (g j) := by
    intro k
    unfold fwd
    simp only [reduceCtorEq, if_false, one_mul, map_sum, map_mul, e_conj, neg_neg]
  have h2 : ∀ j ∈ range n, f (rot n d j) = inv n false .numpy (fwd n false .numpy f) ((j + d : ℤ) : ℝ) := by
    intro j _
    rw [inv_periodic n hn]
    have := inv_fwd n hn false .numpy f (rot_lt n hn d j)
    rw [← this]
    congr 1
    unfold rot
    have h1 := Int.emod_nonneg ((j : ℤ) + d) (b := (n : ℤ)) (by omega)
    have : (((((j : ℤ) + d) % n).toNat : ℤ) : ℝ) = (((j : ℤ) + d) % n : ℤ) := by rw [Int.toNat_of_nonneg h1]
    exact_mod_cast this
  rw [Finset.sum_congr rfl fun j hj => by rw [h2 j hj]]
  unfold inv
  simp only [reduceCtorEq, if_false]
  simp only [h1, Finset.mul_sum, Finset.sum_mul]
  rw [Finset.sum_comm]
  apply Finset.sum_congr rfl; intro j _
  apply Finset.sum_congr rfl; intro k _
  have : e (fr n false k * ((j + d : ℤ) : ℝ) / n) = e (fr n false k * d / n) * e (fr n false k * j / n) := by
    rw [← e_add]; congr 1; push_cast; ring
  rw [this]
  ring

/-- The power at a frequency -/
noncomputable def power (n : ℕ) (g : ℕ → ℂ) (k : ℕ) : ℝ := ‖fwd n false .numpy g k‖ ^ 2

/-- The correlation with a moved signal, at any point -/
theorem correlation_moved (n : ℕ) (hn : 0 < n) (g : ℕ → ℂ) (s : ℤ) (t : ℝ) :
    inv n false .numpy (fun k => fwd n false .numpy (fun j => g (rot n (-s) j)) k * conj (fwd n false .numpy g k)) t =
      (n : ℂ)⁻¹ * ∑ k ∈ range n, (power n g k : ℂ) * e (fr n false k * (t - s) / n) := by
  have hn' : (n : ℝ) ≠ 0 := by positivity
  unfold inv
  simp only [reduceCtorEq, if_false]
  congr 1
  apply Finset.sum_congr rfl; intro k _
  rw [fwd_rot n hn, power, mul_assoc, Complex.mul_conj', ← mul_assoc, ← e_add, mul_comm]
  push_cast
  congr 2
  field_simp
  ring

/-- Parseval -/
theorem parseval (n : ℕ) (hn : 0 < n) (g : ℕ → ℂ) : (n : ℝ)⁻¹ * ∑ k ∈ range n, power n g k = ∑ j ∈ range n, ‖g j‖ ^ 2 := by
  have h := correlation n hn g g 0
  have h' := correlation_moved n hn g 0 0
  simp only [neg_zero, Int.cast_zero, sub_zero, mul_zero, zero_div, e_zero, mul_one] at h'
  rw [Int.cast_zero] at h
  have e1 : inv n false .numpy (fun k => fwd n false .numpy (fun j => g (rot n 0 j)) k * conj (fwd n false .numpy g k)) 0 =
      inv n false .numpy (fun k => fwd n false .numpy g k * conj (fwd n false .numpy g k)) 0 := by
    apply inv_congr; intro k _
    congr 1
    exact fwd_congr _ _ _ fun j hj => by rw [rot_zero n hj]
  rw [e1, h] at h'
  have e2 : ∑ j ∈ range n, g (rot n 0 j) * conj (g j) = ((∑ j ∈ range n, ‖g j‖ ^ 2 : ℝ) : ℂ) := by
    rw [Complex.ofReal_sum]
    apply Finset.sum_congr rfl; intro j hj
    rw [rot_zero n (Finset.mem_range.1 hj), Complex.mul_conj']
    push_cast; rfl
  rw [e2] at h'
  have h3 : ((∑ j ∈ range n, ‖g j‖ ^ 2 : ℝ) : ℂ) = (((n : ℝ)⁻¹ * ∑ k ∈ range n, power n g k : ℝ) : ℂ) := by
    rw [h']; push_cast; rfl
  exact (Complex.ofReal_injective h3).symm

end SC.AlignFFT
