import Verif.AlignFFT.Lemmas
/-! # C48: the translation found between one-dimensional images -/
namespace SC.AlignFFT
open SC.Ft SC.Center Finset

local notation "conj" => starRingEnd ℂ

/-- The image `g` moved by `s` pixels, around the end -/
def moved (g : List ℂ) (s : ℤ) : List ℂ := (List.range g.length).map fun (j : ℕ) => g.getD (rot g.length (-s) j) 0

/-- Pixel `j` moved to pixel `j + s`. -/
theorem moved_spec (g : List ℂ) (s : ℤ) {j : ℕ} (hj : j < g.length) : (moved g s).getD (((j : ℤ) + s) % g.length).toNat 0 = g.getD j 0 := by
  have hn : 0 < g.length := by omega
  have := rot_lt g.length hn s j
  have e1 : rot g.length (-s) (rot g.length s j) = j := by rw [rot_rot _ hn, add_neg_cancel, rot_zero _ hj]
  change (moved g s).getD (rot g.length s j) 0 = _
  unfold moved
  rw [getD_map_range _ _ _ this, e1]

/-- No translation of the image (around the end) is a multiple of the image. -/
def NoPeriod (g : List ℂ) : Prop :=
  ∀ d : ℤ, ¬ (g.length : ℤ) ∣ d → ¬ ∃ c : ℂ, ∀ j < g.length, g.getD ((((j : ℤ) + d) % g.length).toNat) 0 = c * g.getD j 0

theorem modulus_of {w : ℂ} (hw : 1 < ‖w‖) : modulus w = ‖w‖ := by
  unfold modulus
  rw [if_neg]
  have : (1 : ℝ) / 10 ^ 20 ≤ 1 := by norm_num
  linarith

theorem modulus_lt {z w : ℂ} (hw : 1 < ‖w‖) (h : ‖z‖ < ‖w‖) : modulus z < modulus w := by
  rw [modulus_of hw]
  unfold modulus
  split <;> assumption

theorem modulus_le {z w : ℂ} (hw : 1 < ‖w‖) (h : ‖z‖ ≤ ‖w‖) : modulus z ≤ modulus w := by
  rw [modulus_of hw]
  unfold modulus
  split
  · exact hw.le
  · exact h

theorem modulus_nonneg (z : ℂ) : 0 ≤ modulus z := by
  unfold modulus; split
  · norm_num
  · exact norm_nonneg z

theorem unwrap_spec (n : ℕ) (hn : 0 < n) (r : ℤ) (h : -((n : ℤ) / 2) ≤ r ∧ r ≤ ((n : ℤ) + 1) / 2 - 1) : unwrap n (rot n r 0) = r := by
  obtain ⟨q, hq⟩ := rot_cast n hn r 0
  have h1 := rot_lt n hn r 0
  unfold unwrap freqind
  simp only
  have hq' : (rot n r 0 : ℤ) = r ∨ (rot n r 0 : ℤ) = r + n := by
    rcases Int.lt_trichotomy r 0 with h | h | h
    · right
      have : rot n r 0 = (r + n).toNat := by
        unfold rot
        rw [Nat.cast_zero, zero_add]
        congr 1
        rw [← Int.add_emod_right, Int.emod_eq_of_lt (by omega) (by omega)]
      omega
    · left; unfold rot; subst h; simp
    · left
      have : rot n r 0 = r.toNat := by
        unfold rot
        rw [Nat.cast_zero, zero_add, Int.emod_eq_of_lt (by omega) (by omega)]
      omega
  rcases hq' with h' | h'
  · rw [h', if_neg (by omega)]
  · rw [h', if_pos (by omega)]; ring

/-- Every translation is equivalent to one within half the image. -/
theorem representative (n : ℕ) (hn : 0 < n) (s : ℤ) : ∃ r : ℤ, (-((n : ℤ) / 2) ≤ r ∧ r ≤ ((n : ℤ) + 1) / 2 - 1) ∧ (n : ℤ) ∣ r - s := by
  have h1 := Int.emod_nonneg s (b := (n : ℤ)) (by omega)
  have h2 := Int.emod_lt_of_pos s (b := (n : ℤ)) (by omega)
  have h3 := Int.emod_add_mul_ediv s n
  by_cases h : s % n ≤ ((n : ℤ) + 1) / 2 - 1
  · exact ⟨s % n, ⟨by omega, h⟩, ⟨-(s / n), by linarith⟩⟩
  · exact ⟨s % n - n, ⟨by omega, by omega⟩, ⟨-(s / n) - 1, by linarith⟩⟩

/-- The correlation of the moved image with the image, at any point -/
noncomputable def corr (g : List ℂ) (s : ℤ) (t : ℝ) : ℂ :=
  (g.length : ℂ)⁻¹ * ∑ k ∈ range g.length, (power g.length (fun j => g.getD j 0) k : ℂ) * e (fr g.length false k * (t - s) / g.length)

/-- The sum of the squares -/
noncomputable def energy (g : List ℂ) : ℝ := ∑ j ∈ range g.length, ‖g.getD j 0‖ ^ 2

theorem corr_le (g : List ℂ) (hg : g ≠ []) (s : ℤ) (t : ℝ) : ‖corr g s t‖ ≤ energy g := by
  have hn : 0 < g.length := List.length_pos_iff.2 hg
  unfold corr energy
  rw [← parseval g.length hn, norm_mul, norm_inv, Complex.norm_natCast]
  apply mul_le_mul_of_nonneg_left _ (by positivity)
  exact norm_sum_le' _ _ _ (fun k _ => by unfold power; positivity) (fun k _ => e_norm _)

theorem corr_self (g : List ℂ) (hg : g ≠ []) (s : ℤ) : ‖corr g s s‖ = energy g := by
  have hn : 0 < g.length := List.length_pos_iff.2 hg
  unfold corr energy
  rw [← parseval g.length hn]
  simp only [sub_self, mul_zero, zero_div, e_zero, mul_one]
  rw [← Complex.ofReal_sum, norm_mul, norm_inv, Complex.norm_natCast, Complex.norm_real, Real.norm_of_nonneg]
  exact Finset.sum_nonneg fun k _ => by unfold power; positivity

theorem corr_symm (g : List ℂ) (s : ℤ) (t : ℝ) : ‖corr g s (s - t)‖ = ‖corr g s (s + t)‖ := by
  rw [← Complex.norm_conj]
  congr 1
  unfold corr
  simp only [map_mul, map_sum, map_inv₀, Complex.conj_natCast, Complex.conj_ofReal, e_conj]
  congr 1
  apply Finset.sum_congr rfl; intro k _
  congr 2; ring

theorem corr_lt_frequency (g : List ℂ) (hg : 2 ≤ g.length) (h0 : fwd g.length false .numpy (fun j => g.getD j 0) 0 ≠ 0)
    (h1 : fwd g.length false .numpy (fun j => g.getD j 0) 1 ≠ 0) (s : ℤ) (t : ℝ) (ht : ∀ q : ℤ, t - s ≠ g.length * q) : ‖corr g s t‖ < energy g := by
  have hn : 0 < g.length := by omega
  have hn' : (g.length : ℝ) ≠ 0 := by positivity
  unfold corr energy
  rw [← parseval g.length hn, norm_mul, norm_inv, Complex.norm_natCast]
  apply mul_lt_mul_of_pos_left _ (by positivity)
  apply norm_sum_lt _ _ _ (fun k _ => by unfold power; positivity) (fun k _ => e_norm _) (k := 0) (l := 1) (Finset.mem_range.2 hn) (Finset.mem_range.2 (by omega))
  · unfold power; positivity
  · unfold power; positivity
  · have hf0 : fr g.length false 0 = 0 := by unfold fr; simp [hn]
    rw [hf0, Int.cast_zero, zero_mul, zero_div, e_zero]
    intro h
    obtain ⟨q, hq⟩ := (e_eq_one_iff _).1 h.symm
    rw [div_eq_iff hn'] at hq
    have hf1 : fr g.length false 1 = 1 ∨ fr g.length false 1 = -1 := by
      unfold fr
      simp only [Bool.false_eq_true, if_false]
      split
      · left; rfl
      · right; omega
    rcases hf1 with h' | h'
    · rw [h'] at hq
      exact ht q (by push_cast at hq; linarith)
    · rw [h'] at hq
      exact ht (-q) (by push_cast at hq ⊢; linarith)

theorem corr_eq (g : List ℂ) (hg : g ≠ []) (s : ℤ) (t : ℝ) :
    inv g.length false .numpy (fun k => fwd g.length false .numpy (fun j => g.getD (rot g.length (-s) j) 0) k * conj (fwd g.length false .numpy (fun j => g.getD j 0) k)) t = corr g s t := by
  unfold corr
  exact correlation_moved g.length (List.length_pos_iff.2 hg) (fun j => g.getD j 0) s t

theorem corr_lt_period (g : List ℂ) (hg : g ≠ []) (h : NoPeriod g) (s d : ℤ) (hd : ¬ (g.length : ℤ) ∣ d - s) : ‖corr g s d‖ < energy g := by
  have hn : 0 < g.length := List.length_pos_iff.2 hg
  rw [← corr_eq g hg]
  have := correlation g.length hn (fun j => g.getD (rot g.length (-s) j) 0) (fun j => g.getD j 0) d
  rw [this]
  apply correlation_lt
  · rw [sum_rot g.length hn d (fun j => ‖g.getD (rot g.length (-s) j) 0‖ ^ 2), sum_rot g.length hn (-s) (fun j => ‖g.getD j 0‖ ^ 2)]
  · rintro ⟨c, hc⟩
    apply h (d - s) hd
    refine ⟨c, fun j hj => ?_⟩
    have := hc j (Finset.mem_range.2 hj)
    rw [rot_rot g.length hn] at this
    exact this

/-- What is handed to `determine_shift` -/
theorem transforms (g : List ℂ) (hg : g ≠ []) (s : ℤ) :
    dft (moved g s) = some ((List.range g.length).map fun (k : ℕ) => fwd g.length false .numpy (fun j => g.getD (rot g.length (-s) j) 0) k) ∧
    dft g = some ((List.range g.length).map fun (k : ℕ) => fwd g.length false .numpy (fun j => g.getD j 0) k) := by
  have hl : (moved g s).length = g.length := by simp [moved]
  have hm : moved g s ≠ [] := by intro h; rw [h] at hl; exact hg (List.length_eq_zero_iff.1 hl.symm)
  refine ⟨?_, fft_spec g hg 1 one_ne_zero false .numpy⟩
  rw [show dft (moved g s) = dft (moved g s) 1 0 none [] false false .numpy from rfl, fft_spec _ hm 1 one_ne_zero, hl]
  congr 1
  apply List.map_congr_left
  intro k _
  apply fwd_congr
  intro j hj
  unfold moved
  rw [getD_map_range _ _ _ hj]

/-- The peak of the correlation and its neighbourhood decide. -/
theorem determine_core (g : List ℂ) (hg : g ≠ []) (henergy : 1 < energy g) (r : ℤ)
    (hr : -((g.length : ℤ) / 2) ≤ r ∧ r ≤ ((g.length : ℤ) + 1) / 2 - 1)
    (hpix : ∀ d : ℤ, ¬ (g.length : ℤ) ∣ d - r → ‖corr g r d‖ < energy g) (sampling : ℕ) (m : Method)
    (hsub : 1 < sampling → ∀ i : ℕ, i < 2 * sampling - 1 → ‖corr g r (r + ((i : ℝ) - (2 * sampling - 1 : ℕ)) / sampling)‖ < energy g) :
    determineShift sampling m ((List.range g.length).map fun (k : ℕ) => fwd g.length false .numpy (fun j => g.getD (rot g.length (-r) j) 0) k)
      ((List.range g.length).map fun (k : ℕ) => fwd g.length false .numpy (fun j => g.getD j 0) k) = some (r : ℝ) := by
  have hn : 0 < g.length := List.length_pos_iff.2 hg
  unfold determineShift
  rw [if_neg (by simp)]
  rw [List.zipWith_map_left, List.zipWith_map_right, List.zipWith_self]
  set P := (List.range g.length).map fun (k : ℕ) => fwd g.length false .numpy (fun j => g.getD (rot g.length (-r) j) 0) k * conj (fwd g.length false .numpy (fun j => g.getD j 0) k) with hP
  have hPl : P.length = g.length := by simp [hP]
  have hPne : P ≠ [] := by intro h; rw [h] at hPl; exact hg (List.length_eq_zero_iff.1 hPl.symm)
  have hinv : ∀ t, inv g.length false .numpy (fun j => P.getD j 0) t = corr g r t := by
    intro t
    rw [← corr_eq g hg]
    apply inv_congr
    intro k hk
    rw [hP, getD_map_range _ _ _ hk]
  simp only
  rw [show dft P (inverse := true) = dft P 1 0 none [] false true .numpy from rfl, ifft_spec P hPne 1 one_ne_zero, Option.bind_some]
  simp only [hPl, hinv]
  set d0 := rot g.length r 0 with hd0
  have hd0lt : d0 < g.length := rot_lt g.length hn r 0
  obtain ⟨q0, hq0⟩ := rot_cast g.length hn r 0
  rw [← hd0] at hq0
  have hself : ‖corr g r (d0 : ℤ)‖ = energy g := by
    rw [← corr_self g hg r]
    congr 1
    unfold corr
    congr 1
    apply Finset.sum_congr rfl; intro k _
    congr 1
    have hn' : (g.length : ℝ) ≠ 0 := by positivity
    apply e_congr
    refine ⟨fr g.length false k * q0, ?_⟩
    rw [hq0]; push_cast; field_simp; ring
  have hmax : fmax (((List.range g.length).map fun (x : ℕ) => corr g r x).map modulus) = some d0 := by
    rw [fmax_spec, List.map_map]
    have key : ∀ j < g.length, j ≠ d0 → modulus (corr g r (j : ℕ)) < modulus (corr g r (d0 : ℕ)) := by
      intro j hj hne
      have := hpix j (by
        rintro ⟨q, hq⟩
        have hdvd : (g.length : ℤ) ∣ (j : ℤ) - d0 := ⟨q - q0, by push_cast at hq0; linear_combination hq - hq0⟩
        have := Int.eq_zero_of_abs_lt_dvd hdvd (by rw [abs_lt]; omega)
        omega)
      have h1 : ‖corr g r (d0 : ℕ)‖ = energy g := by exact_mod_cast hself
      apply modulus_lt
      · rw [h1]; exact henergy
      · rw [h1]; exact_mod_cast this
    refine ⟨by simpa using hd0lt, ?_, ?_⟩
    · intro j hj
      simp only [List.length_map, List.length_range] at hj
      rw [getD_map_range _ _ _ hj, getD_map_range _ _ _ hd0lt]
      by_cases h : j = d0
      · rw [h]
      · exact (key j hj h).le
    · intro j hj
      rw [getD_map_range _ _ _ (by omega : j < g.length), getD_map_range _ _ _ hd0lt]
      exact key j (by omega) (by omega)
  rw [hmax, Option.bind_some]
  simp only [List.length_map, List.length_range]
  rw [hd0, unwrap_spec g.length hn r hr]
  split
  · next hs =>
    have hs' : (sampling : ℝ) ≠ 0 := by positivity
    have hk : (freqind ((4 * sampling : ℕ) : ℤ) .numpy).2 = ((2 * sampling - 1 : ℕ) : ℤ) := by unfold freqind; simp only; omega
    rw [hk]
    set K := 2 * sampling - 1 with hK
    unfold ifftInterpolate
    simp only
    set off : ℝ := ((K : ℤ) : ℝ) - r * sampling with hoff
    have hx1 : -off + ((4 * sampling : ℕ) : ℝ) - 1 + 1 - -off = ((4 * sampling : ℕ) : ℝ) := by ring
    have hsuper := ifft_super P hPne (sampling : ℝ) hs' (-off) (-off + ((4 * sampling : ℕ) : ℝ) - 1) (by
      have : (1 : ℝ) ≤ ((4 * sampling : ℕ) : ℝ) := by exact_mod_cast (by omega : 1 ≤ 4 * sampling)
      linarith) .numpy
    rw [show (fun u => dft P (x0 := -off) (x1 := some (-off + ((4 * sampling : ℕ) : ℝ) - 1)) (u := u) (inverse := true)) =
      fun u => dft P 1 (-off) (some (-off + ((4 * sampling : ℕ) : ℝ) - 1)) u false true .numpy from rfl, hsuper, Option.bind_some, hx1]
    simp only [Int.ceil_natCast, Int.toNat_natCast, hPl, hinv]
    have hpt : ∀ i : ℕ, (-off + (i : ℝ)) / sampling = r + ((i : ℝ) - (K : ℕ)) / sampling := by
      intro i; rw [hoff]; push_cast; field_simp; ring
    have hKlt : K < 4 * sampling := by omega
    have hcen : ‖corr g r ((-off + (K : ℝ)) / sampling)‖ = energy g := by
      rw [hpt, sub_self, zero_div, add_zero, corr_self g hg]
    have hfirst : IsFirstMax (((List.range (4 * sampling)).map fun (i : ℕ) => corr g r ((-off + (i : ℝ)) / sampling)).map modulus) K := by
      rw [List.map_map]
      refine ⟨by simpa using hKlt, ?_, ?_⟩
      · intro j hj
        simp only [List.length_map, List.length_range] at hj
        rw [getD_map_range _ _ _ hj, getD_map_range _ _ _ hKlt]
        apply modulus_le
        · rw [hcen]; exact henergy
        · rw [hcen]; exact corr_le g hg _ _
      · intro j hj
        rw [getD_map_range _ _ _ (by omega : j < 4 * sampling), getD_map_range _ _ _ hKlt]
        apply modulus_lt
        · rw [hcen]; exact henergy
        · beta_reduce; rw [hcen, hpt]; exact hsub hs j (by omega)
    have hcc : ccMaximum m ((List.range (4 * sampling)).map fun (i : ℕ) => corr g r ((-off + (i : ℝ)) / sampling)) = some (K : ℝ) := by
      unfold ccMaximum
      cases m
      · simp only
        rw [(fmax_spec _ _).2 hfirst, Option.map_some]
      · simp only
        apply fcentroid_symmetric _ _ K hfirst
        · rw [List.map_map, getD_map_range _ _ _ hKlt]
          have : (0 : ℝ) < modulus (corr g r ((-off + (K : ℝ)) / sampling)) := by
            rw [modulus_of (by rw [hcen]; exact henergy), hcen]; linarith
          exact this
        · intro u hu1 hu2
          simp only [List.length_map, List.length_range] at hu2
          rw [List.map_map, getD_map_range _ _ _ (by omega : K - u < 4 * sampling), getD_map_range _ _ _ hu2]
          simp only [Function.comp_apply]
          rw [hpt, hpt, Nat.cast_sub hu1]
          have h1 : (r : ℝ) + ((K : ℝ) - u - K) / sampling = r - u / sampling := by ring
          have h2 : (r : ℝ) + (((K + u : ℕ) : ℝ) - K) / sampling = r + u / sampling := by push_cast; ring
          rw [h1, h2]
          unfold modulus
          rw [corr_symm]
        · intro j hj
          simp only [List.length_map, List.length_range] at hj
          rw [List.map_map, getD_map_range _ _ _ hj]
          exact modulus_nonneg _
    rw [hcc, Option.map_some]
    congr 1
    rw [hoff]
    push_cast
    field_simp
    ring
  · rfl

theorem moved_congr (g : List ℂ) {s t : ℤ} (h : (g.length : ℤ) ∣ s - t) : moved g s = moved g t := by
  unfold moved
  apply List.map_congr_left
  intro j _
  rw [rot_congr g.length j (show (g.length : ℤ) ∣ -s - -t by rw [show -s - -t = -(s - t) by ring]; exact (Int.dvd_neg).2 h)]

/-- C48: whole-pixel search (`sampling = 1`).  The translation found is the translation of the moved
image, as a number within half the image, whenever no translation of the image is a multiple of it and
the image is not weak. -/
theorem shift_pixels (g : List ℂ) (hg : g ≠ []) (hperiod : NoPeriod g) (henergy : 1 < energy g) (s : ℤ) (sampling : ℕ) (hs : sampling ≤ 1) (m : Method) :
    ∃ F G, dft (moved g s) = some F ∧ dft g = some G ∧ ∃ r : ℤ, (-((g.length : ℤ) / 2) ≤ r ∧ r ≤ ((g.length : ℤ) + 1) / 2 - 1) ∧ (g.length : ℤ) ∣ r - s ∧
      determineShift sampling m F G = some (r : ℝ) := by
  obtain ⟨r, hr, hrs⟩ := representative g.length (List.length_pos_iff.2 hg) s
  obtain ⟨h1, h2⟩ := transforms g hg r
  rw [moved_congr g hrs] at h1
  exact ⟨_, _, h1, h2, r, hr, hrs, determine_core g hg henergy r hr (fun d hd => corr_lt_period g hg hperiod r d hd) sampling m (fun h => absurd h (by omega))⟩

/-- C48: sub-pixel search, both methods.  Exact for a moved image whose transform has the frequencies
zero and one. -/
theorem shift_subpixels (g : List ℂ) (hg : 2 ≤ g.length) (h0 : fwd g.length false .numpy (fun j => g.getD j 0) 0 ≠ 0)
    (h1 : fwd g.length false .numpy (fun j => g.getD j 0) 1 ≠ 0) (henergy : 1 < energy g) (s : ℤ) (sampling : ℕ) (m : Method) :
    ∃ F G, dft (moved g s) = some F ∧ dft g = some G ∧ ∃ r : ℤ, (-((g.length : ℤ) / 2) ≤ r ∧ r ≤ ((g.length : ℤ) + 1) / 2 - 1) ∧ (g.length : ℤ) ∣ r - s ∧
      determineShift sampling m F G = some (r : ℝ) := by
  have hg' : g ≠ [] := List.length_pos_iff.1 (by omega)
  obtain ⟨r, hr, hrs⟩ := representative g.length (by omega) s
  obtain ⟨e1, e2⟩ := transforms g hg' r
  rw [moved_congr g hrs] at e1
  refine ⟨_, _, e1, e2, r, hr, hrs, determine_core g hg' henergy r hr ?_ sampling m ?_⟩
  · intro d hd
    apply corr_lt_frequency g hg h0 h1
    intro q hq
    exact hd ⟨q, by exact_mod_cast hq⟩
  · intro hs i hi
    apply corr_lt_frequency g hg h0 h1
    intro q hq
    rw [add_sub_cancel_left] at hq
    have hs' : (0 : ℝ) < sampling := by positivity
    have hi' : (i : ℝ) < (2 * sampling - 1 : ℕ) := by exact_mod_cast hi
    have hK : ((2 * sampling - 1 : ℕ) : ℝ) = 2 * sampling - 1 := by rw [Nat.cast_sub (by omega)]; push_cast; ring
    have hneg : ((i : ℝ) - (2 * sampling - 1 : ℕ)) / sampling < 0 := div_neg_of_neg_of_pos (by linarith) hs'
    have hgt : -2 < ((i : ℝ) - (2 * sampling - 1 : ℕ)) / sampling := by
      rw [lt_div_iff₀ hs', hK]
      have : (0 : ℝ) ≤ i := by positivity
      linarith
    rw [hq] at hneg hgt
    have hg2 : (2 : ℝ) ≤ g.length := by exact_mod_cast hg
    have hq0 : (q : ℝ) < 0 := by
      by_contra hc
      rw [not_lt] at hc
      have : 0 ≤ (g.length : ℝ) * q := by positivity
      linarith
    have hq1 : q ≤ -1 := by
      have : q < 0 := by exact_mod_cast hq0
      omega
    have hq1' : (q : ℝ) ≤ -1 := by exact_mod_cast hq1
    nlinarith

end SC.AlignFFT
