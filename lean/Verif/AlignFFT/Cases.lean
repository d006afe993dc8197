import Verif.AlignFFT.Props2
import Mathlib.Tactic.IntervalCases
/-! # C48: cases and deviations -/
namespace SC.AlignFFT
open SC.Ft SC.Center Finset

local notation "conj" => starRingEnd ℂ

/-- One bright pixel has all frequencies -/
theorem fwd_pixel (n : ℕ) (hn : 0 < n) (c : ℂ) (k : ℕ) : fwd n false .numpy (fun j => if j = 0 then c else 0) k = c := by
  unfold fwd
  simp only [reduceCtorEq, if_false, one_mul]
  rw [Finset.sum_eq_single 0]
  · simp [e_zero]
  · intro j _ h; rw [if_neg h, mul_zero]
  · intro h; exact absurd (Finset.mem_range.2 hn) h

/-- A line meeting the hypotheses of `shift_subpixels`, moved by two pixels to the left -/
example : ∃ F G, dft (moved [2, 0, 0, 0, 0] (-2)) = some F ∧ dft [2, 0, 0, 0, 0] = some G ∧ determineShift 20 .centroid F G = some (-2) := by
  have hg : ∀ k, fwd 5 false .numpy (fun j => [(2 : ℂ), 0, 0, 0, 0].getD j 0) k = 2 := by
    intro k
    refine Eq.trans ?_ (fwd_pixel 5 (by norm_num) 2 k)
    apply fwd_congr
    intro j hj
    interval_cases j <;> simp
  obtain ⟨F, G, hF, hG, r, hr, ⟨q, hq⟩, h⟩ := shift_subpixels [2, 0, 0, 0, 0] (by simp) (by rw [show [(2 : ℂ), 0, 0, 0, 0].length = 5 from rfl, hg]; norm_num)
    (by rw [show [(2 : ℂ), 0, 0, 0, 0].length = 5 from rfl, hg]; norm_num)
    (by unfold energy; norm_num [Finset.sum_range_succ]) (-2) 20 .centroid
  refine ⟨F, G, hF, hG, ?_⟩
  simp only [List.length_cons, List.length_nil] at hr hq
  have : r = -2 := by omega
  rw [h, this]; norm_num

/-- A line meeting the hypotheses of `shift_pixels` -/
example : NoPeriod [2, 0, 0] ∧ 1 < energy [2, 0, 0] := by
  refine ⟨?_, by unfold energy; norm_num [Finset.sum_range_succ]⟩
  rintro d hd ⟨c, hc⟩
  simp only [List.length_cons, List.length_nil] at hd hc
  norm_num at hd hc
  have h3 := Int.emod_nonneg d (b := 3) (by norm_num)
  have h4 := Int.emod_lt_of_pos d (b := 3) (by norm_num)
  have h5 : d % 3 ≠ 0 := fun h => hd (Int.dvd_of_emod_eq_zero h)
  have : d % 3 = 1 ∨ d % 3 = 2 := by omega
  rcases this with h | h
  · have := hc 2 (by norm_num)
    rw [show (((2 : ℕ) : ℤ) + d) % 3 = 0 by push_cast; omega] at this
    simp at this
  · have := hc 1 (by norm_num)
    rw [show (((1 : ℕ) : ℤ) + d) % 3 = 0 by push_cast; omega] at this
    simp at this

/-- An image meeting the hypotheses of `align_restores`, moved by one row and minus one column -/
example : ∃ t, alignKernel 20 .centroid { ny := 4, nx := 5, v := fun i j => if j = 0 then if i = 0 then 2 else 0 else 0 }
    (moved2 { ny := 4, nx := 5, v := fun i j => if j = 0 then if i = 0 then 2 else 0 else 0 } 1 (-1)) = some t ∧ t = (-1, 1) := by
  have hg : ∀ k l, (fwd2 false .numpy { ny := 4, nx := 5, v := fun i j => if j = 0 then if i = 0 then 2 else 0 else 0 }).v k l = 2 := by
    intro k l
    simp only [fwd2]
    have : ∀ l', fwd 4 false .numpy (fun k' => if l' = 0 then if k' = 0 then (2 : ℂ) else 0 else 0) k = if l' = 0 then 2 else 0 := by
      intro l'
      split
      · exact fwd_pixel 4 (by norm_num) 2 k
      · unfold fwd; simp
    simp only [this]
    exact fwd_pixel 5 (by norm_num) 2 l
  obtain ⟨ry, rx, ⟨h1, ⟨a, ha⟩⟩, ⟨h2, ⟨b, hb⟩⟩, h⟩ := align_images { ny := 4, nx := 5, v := fun i j => if j = 0 then if i = 0 then 2 else 0 else 0 } (by norm_num) (by norm_num) (by rw [hg]; norm_num) (by rw [hg]; norm_num) (by rw [hg]; norm_num)
    (by unfold energy2; rw [Finset.sum_product]; norm_num [Finset.sum_range_succ]) 1 (-1) 20 .centroid
  refine ⟨_, h, ?_⟩
  simp only at h1 h2 ha hb
  have e1 : ry = 1 := by omega
  have e2 : rx = -1 := by omega
  rw [e1, e2]; norm_num

/-! ## Deviations -/

theorem argmax_const {c : ℝ} : ∀ {l : List ℝ}, l ≠ [] → (∀ x ∈ l, x = c) → argmax l = some 0
  | [], h, _ => absurd rfl h
  | [x], _, _ => rfl
  | x :: y :: ys, _, h => by
    have hr : argmax (y :: ys) = some 0 := argmax_const (by simp) fun z hz => h z (List.mem_cons_of_mem _ hz)
    unfold argmax
    rw [hr]
    simp only [List.getD_cons_zero]
    rw [h x (by simp), h y (by simp), if_neg (lt_irrefl c)]

/-- C48, deviation: a constant image is found to be moved by almost two pixels with respect to itself. -/
theorem constant_image_moves (n : ℕ) (hn : 0 < n) (c : ℂ) (sampling : ℕ) (hs : 1 < sampling) (m : Method) :
    ∃ F, dft (List.replicate n c) = some F ∧ determineShift sampling m F F = some (-(2 - 1 / sampling : ℝ)) := by
  have hne : List.replicate n c ≠ [] := by simp; omega
  have hs' : (sampling : ℝ) ≠ 0 := by positivity
  have hfwd : ∀ k < n, fwd n false .numpy (fun j => (List.replicate n c).getD j 0) k = if k = 0 then n * c else 0 := by
    intro k hk
    unfold fwd
    simp only [reduceCtorEq, if_false, one_mul]
    have h1 : ∑ j ∈ range n, e (-(fr n false k * j / n)) * (List.replicate n c).getD j 0 = (∑ j ∈ range n, e (((j : ℝ) + (0 : ℤ)) * (-(fr n false k) : ℤ) / n)) * c := by
      rw [Finset.sum_mul]
      apply Finset.sum_congr rfl; intro j hj
      have : (List.replicate n c).getD j 0 = c := by
        rw [List.getD_eq_getElem?_getD, List.getElem?_replicate, if_pos (Finset.mem_range.1 hj), Option.getD_some]
      rw [this]
      congr 2
      push_cast; ring
    rw [h1, ortho n hn]
    have h2 : ((n : ℤ) ∣ -(fr n false k)) ↔ k = 0 := by
      have := fr_inj n false hk hn
      have h0 : fr n false 0 = 0 := by unfold fr; simp
      rw [h0, zero_sub] at this
      exact this
    by_cases h : k = 0
    · rw [if_pos (h2.2 h), if_pos h]
    · rw [if_neg (fun hc => h (h2.1 hc)), if_neg h, zero_mul]
  have hF := fft_spec (List.replicate n c) hne 1 one_ne_zero false .numpy
  rw [List.length_replicate] at hF
  refine ⟨_, hF, ?_⟩
  unfold determineShift
  rw [if_neg (by simp), List.zipWith_self, List.map_map]
  set P := (List.range n).map ((fun a => a * conj a) ∘ fun (k : ℕ) => fwd n false .numpy (fun j => (List.replicate n c).getD j 0) k) with hP
  have hPl : P.length = n := by simp [hP]
  have hPne : P ≠ [] := by intro h; rw [h] at hPl; simp at hPl; omega
  set z : ℂ := (n : ℂ)⁻¹ * ((n * c) * conj (n * c)) with hz
  have hinv : ∀ t, inv n false .numpy (fun j => P.getD j 0) t = z := by
    intro t
    unfold inv
    simp only [reduceCtorEq, if_false]
    rw [hz]
    congr 1
    rw [Finset.sum_eq_single 0]
    · have h0 : fr n false 0 = 0 := by unfold fr; simp
      rw [h0, hP, getD_map_range _ _ _ hn, Function.comp_apply, hfwd 0 hn]
      simp [e_zero]
    · intro k hk h
      rw [hP, getD_map_range _ _ _ (Finset.mem_range.1 hk), Function.comp_apply, hfwd k (Finset.mem_range.1 hk), if_neg h]
      simp
    · intro h; exact absurd (Finset.mem_range.2 hn) h
  simp only
  rw [show dft P (inverse := true) = dft P 1 0 none [] false true .numpy from rfl, ifft_spec P hPne 1 one_ne_zero, Option.bind_some]
  simp only [hPl, hinv]
  have hmax : fmax (((List.range n).map fun (_ : ℕ) => z).map modulus) = some 0 := by
    apply argmax_const (c := modulus z)
    · simp; omega
    · intro x hx; simp at hx; exact hx.2
  rw [hmax, Option.bind_some]
  simp only [List.length_map, List.length_range]
  have hu : unwrap n 0 = 0 := by unfold unwrap freqind; simp only; rw [if_neg (by omega)]; rfl
  rw [hu, if_pos hs]
  have hk : (freqind ((4 * sampling : ℕ) : ℤ) .numpy).2 = ((2 * sampling - 1 : ℕ) : ℤ) := by unfold freqind; simp only; omega
  rw [hk]
  unfold ifftInterpolate
  simp only
  set off : ℝ := (((2 * sampling - 1 : ℕ) : ℤ) : ℝ) - ((0 : ℤ) : ℝ) * sampling with hoff
  have hsuper := ifft_super P hPne (sampling : ℝ) hs' (-off) (-off + ((4 * sampling : ℕ) : ℝ) - 1) (by
    have : (1 : ℝ) ≤ ((4 * sampling : ℕ) : ℝ) := by exact_mod_cast (by omega : 1 ≤ 4 * sampling)
    linarith) .numpy
  rw [show (fun u => dft P (x0 := -off) (x1 := some (-off + ((4 * sampling : ℕ) : ℝ) - 1)) (u := u) (inverse := true)) =
    fun u => dft P 1 (-off) (some (-off + ((4 * sampling : ℕ) : ℝ) - 1)) u false true .numpy from rfl, hsuper, Option.bind_some,
    show -off + ((4 * sampling : ℕ) : ℝ) - 1 + 1 - -off = ((4 * sampling : ℕ) : ℝ) by ring]
  simp only [Int.ceil_natCast, Int.toNat_natCast, hPl, hinv]
  have hmax2 : argmax (((List.range (4 * sampling)).map fun (_ : ℕ) => z).map modulus) = some 0 := by
    apply argmax_const (c := modulus z)
    · simp; omega
    · intro x hx; simp at hx; exact hx.2
  have hcc : ccMaximum m ((List.range (4 * sampling)).map fun (_ : ℕ) => z) = some 0 := by
    unfold ccMaximum
    cases m
    · simp only
      rw [fmax, hmax2]; simp
    · simp only
      unfold fcentroid foptimize fmax
      rw [hmax2, Option.map_some]
      simp only
      rw [if_pos]
      · simp
      · simp only [List.length_map, List.length_range]
        obtain ⟨k, hk⟩ : ∃ k, 4 * sampling = k + 1 := ⟨4 * sampling - 1, by omega⟩
        rw [hk]
        unfold grow
        split
        · rw [if_pos (by omega)]
        · rfl
  rw [hcc, Option.map_some, hoff, Nat.cast_sub (by omega) |> congrArg (Int.cast (R := ℝ))]
  congr 1
  push_cast
  field_simp
  ring

/-- C48, deviation: where the correlation of a weak image vanishes it is replaced by one, more than its
peak: the image is found to be moved by one pixel with respect to itself. -/
theorem weak_image_moves : ∃ F, dft [1 / 10, 0, 0, 0] = some F ∧ determineShift 1 .max F F = some 1 := by
  have hne : [(1 : ℂ) / 10, 0, 0, 0] ≠ [] := by simp
  obtain ⟨h1, h2⟩ := transforms [1 / 10, 0, 0, 0] hne 0
  refine ⟨_, h2, ?_⟩
  unfold determineShift
  rw [if_neg (by simp), List.zipWith_self, List.map_map]
  simp only [List.length_cons, List.length_nil, zero_add, Nat.reduceAdd]
  set P := (List.range 4).map ((fun a => a * conj a) ∘ fun (k : ℕ) => fwd 4 false .numpy (fun j => [(1 : ℂ) / 10, 0, 0, 0].getD j 0) k) with hP
  have hPl : P.length = 4 := by simp [hP]
  have hPne : P ≠ [] := by intro h; rw [h] at hPl; simp at hPl
  rw [show dft P (inverse := true) = dft P 1 0 none [] false true .numpy from rfl, ifft_spec P hPne 1 one_ne_zero, Option.bind_some]
  have hinv : ∀ x : ℕ, inv 4 false .numpy (fun j => P.getD j 0) x = ∑ j ∈ range 4, [(1 : ℂ) / 10, 0, 0, 0].getD (rot 4 x j) 0 * conj ([(1 : ℂ) / 10, 0, 0, 0].getD j 0) := by
    intro x
    have := correlation 4 (by norm_num) (fun j => [(1 : ℂ) / 10, 0, 0, 0].getD j 0) (fun j => [(1 : ℂ) / 10, 0, 0, 0].getD j 0) x
    rw [← this, Int.cast_natCast]
    apply inv_congr
    intro k hk
    rw [hP, getD_map_range _ _ _ hk, Function.comp_apply]
  have hc : ∀ x : ℕ, x < 4 → inv 4 false .numpy (fun j => P.getD j 0) x = if x = 0 then 1 / 100 else 0 := by
    intro x hx
    rw [hinv]
    simp only [Finset.sum_range_succ, Finset.sum_range_zero]
    have h10 : conj (10 : ℂ) = 10 := Complex.conj_ofReal 10
    interval_cases x <;> simp [rot, h10] <;> norm_num
  simp only [hPl]
  have hl : ((List.range 4).map fun (x : ℕ) => inv 4 false .numpy (fun j => P.getD j 0) x) = [1 / 100, 0, 0, 0] := by
    simp only [List.range_succ, List.range_zero, List.nil_append, List.cons_append, List.map_cons, List.map_nil]
    rw [hc 0 (by norm_num), hc 1 (by norm_num), hc 2 (by norm_num), hc 3 (by norm_num)]
    simp
  rw [hl]
  have hm0 : modulus 0 = 1 := by unfold modulus; rw [if_pos (by simp)]
  have hm1 : modulus (1 / 100) = 1 / 100 := by
    have : ‖(1 / 100 : ℂ)‖ = 1 / 100 := by rw [norm_div, norm_one]; norm_num
    unfold modulus; rw [this, if_neg (by norm_num)]
  simp only [List.map_cons, List.map_nil, hm0, hm1]
  have : fmax [(1 : ℝ) / 100, 1, 1, 1] = some 1 := by
    rw [fmax_spec]
    refine ⟨by simp, ?_, ?_⟩
    · intro j hj
      simp only [List.length_cons, List.length_nil] at hj
      interval_cases j <;> norm_num
    · intro j hj
      interval_cases j; norm_num
  rw [this, Option.bind_some]
  simp only [List.length_cons, List.length_nil]
  rw [if_neg (by norm_num)]
  unfold unwrap freqind
  norm_num

end SC.AlignFFT
