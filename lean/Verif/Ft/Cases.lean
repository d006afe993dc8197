import Verif.Ft.PropsDft
import Verif.Ft.PropsDft2
import Mathlib.Tactic.NormNum
/-! # C32: cases -/
namespace SC.Ft

/-- Three pixels meet the hypotheses of the round trip -/
example : ((dft [1, 2 * Complex.I, 3] 2 0 none [] true false .idl).bind fun F => dft F 2 0 none [] true true .idl) = some [1, 2 * Complex.I, 3] :=
  ifft_fft _ (by simp) 2 (by norm_num) true .idl

/-- The transform of a constant is a peak at frequency zero -/
example : dft [1, 1] 1 0 none [] false false .numpy = some [2, 0] := by
  rw [fft_spec _ (by simp) 1 one_ne_zero]
  have h1 : e (-(1 / 2)) = -1 := by
    unfold e
    rw [show ((2 * Real.pi * (-(1 / 2)) : ℝ) : ℂ) * Complex.I = -((Real.pi : ℂ) * Complex.I) by push_cast; ring, Complex.exp_neg, Complex.exp_pi_mul_I]
    norm_num
  have h2 : e (1 / 2) = -1 := by
    have := e_neg (1 / 2); rw [h1] at this
    rw [← inv_inv (e (1 / 2)), ← this]; norm_num
  simp only [List.length_cons, List.length_nil, fwd, List.range_succ, List.range_zero, List.nil_append, List.map_cons, List.map_nil, Finset.sum_range_succ,
    Finset.sum_range_zero, fr, List.cons_append]
  norm_num [h2, e_zero]
  simp

/-- A two by three image meets the hypotheses of the two-dimensional round trip -/
example : ∃ F f', dft2 { ny := 2, nx := 3, v := fun i j => i + 2 * j } 1 0 none [] 3 0 none [] true false .numpy = some F ∧
    dft2 F 1 0 none [] 3 0 none [] true true .numpy = some f' ∧ f'.v 1 2 = 5 := by
  obtain ⟨F, f', h1, h2, h3, h4, h5⟩ := ifft2_fft2 { ny := 2, nx := 3, v := fun i j => i + 2 * j } (by norm_num) (by norm_num) 1 3 (by norm_num) (by norm_num) true .numpy
  refine ⟨F, f', h1, h2, ?_⟩
  simp only at h3 h4 h5
  rw [h5 1 (by omega) 2 (by omega)]
  norm_num

/-- A region that leaves the image on the left: the pixels come back from the right -/
example : ∃ region, dft [1, 2, 3] 1 (-1 : ℤ) (some (1 : ℤ)) [] false true .numpy = some region ∧ region.length = 3 := by
  obtain ⟨full, region, h1, h2, h3, h4⟩ := ifft_region_pixels [1, 2, 3] (by simp) 1 one_ne_zero (-1) 1 (by norm_num) false .numpy
  exact ⟨region, h2, by rw [h3]; rfl⟩

end SC.Ft
