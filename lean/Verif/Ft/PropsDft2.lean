import Verif.Ft.PropsDft
/-! # C32: Fourier transforms of images -/
namespace SC.Ft
open Finset

theorem kernel_eq (sgn : ℝ) (a b : List ℝ) (i j : ℕ) : kernel sgn a b i j = e (sgn * (a.getD i 0 * b.getD j 0)) := by
  unfold kernel e; congr 3; ring

theorem fwd_congr {n : ℕ} (centered : Bool) (norm : Conv) {f g : ℕ → ℂ} (k : ℕ) (h : ∀ j < n, f j = g j) : fwd n centered norm f k = fwd n centered norm g k := by
  unfold fwd
  congr 1
  exact Finset.sum_congr rfl fun j hj => by rw [h j (Finset.mem_range.1 hj)]

theorem inv_congr {n : ℕ} (centered : Bool) (norm : Conv) {f g : ℕ → ℂ} (t : ℝ) (h : ∀ j < n, f j = g j) : inv n centered norm f t = inv n centered norm g t := by
  unfold inv
  congr 1
  exact Finset.sum_congr rfl fun j hj => by rw [h j (Finset.mem_range.1 hj)]

/-- The forward transform of an image: columns, then rows -/
noncomputable def fwd2 (centered : Bool) (norm : Conv) (f : Img) : Img :=
  { ny := f.ny, nx := f.nx, v := fun i j => fwd f.nx centered norm (fun l => fwd f.ny centered norm (fun k => f.v k l) i) j }

/-- The inverse transform of an image at a point -/
noncomputable def inv2 (centered : Bool) (norm : Conv) (F : Img) (y x : ℝ) : ℂ :=
  inv F.nx centered norm (fun l => inv F.ny centered norm (fun k => F.v k l) y) x

theorem fwd2_sum (centered : Bool) (norm : Conv) (f : Img) (i j : ℕ) :
    (fwd2 centered norm f).v i j = (if norm = Conv.idl then ((f.nx : ℂ) * f.ny)⁻¹ else 1) *
      ∑ l ∈ range f.nx, (∑ k ∈ range f.ny, e (-(fr f.ny centered i * k / f.ny)) * f.v k l) * e (-(fr f.nx centered j * l / f.nx)) := by
  simp only [fwd2, fwd]
  cases norm
  · simp only [reduceCtorEq, if_false, one_mul]
    exact Finset.sum_congr rfl fun l _ => mul_comm _ _
  · simp only [if_true, mul_inv]
    rw [mul_assoc]
    congr 1
    rw [Finset.mul_sum]
    exact Finset.sum_congr rfl fun l _ => by ring

theorem inv2_sum (centered : Bool) (norm : Conv) (F : Img) (y x : ℝ) :
    inv2 centered norm F y x = (if norm = Conv.idl then 1 else ((F.nx : ℂ) * F.ny)⁻¹) *
      ∑ l ∈ range F.nx, (∑ k ∈ range F.ny, e (fr F.ny centered k * y / F.ny) * F.v k l) * e (fr F.nx centered l * x / F.nx) := by
  simp only [inv2, inv]
  cases norm
  · simp only [reduceCtorEq, if_false, mul_inv]
    rw [mul_assoc]
    congr 1
    rw [Finset.mul_sum]
    exact Finset.sum_congr rfl fun l _ => by ring
  · simp only [if_true, one_mul]
    exact Finset.sum_congr rfl fun l _ => mul_comm _ _

/-- C32: the forward transform of an image is the transform of its columns and then of its rows. -/
theorem fft2_spec (f : Img) (hy : 0 < f.ny) (hx : 0 < f.nx) (dx dy : ℝ) (hdx : dx ≠ 0) (hdy : dy ≠ 0) (centered : Bool) (norm : Conv) :
    ∃ F, dft2 f dx 0 none [] dy 0 none [] centered false norm = some F ∧ F.Same (fwd2 centered norm f) := by
  have hx' : (f.nx : ℝ) ≠ 0 := by positivity
  have hy' : (f.ny : ℝ) ≠ 0 := by positivity
  unfold dft2
  split
  · next h =>
    have hc : centered = false := h.2.2.2.2.2.2.2.2
    subst hc
    unfold npfft2
    rw [if_neg (by omega), Option.map_some]
    have key : ∀ a b : ℕ, (∑ i ∈ range f.ny, ∑ j ∈ range f.nx, Complex.exp (((-1 : ℝ) * 2 * Real.pi * (i * a / f.ny + j * b / f.nx) : ℝ) * Complex.I) * f.v i j) =
        ∑ l ∈ range f.nx, (∑ k ∈ range f.ny, e (-(fr f.ny false a * k / f.ny)) * f.v k l) * e (-(fr f.nx false b * l / f.nx)) := by
      intro a b
      rw [Finset.sum_comm]
      apply Finset.sum_congr rfl; intro l _
      rw [Finset.sum_mul]
      apply Finset.sum_congr rfl; intro k _
      have h1 := e_fr_false f.ny hy a k
      have h2 := e_fr_false f.nx hx b l
      rw [show ((k : ℤ) : ℝ) = (k : ℝ) by simp] at h1
      rw [show ((l : ℤ) : ℝ) = (l : ℝ) by simp] at h2
      rw [e_neg, e_neg, h1, h2, ← e_neg, ← e_neg]
      have h3 : Complex.exp (((-1 : ℝ) * 2 * Real.pi * (k * a / f.ny + l * b / f.nx) : ℝ) * Complex.I) = e (-(a * k / f.ny)) * e (-(b * l / f.nx)) := by
        rw [← e_add]; unfold e; congr 3; ring
      rw [h3]; ring
    refine ⟨_, rfl, ?_⟩
    cases norm
    · simp only [reduceCtorEq, if_false]
      refine ⟨rfl, rfl, fun i _ j _ => ?_⟩
      rw [fwd2_sum]
      simp only [Bool.false_eq_true, if_false, one_mul, reduceCtorEq]
      exact key i j
    · simp only [if_true, Bool.false_eq_true, if_false]
      refine ⟨rfl, rfl, fun i _ j _ => ?_⟩
      rw [fwd2_sum]
      simp only [one_mul, if_true]
      rw [key i j, div_eq_mul_inv, mul_comm, mul_comm (f.ny : ℂ)]
  · rw [realspace_default _ hx, realspace_default _ hy, fftfreq_eq, fftfreq_eq]
    simp only [List.length_nil, if_true, Option.bind_some, List.length_map, List.length_range, ne_eq, not_true_eq_false, or_self, if_false, Bool.false_eq_true, Option.map_some]
    have key : ∀ a < f.ny, ∀ b < f.nx, (∑ l ∈ range f.nx, (∑ k ∈ range f.ny,
        kernel (-1) ((List.range f.ny).map fun (k : ℕ) => (fr f.ny centered k : ℝ) / (f.ny * dy)) ((List.range f.ny).map fun (k : ℕ) => (k : ℝ) * dy) a k * f.v k l) *
        kernel (-1) ((List.range f.nx).map fun (k : ℕ) => (k : ℝ) * dx) ((List.range f.nx).map fun (k : ℕ) => (fr f.nx centered k : ℝ) / (f.nx * dx)) l b) =
        ∑ l ∈ range f.nx, (∑ k ∈ range f.ny, e (-(fr f.ny centered a * k / f.ny)) * f.v k l) * e (-(fr f.nx centered b * l / f.nx)) := by
      intro a ha b hb
      apply Finset.sum_congr rfl; intro l hl
      rw [kernel_eq, getD_map_range _ _ _ (Finset.mem_range.1 hl), getD_map_range _ _ _ hb]
      congr 1
      · apply Finset.sum_congr rfl; intro k hk
        rw [kernel_eq, getD_map_range _ _ _ (Finset.mem_range.1 hk), getD_map_range _ _ _ ha]
        congr 2; field_simp
      · congr 1; field_simp
    refine ⟨_, rfl, ?_⟩
    cases norm
    · simp only [reduceCtorEq, decide_false, Bool.xor_false, Bool.false_eq_true, if_false]
      refine ⟨rfl, rfl, fun i hi j hj => ?_⟩
      rw [fwd2_sum]
      simp only [if_false, one_mul, reduceCtorEq]
      exact key i hi j hj
    · simp only [decide_true, Bool.xor_false, if_true]
      refine ⟨rfl, rfl, fun i hi j hj => ?_⟩
      rw [fwd2_sum]
      simp only [if_true]
      rw [div_eq_mul_inv, mul_comm]
      congr 1
      exact key i hi j hj

/-- C32: the inverse transform on a region of an image. -/
theorem ifft2_region (F : Img) (hy : 0 < F.ny) (hx : 0 < F.nx) (dx dy : ℝ) (hdx : dx ≠ 0) (hdy : dy ≠ 0) (x0 x1 y0 y1 : ℝ) (hx01 : x0 ≤ x1) (hy01 : y0 ≤ y1)
    (centered : Bool) (norm : Conv) :
    ∃ f, dft2 F dx x0 (some x1) [] dy y0 (some y1) [] centered true norm = some f ∧ f.ny = ⌈y1 + 1 - y0⌉.toNat ∧ f.nx = ⌈x1 + 1 - x0⌉.toNat ∧
      ∀ i < f.ny, ∀ j < f.nx, f.v i j = inv2 centered norm F (y0 + i) (x0 + j) := by
  have hx' : (F.nx : ℝ) ≠ 0 := by positivity
  have hy' : (F.ny : ℝ) ≠ 0 := by positivity
  unfold dft2
  rw [if_neg (by simp), fftfreq_eq, fftfreq_eq]
  unfold realspace
  simp only [Option.getD_some, if_neg (not_lt.2 hx01), if_neg (not_lt.2 hy01), List.length_nil, if_true, Option.bind_some, List.length_map, List.length_range, ne_eq, not_true_eq_false, or_self, if_false, Option.map_some]
  have key : ∀ a < ⌈y1 + 1 - y0⌉.toNat, ∀ b < ⌈x1 + 1 - x0⌉.toNat, (∑ l ∈ range F.nx, (∑ k ∈ range F.ny,
      kernel 1 ((List.range ⌈y1 + 1 - y0⌉.toNat).map fun (k : ℕ) => (y0 + (k : ℝ)) * dy) ((List.range F.ny).map fun (k : ℕ) => (fr F.ny centered k : ℝ) / (F.ny * dy)) a k * F.v k l) *
      kernel 1 ((List.range F.nx).map fun (k : ℕ) => (fr F.nx centered k : ℝ) / (F.nx * dx)) ((List.range ⌈x1 + 1 - x0⌉.toNat).map fun (k : ℕ) => (x0 + (k : ℝ)) * dx) l b) =
      ∑ l ∈ range F.nx, (∑ k ∈ range F.ny, e (fr F.ny centered k * (y0 + a) / F.ny) * F.v k l) * e (fr F.nx centered l * (x0 + b) / F.nx) := by
    intro a ha b hb
    apply Finset.sum_congr rfl; intro l hl
    rw [kernel_eq, getD_map_range _ _ _ (Finset.mem_range.1 hl), getD_map_range _ _ _ hb]
    congr 1
    · apply Finset.sum_congr rfl; intro k hk
      rw [kernel_eq, getD_map_range _ _ _ (Finset.mem_range.1 hk), getD_map_range _ _ _ ha]
      congr 2; field_simp
    · congr 1; field_simp
  refine ⟨_, rfl, ?_⟩
  cases norm
  · simp only [reduceCtorEq, decide_false, Bool.false_xor, if_true]
    refine ⟨trivial, trivial, fun i hi j hj => ?_⟩
    rw [inv2_sum]
    simp only [if_false, reduceCtorEq]
    rw [div_eq_mul_inv, mul_comm]
    congr 1
    exact key i hi j hj
  · simp only [decide_true, Bool.xor_self, Bool.false_eq_true, if_false]
    refine ⟨trivial, trivial, fun i hi j hj => ?_⟩
    rw [inv2_sum]
    simp only [if_true, one_mul]
    exact key i hi j hj

/-- C32: the inverse transform of an image on a finer grid. -/
theorem ifft2_super (F : Img) (hy : 0 < F.ny) (hx : 0 < F.nx) (s : ℝ) (hs : s ≠ 0) (x0 x1 y0 y1 : ℝ) (hx01 : x0 ≤ x1) (hy01 : y0 ≤ y1) (norm : Conv) :
    ∃ u v f, fftfreq F.nx s false .numpy = some u ∧ fftfreq F.ny s false .numpy = some v ∧
      dft2 F 1 x0 (some x1) u 1 y0 (some y1) v false true norm = some f ∧ f.ny = ⌈y1 + 1 - y0⌉.toNat ∧ f.nx = ⌈x1 + 1 - x0⌉.toNat ∧
      ∀ i < f.ny, ∀ j < f.nx, f.v i j = inv2 false norm F ((y0 + i) / s) ((x0 + j) / s) := by
  have hx' : (F.nx : ℝ) ≠ 0 := by positivity
  have hy' : (F.ny : ℝ) ≠ 0 := by positivity
  have key : ∀ a < ⌈y1 + 1 - y0⌉.toNat, ∀ b < ⌈x1 + 1 - x0⌉.toNat, (∑ l ∈ range F.nx, (∑ k ∈ range F.ny,
      kernel 1 ((List.range ⌈y1 + 1 - y0⌉.toNat).map fun (k : ℕ) => (y0 + (k : ℝ)) * 1) ((List.range F.ny).map fun (k : ℕ) => (fr F.ny false k : ℝ) / (F.ny * s)) a k * F.v k l) *
      kernel 1 ((List.range F.nx).map fun (k : ℕ) => (fr F.nx false k : ℝ) / (F.nx * s)) ((List.range ⌈x1 + 1 - x0⌉.toNat).map fun (k : ℕ) => (x0 + (k : ℝ)) * 1) l b) =
      ∑ l ∈ range F.nx, (∑ k ∈ range F.ny, e (fr F.ny false k * ((y0 + a) / s) / F.ny) * F.v k l) * e (fr F.nx false l * ((x0 + b) / s) / F.nx) := by
    intro a ha b hb
    apply Finset.sum_congr rfl; intro l hl
    rw [kernel_eq, getD_map_range _ _ _ (Finset.mem_range.1 hl), getD_map_range _ _ _ hb]
    congr 1
    · apply Finset.sum_congr rfl; intro k hk
      rw [kernel_eq, getD_map_range _ _ _ (Finset.mem_range.1 hk), getD_map_range _ _ _ ha]
      congr 2; field_simp
    · congr 1; field_simp
  obtain ⟨f, hf⟩ : ∃ f, f = dft2 F 1 x0 (some x1) ((List.range F.nx).map fun k => (fr F.nx false k : ℝ) / (F.nx * s)) 1 y0 (some y1) ((List.range F.ny).map fun k => (fr F.ny false k : ℝ) / (F.ny * s)) false true norm := ⟨_, rfl⟩
  have hf0 := hf
  unfold dft2 at hf
  rw [if_neg (by simp)] at hf
  unfold realspace at hf
  simp only [Option.getD_some, if_neg (not_lt.2 hx01), if_neg (not_lt.2 hy01), if_true, if_neg hx.ne', if_neg hy.ne', Option.bind_some, List.length_map, List.length_range, ne_eq, not_true_eq_false, or_self, if_false, Option.map_some] at hf
  rw [hf] at hf0
  refine ⟨_, _, _, fftfreq_eq F.nx s false, fftfreq_eq F.ny s false, hf0.symm, ?_⟩
  cases norm
  · simp only [reduceCtorEq, decide_false, Bool.false_xor, if_true]
    refine ⟨trivial, trivial, fun i hi j hj => ?_⟩
    rw [inv2_sum]
    simp only [if_false, reduceCtorEq]
    rw [div_eq_mul_inv, mul_comm]
    congr 1
    exact key i hi j hj
  · simp only [decide_true, Bool.xor_self, Bool.false_eq_true, if_false]
    refine ⟨trivial, trivial, fun i hi j hj => ?_⟩
    rw [inv2_sum]
    simp only [if_true, one_mul]
    exact key i hi j hj

/-- C32: the inverse transform of an image. -/
theorem ifft2_spec (F : Img) (hy : 0 < F.ny) (hx : 0 < F.nx) (dx dy : ℝ) (hdx : dx ≠ 0) (hdy : dy ≠ 0) (centered : Bool) (norm : Conv) :
    ∃ f, dft2 F dx 0 none [] dy 0 none [] centered true norm = some f ∧ f.ny = F.ny ∧ f.nx = F.nx ∧
      ∀ i < f.ny, ∀ j < f.nx, f.v i j = inv2 centered norm F i j := by
  have hx' : (F.nx : ℝ) ≠ 0 := by positivity
  have hy' : (F.ny : ℝ) ≠ 0 := by positivity
  have hxc : (F.nx : ℂ) ≠ 0 := by exact_mod_cast hx.ne'
  have hyc : (F.ny : ℂ) ≠ 0 := by exact_mod_cast hy.ne'
  unfold dft2
  split
  · next h =>
    have hc : centered = false := h.2.2.2.2.2.2.2.2
    subst hc
    unfold npfft2
    rw [if_neg (by omega), Option.map_some]
    have key : ∀ a b : ℕ, (∑ i ∈ range F.ny, ∑ j ∈ range F.nx, Complex.exp (((1 : ℝ) * 2 * Real.pi * (i * a / F.ny + j * b / F.nx) : ℝ) * Complex.I) * F.v i j) =
        ∑ l ∈ range F.nx, (∑ k ∈ range F.ny, e (fr F.ny false k * (a : ℝ) / F.ny) * F.v k l) * e (fr F.nx false l * (b : ℝ) / F.nx) := by
      intro a b
      rw [Finset.sum_comm]
      apply Finset.sum_congr rfl; intro l _
      rw [Finset.sum_mul]
      apply Finset.sum_congr rfl; intro k _
      have h1 := e_fr_false F.ny hy k a
      have h2 := e_fr_false F.nx hx l b
      rw [show ((a : ℤ) : ℝ) = (a : ℝ) by simp] at h1
      rw [show ((b : ℤ) : ℝ) = (b : ℝ) by simp] at h2
      rw [h1, h2]
      have h3 : Complex.exp (((1 : ℝ) * 2 * Real.pi * (k * a / F.ny + l * b / F.nx) : ℝ) * Complex.I) = e (k * a / F.ny) * e (l * b / F.nx) := by
        rw [← e_add]; unfold e; congr 3; ring
      rw [h3]; ring
    refine ⟨_, rfl, ?_⟩
    cases norm
    · simp only [reduceCtorEq, if_false]
      refine ⟨trivial, trivial, fun i _ j _ => ?_⟩
      rw [inv2_sum]
      simp only [if_true, if_false, reduceCtorEq]
      rw [mul_comm (F.ny : ℂ)]
      congr 1
      exact key i j
    · simp only [if_true]
      refine ⟨trivial, trivial, fun i _ j _ => ?_⟩
      rw [inv2_sum]
      simp only [one_mul, if_true]
      have := key i j
      simp only [one_mul] at this
      rw [this, mul_comm, mul_inv_cancel_left₀ (mul_ne_zero hyc hxc)]
  · rw [realspace_default _ hx, realspace_default _ hy, fftfreq_eq, fftfreq_eq]
    simp only [List.length_nil, if_true, Option.bind_some, List.length_map, List.length_range, ne_eq, not_true_eq_false, or_self, if_false, Option.map_some]
    have key : ∀ a < F.ny, ∀ b < F.nx, (∑ l ∈ range F.nx, (∑ k ∈ range F.ny,
        kernel 1 ((List.range F.ny).map fun (k : ℕ) => (k : ℝ) * dy) ((List.range F.ny).map fun (k : ℕ) => (fr F.ny centered k : ℝ) / (F.ny * dy)) a k * F.v k l) *
        kernel 1 ((List.range F.nx).map fun (k : ℕ) => (fr F.nx centered k : ℝ) / (F.nx * dx)) ((List.range F.nx).map fun (k : ℕ) => (k : ℝ) * dx) l b) =
        ∑ l ∈ range F.nx, (∑ k ∈ range F.ny, e (fr F.ny centered k * (a : ℝ) / F.ny) * F.v k l) * e (fr F.nx centered l * (b : ℝ) / F.nx) := by
      intro a ha b hb
      apply Finset.sum_congr rfl; intro l hl
      rw [kernel_eq, getD_map_range _ _ _ (Finset.mem_range.1 hl), getD_map_range _ _ _ hb]
      congr 1
      · apply Finset.sum_congr rfl; intro k hk
        rw [kernel_eq, getD_map_range _ _ _ (Finset.mem_range.1 hk), getD_map_range _ _ _ ha]
        congr 2; field_simp
      · congr 1; field_simp
    refine ⟨_, rfl, ?_⟩
    cases norm
    · simp only [reduceCtorEq, decide_false, Bool.false_xor, if_true]
      refine ⟨trivial, trivial, fun i hi j hj => ?_⟩
      rw [inv2_sum]
      simp only [if_false, reduceCtorEq]
      rw [div_eq_mul_inv, mul_comm]
      congr 1
      exact key i hi j hj
    · simp only [decide_true, Bool.xor_self, Bool.false_eq_true, if_false]
      refine ⟨trivial, trivial, fun i hi j hj => ?_⟩
      rw [inv2_sum]
      simp only [if_true, one_mul]
      exact key i hi j hj

theorem inv_fwd_swap (n m : ℕ) (centered : Bool) (norm : Conv) (g : ℕ → ℕ → ℂ) (y : ℝ) (l : ℕ) :
    inv n centered norm (fun k => fwd m centered norm (fun l' => g k l') l) y = fwd m centered norm (fun l' => inv n centered norm (fun k => g k l') y) l := by
  unfold inv fwd
  simp only [Finset.mul_sum]
  rw [Finset.sum_comm]
  apply Finset.sum_congr rfl; intro j _
  apply Finset.sum_congr rfl; intro k _
  ring

theorem fwd_inv_swap (n m : ℕ) (centered : Bool) (norm : Conv) (g : ℕ → ℕ → ℂ) (i : ℕ) (x : ℝ) :
    fwd n centered norm (fun k => inv m centered norm (fun l => g k l) x) i = inv m centered norm (fun l => fwd n centered norm (fun k => g k l) i) x := by
  unfold inv fwd
  simp only [Finset.mul_sum]
  rw [Finset.sum_comm]
  apply Finset.sum_congr rfl; intro j _
  apply Finset.sum_congr rfl; intro k _
  ring

/-- C32: the transforms of images are inverse to each other. -/
theorem ifft2_fft2 (f : Img) (hy : 0 < f.ny) (hx : 0 < f.nx) (dx dy : ℝ) (hdx : dx ≠ 0) (hdy : dy ≠ 0) (centered : Bool) (norm : Conv) :
    ∃ F f', dft2 f dx 0 none [] dy 0 none [] centered false norm = some F ∧ dft2 F dx 0 none [] dy 0 none [] centered true norm = some f' ∧ f'.Same f := by
  obtain ⟨F, hF, h1, h2, h3⟩ := fft2_spec f hy hx dx dy hdx hdy centered norm
  have h1' : F.ny = f.ny := h1
  have h2' : F.nx = f.nx := h2
  obtain ⟨f', hf', g1, g2, g3⟩ := ifft2_spec F (by omega) (by omega) dx dy hdx hdy centered norm
  refine ⟨F, f', hF, hf', by omega, by omega, ?_⟩
  intro i hi j hj
  rw [g3 i hi j hj]
  unfold inv2
  rw [h1', h2']
  rw [h1', h2'] at h3
  have e1 : inv f.nx centered norm (fun l => inv f.ny centered norm (fun k => F.v k l) i) j =
      inv f.nx centered norm (fwd f.nx centered norm (fun l' => f.v i l')) j := by
    apply inv_congr
    intro l hl
    have e2 : inv f.ny centered norm (fun k => F.v k l) i =
        inv f.ny centered norm (fun k => fwd f.nx centered norm (fun l' => fwd f.ny centered norm (fun k' => f.v k' l') k) l) i :=
      inv_congr _ _ _ fun k hk => h3 k hk l hl
    rw [e2, inv_fwd_swap]
    apply fwd_congr
    intro l' _
    exact inv_fwd f.ny hy centered norm (fun k' => f.v k' l') (by omega)
  rw [e1, inv_fwd f.nx hx centered norm _ (by omega)]

theorem fft2_ifft2 (F : Img) (hy : 0 < F.ny) (hx : 0 < F.nx) (dx dy : ℝ) (hdx : dx ≠ 0) (hdy : dy ≠ 0) (centered : Bool) (norm : Conv) :
    ∃ f F', dft2 F dx 0 none [] dy 0 none [] centered true norm = some f ∧ dft2 f dx 0 none [] dy 0 none [] centered false norm = some F' ∧ F'.Same F := by
  obtain ⟨f, hf, h1, h2, h3⟩ := ifft2_spec F hy hx dx dy hdx hdy centered norm
  obtain ⟨F', hF', g1, g2, g3⟩ := fft2_spec f (by omega) (by omega) dx dy hdx hdy centered norm
  have g1' : F'.ny = f.ny := g1
  have g2' : F'.nx = f.nx := g2
  refine ⟨f, F', hf, hF', by omega, by omega, ?_⟩
  intro i hi j hj
  rw [g3 i hi j hj]
  simp only [fwd2]
  rw [h1, h2]
  rw [h1, h2] at h3
  have e1 : fwd F.nx centered norm (fun l => fwd F.ny centered norm (fun k => f.v k l) i) j =
      fwd F.nx centered norm (fun (l : ℕ) => inv F.nx centered norm (fun l' => F.v i l') l) j := by
    apply fwd_congr
    intro l hl
    have e2 : fwd F.ny centered norm (fun k => f.v k l) i =
        fwd F.ny centered norm (fun (k : ℕ) => inv F.nx centered norm (fun l' => inv F.ny centered norm (fun k' => F.v k' l') k) l) i :=
      fwd_congr _ _ _ fun k hk => h3 k hk l hl
    rw [e2, fwd_inv_swap]
    apply inv_congr
    intro l' _
    exact fwd_inv F.ny hy centered norm (fun k' => F.v k' l') (by omega)
  rw [e1, fwd_inv F.nx hx centered norm _ (by omega)]

end SC.Ft
