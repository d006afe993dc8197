import Verif.Ft.DftLemmas
/-! # C32: Fourier transforms -/
namespace SC.Ft
open Finset

theorem kernelDot_eq (sgn : ℝ) (a b : List ℝ) (f : List ℂ) :
    kernelDot sgn a b f = a.map fun s => ∑ j ∈ range b.length, e (sgn * (s * b.getD j 0)) * f.getD j 0 := by
  unfold kernelDot e
  apply List.map_congr_left
  intro s _
  apply Finset.sum_congr rfl
  intro j _
  congr 4; ring

theorem mul_comm_div (n : ℕ) (z : ℂ) : z / (n : ℂ) = (n : ℂ)⁻¹ * z := by rw [div_eq_mul_inv, mul_comm]

/-- C32: the forward transform, with any pixel size: the definition of the Fourier transform at each of
the frequencies, in the order asked for. -/
theorem fft_spec (f : List ℂ) (hf : f ≠ []) (dx : ℝ) (hdx : dx ≠ 0) (centered : Bool) (norm : Conv) :
    dft f dx 0 none [] centered false norm =
      some ((List.range f.length).map fun (k : ℕ) => fwd f.length centered norm (fun j => f.getD j 0) k) := by
  have hn : 0 < f.length := List.length_pos_iff.2 hf
  have hn' : (f.length : ℝ) ≠ 0 := by positivity
  unfold dft
  split
  · next h =>
    have hc : centered = false := h.2.2.2.2
    subst hc
    unfold npfft
    rw [if_neg hn.ne', Option.map_some]
    congr 1
    have key : ∀ k : ℕ, (∑ j ∈ range f.length, Complex.exp (((if (false : Bool) = true then 1 else -1) * 2 * Real.pi * (j * k / f.length) : ℝ) * Complex.I) * f.getD j 0) =
        ∑ j ∈ range f.length, e (-(fr f.length false k * j / f.length)) * f.getD j 0 := by
      intro k
      apply Finset.sum_congr rfl
      intro j _
      congr 1
      rw [e_neg]
      have h1 := e_fr_false f.length hn k j
      rw [show ((j : ℤ) : ℝ) = (j : ℝ) by simp] at h1
      rw [h1, ← e_neg]
      unfold e
      congr 2; push_cast; simp; ring
    simp only [Bool.false_eq_true, if_false, one_mul] at key ⊢
    simp only [key]
    unfold fwd
    split
    · next hi => simp only [hi, if_true, List.map_map]; apply List.map_congr_left; intro k _; simp only [Function.comp_apply]; exact mul_comm_div _ _
    · next hi => simp only [hi, if_false, one_mul]
  · rw [realspace_default _ hn, fftfreq_eq]
    simp only [List.length_nil, if_true, Option.bind_some, List.length_map, List.length_range, ne_eq, not_true_eq_false, if_false, Bool.false_eq_true, Option.map_some]
    congr 1
    rw [kernelDot_eq]
    simp only [List.length_map, List.length_range, List.map_map, Bool.xor_false]
    have key : ∀ k : ℕ, (∑ j ∈ range f.length, e (-1 * ((fr f.length centered k : ℝ) / (f.length * dx) * ((List.range f.length).map fun (k : ℕ) => (k : ℝ) * dx).getD j 0)) * f.getD j 0) =
        ∑ j ∈ range f.length, e (-(fr f.length centered k * j / f.length)) * f.getD j 0 := by
      intro k
      apply Finset.sum_congr rfl
      intro j hj
      rw [getD_map_range _ _ _ (Finset.mem_range.1 hj)]
      congr 2
      field_simp
    unfold fwd
    cases norm
    · simp only [reduceCtorEq, decide_false, if_false, Bool.false_eq_true, one_mul]
      apply List.map_congr_left; intro k _
      simp only [Function.comp_apply]
      exact key k
    · simp only [decide_true, if_true, List.map_map]
      apply List.map_congr_left; intro k _
      simp only [Function.comp_apply]
      rw [mul_comm_div]
      congr 1
      exact key k

theorem inv_norm (n : ℕ) (norm : Conv) (z : ℂ) : (if xor (decide (norm = Conv.idl)) true = true then z / (n : ℂ) else z) = (if norm = Conv.idl then 1 else (n : ℂ)⁻¹) * z := by
  cases norm
  · simp [mul_comm_div]
  · simp

theorem map_ite2 {α β γ : Type} (p : Prop) [Decidable p] (l : List α) (q : α → γ) (f : γ → β) (g : α → β) (h : β → β) (h' : ∀ x, (if p then h (f (q x)) else f (q x)) = g x) :
    (if p then ((l.map q).map f).map h else (l.map q).map f) = l.map g := by
  split
  · next hp => rw [List.map_map, List.map_map]; apply List.map_congr_left; intro x _; have := h' x; rw [if_pos hp] at this; exact this
  · next hp => rw [List.map_map]; apply List.map_congr_left; intro x _; have := h' x; rw [if_neg hp] at this; exact this

theorem map_ite {α β : Type} (p : Prop) [Decidable p] (l : List α) (f g : α → β) (h : β → β) (h' : ∀ x, (if p then h (f x) else f x) = g x) :
    (if p then (l.map f).map h else l.map f) = l.map g := by
  split
  · next hp => rw [List.map_map]; apply List.map_congr_left; intro x _; have := h' x; rw [if_pos hp] at this; exact this
  · next hp => apply List.map_congr_left; intro x _; have := h' x; rw [if_neg hp] at this; exact this

/-- C32: the inverse transform on a region of real space with any pixel size: exactly these points of
the inverse transform. -/
theorem ifft_region (F : List ℂ) (hF : F ≠ []) (dx : ℝ) (hdx : dx ≠ 0) (x0 x1 : ℝ) (hx : x0 ≤ x1) (centered : Bool) (norm : Conv) :
    dft F dx x0 (some x1) [] centered true norm =
      some ((List.range ⌈x1 + 1 - x0⌉.toNat).map fun (i : ℕ) => inv F.length centered norm (fun j => F.getD j 0) (x0 + i)) := by
  have hn : 0 < F.length := List.length_pos_iff.2 hF
  have hn' : (F.length : ℝ) ≠ 0 := by positivity
  unfold dft
  rw [if_neg (by simp), fftfreq_eq]
  unfold realspace
  simp only [Option.getD_some, if_neg (not_lt.2 hx), List.length_nil, if_true, Option.bind_some, List.length_map, List.length_range, ne_eq,
    not_true_eq_false, if_false, Option.map_some]
  congr 1
  rw [kernelDot_eq]
  apply map_ite2
  intro i
  rw [inv_norm]
  unfold inv
  congr 1
  simp only [Function.comp_apply, List.length_map, List.length_range]
  apply Finset.sum_congr rfl
  intro j hj
  rw [getD_map_range _ _ _ (Finset.mem_range.1 hj)]
  congr 2
  field_simp

/-- C32: the inverse transform, with any pixel size. -/
theorem ifft_spec (F : List ℂ) (hF : F ≠ []) (dx : ℝ) (hdx : dx ≠ 0) (centered : Bool) (norm : Conv) :
    dft F dx 0 none [] centered true norm =
      some ((List.range F.length).map fun (x : ℕ) => inv F.length centered norm (fun j => F.getD j 0) x) := by
  have hn : 0 < F.length := List.length_pos_iff.2 hF
  have hn' : (F.length : ℝ) ≠ 0 := by positivity
  have hc' : (F.length : ℂ) ≠ 0 := by exact_mod_cast hn.ne'
  unfold dft
  split
  · next h =>
    have hc : centered = false := h.2.2.2.2
    subst hc
    unfold npfft
    rw [if_neg hn.ne', Option.map_some]
    congr 1
    have key : ∀ k : ℕ, (∑ j ∈ range F.length, Complex.exp (((if (true : Bool) = true then 1 else -1) * 2 * Real.pi * (j * k / F.length) : ℝ) * Complex.I) * F.getD j 0) =
        ∑ j ∈ range F.length, e (fr F.length false j * (k : ℝ) / F.length) * F.getD j 0 := by
      intro k
      apply Finset.sum_congr rfl
      intro j _
      congr 1
      have h1 := e_fr_false F.length hn j k
      rw [show ((k : ℤ) : ℝ) = (k : ℝ) by simp] at h1
      rw [h1]
      unfold e
      congr 2; push_cast; simp
    simp only [if_true] at key ⊢
    simp only [key]
    apply map_ite
    intro k
    unfold inv
    cases norm
    · simp
    · simp only [if_true, one_mul]; rw [mul_comm, mul_inv_cancel_left₀ hc']
  · rw [realspace_default _ hn, fftfreq_eq]
    simp only [List.length_nil, if_true, Option.bind_some, List.length_map, List.length_range, ne_eq, not_true_eq_false, if_false, Option.map_some]
    congr 1
    rw [kernelDot_eq]
    apply map_ite2
    intro i
    rw [inv_norm]
    unfold inv
    congr 1
    simp only [Function.comp_apply, List.length_map, List.length_range]
    apply Finset.sum_congr rfl
    intro j hj
    rw [getD_map_range _ _ _ (Finset.mem_range.1 hj)]
    congr 2
    field_simp

/-- C32: the transforms are inverse to each other, for every length, pixel size, order of the
frequencies and normalization. -/
theorem ifft_fft (f : List ℂ) (hf : f ≠ []) (dx : ℝ) (hdx : dx ≠ 0) (centered : Bool) (norm : Conv) :
    ((dft f dx 0 none [] centered false norm).bind fun F => dft F dx 0 none [] centered true norm) = some f := by
  have hn : 0 < f.length := List.length_pos_iff.2 hf
  rw [fft_spec f hf dx hdx, Option.bind_some, ifft_spec _ (by simpa using hn.ne') dx hdx]
  congr 1
  simp only [List.length_map, List.length_range]
  apply List.ext_getElem?
  intro k
  by_cases hk : k < f.length
  · rw [List.getElem?_map, List.getElem?_range hk, Option.map_some, List.getElem?_eq_getElem hk]
    congr 1
    have h1 : inv f.length centered norm (fun j => ((List.range f.length).map fun (k : ℕ) => fwd f.length centered norm (fun j => f.getD j 0) k).getD j 0) k =
        inv f.length centered norm (fwd f.length centered norm (fun j => f.getD j 0)) k := by
      unfold inv
      congr 1
      apply Finset.sum_congr rfl
      intro j hj
      beta_reduce
      rw [getD_map_range _ _ _ (Finset.mem_range.1 hj)]
    rw [h1, inv_fwd _ hn _ _ _ hk, List.getD_eq_getElem?_getD, List.getElem?_eq_getElem hk]; rfl
  · rw [List.getElem?_eq_none (by simp; omega), List.getElem?_eq_none (by omega)]

theorem fft_ifft (f : List ℂ) (hf : f ≠ []) (dx : ℝ) (hdx : dx ≠ 0) (centered : Bool) (norm : Conv) :
    ((dft f dx 0 none [] centered true norm).bind fun F => dft F dx 0 none [] centered false norm) = some f := by
  have hn : 0 < f.length := List.length_pos_iff.2 hf
  rw [ifft_spec f hf dx hdx, Option.bind_some, fft_spec _ (by simpa using hn.ne') dx hdx]
  congr 1
  simp only [List.length_map, List.length_range]
  apply List.ext_getElem?
  intro k
  by_cases hk : k < f.length
  · rw [List.getElem?_map, List.getElem?_range hk, Option.map_some, List.getElem?_eq_getElem hk]
    congr 1
    have h1 : fwd f.length centered norm (fun j => ((List.range f.length).map fun (x : ℕ) => inv f.length centered norm (fun j => f.getD j 0) x).getD j 0) k =
        fwd f.length centered norm (fun (x : ℕ) => inv f.length centered norm (fun j => f.getD j 0) x) k := by
      unfold fwd
      congr 1
      apply Finset.sum_congr rfl
      intro j hj
      beta_reduce
      rw [getD_map_range _ _ _ (Finset.mem_range.1 hj)]
    rw [h1, fwd_inv _ hn _ _ _ hk, List.getD_eq_getElem?_getD, List.getElem?_eq_getElem hk]; rfl
  · rw [List.getElem?_eq_none (by simp; omega), List.getElem?_eq_none (by omega)]

/-- C32: mixing the normalizations multiplies by the number of points. -/
theorem mixed_norm (f : List ℂ) (hf : f ≠ []) :
    ((dft f 1 0 none [] false false .numpy).bind fun F => dft F 1 0 none [] false true .idl) = some (f.map fun z => (f.length : ℂ) * z) := by
  have hn : 0 < f.length := List.length_pos_iff.2 hf
  have hc' : (f.length : ℂ) ≠ 0 := by exact_mod_cast hn.ne'
  have h := ifft_fft f hf 1 one_ne_zero false .numpy
  rw [fft_spec f hf 1 one_ne_zero, Option.bind_some, ifft_spec _ (by simpa using hn.ne') 1 one_ne_zero, Option.some_inj] at *
  conv_rhs => rw [← h]
  rw [List.map_map]
  apply List.map_congr_left
  intro x _
  simp only [Function.comp_apply, inv, List.length_map, List.length_range]
  simp only [reduceCtorEq, if_true, if_false, one_mul]
  rw [mul_inv_cancel_left₀ hc']

/-- C32: whole positions of the inverse transform of a region are pixels of the whole inverse transform,
with wrap-around. -/
theorem ifft_region_pixels (F : List ℂ) (hF : F ≠ []) (dx : ℝ) (hdx : dx ≠ 0) (x0 x1 : ℤ) (hx : x0 ≤ x1) (centered : Bool) (norm : Conv) :
    ∃ full region, dft F dx 0 none [] centered true norm = some full ∧ dft F dx x0 (some x1) [] centered true norm = some region ∧
      region.length = (x1 + 1 - x0).toNat ∧
      ∀ i < region.length, region[i]? = full[((x0 + i) % F.length).toNat]? := by
  have hn : 0 < F.length := List.length_pos_iff.2 hF
  have hceil : ⌈(x1 : ℝ) + 1 - x0⌉ = x1 + 1 - x0 := by
    rw [show (x1 : ℝ) + 1 - x0 = ((x1 + 1 - x0 : ℤ) : ℝ) by push_cast; ring, Int.ceil_intCast]
  refine ⟨_, _, ifft_spec F hF dx hdx centered norm, ifft_region F hF dx hdx x0 x1 (by exact_mod_cast hx) centered norm, ?_, ?_⟩
  · simp [hceil]
  · intro i hi
    simp only [List.length_map, List.length_range] at hi
    have h1 := Int.emod_nonneg (x0 + i) (b := (F.length : ℤ)) (by omega)
    have h2 := Int.emod_lt_of_pos (x0 + i) (b := (F.length : ℤ)) (by omega)
    rw [List.getElem?_map, List.getElem?_map, List.getElem?_range hi, List.getElem?_range (by omega), Option.map_some, Option.map_some]
    congr 1
    have h3 := inv_periodic F.length hn centered norm (fun j => F.getD j 0) (x0 + i)
    have e1 : ((x0 + (i : ℤ) : ℤ) : ℝ) = (x0 : ℝ) + (i : ℝ) := by push_cast; ring
    have e2 : (((x0 + (i : ℤ)) % (F.length : ℤ) : ℤ) : ℝ) = ((((x0 + (i : ℤ)) % (F.length : ℤ)).toNat : ℕ) : ℝ) := by
      have : ((((x0 + (i : ℤ)) % (F.length : ℤ)).toNat : ℕ) : ℤ) = (x0 + (i : ℤ)) % (F.length : ℤ) := by omega
      exact_mod_cast this.symm
    rw [e1, e2] at h3
    exact h3

/-- C32: with the frequencies of a finer grid the inverse transform is evaluated on that finer grid. -/
theorem ifft_super (F : List ℂ) (hF : F ≠ []) (s : ℝ) (hs : s ≠ 0) (x0 x1 : ℝ) (hx : x0 ≤ x1) (norm : Conv) :
    ((fftfreq F.length s false .numpy).bind fun u => dft F 1 x0 (some x1) u false true norm) =
      some ((List.range ⌈x1 + 1 - x0⌉.toNat).map fun (i : ℕ) => inv F.length false norm (fun j => F.getD j 0) ((x0 + i) / s)) := by
  have hn : 0 < F.length := List.length_pos_iff.2 hF
  have hn' : (F.length : ℝ) ≠ 0 := by positivity
  rw [fftfreq_eq, Option.bind_some]
  unfold dft
  rw [if_neg (by simp)]
  unfold realspace
  simp only [Option.getD_some, if_neg (not_lt.2 hx), Option.bind_some, List.length_map, List.length_range, if_neg hn.ne', ne_eq,
    not_true_eq_false, if_false, if_true, Option.map_some]
  congr 1
  rw [kernelDot_eq]
  apply map_ite2
  intro i
  rw [inv_norm]
  unfold inv
  congr 1
  simp only [Function.comp_apply, List.length_map, List.length_range]
  apply Finset.sum_congr rfl
  intro j hj
  rw [getD_map_range _ _ _ (Finset.mem_range.1 hj)]
  congr 2
  field_simp

/-- C32: no data points raise, as do a region of no points and frequencies of the wrong number. -/
theorem dft_empty (dx x0 : ℝ) (x1 : Option ℝ) (h : x1 = none → 0 ≤ x0) (centered inverse : Bool) (norm : Conv) :
    (x1 = none → dft [] dx x0 x1 [] centered inverse norm = none) ∧
    (∀ u f, u ≠ [] → u.length ≠ f.length → dft f dx x0 x1 u centered true norm = none) := by
  refine ⟨?_, ?_⟩
  · intro hx1
    subst hx1
    unfold dft
    split
    · simp [npfft]
    · have : realspace 0 dx x0 none = none := by
        unfold realspace
        rw [if_pos]
        have := h rfl
        simp only [Option.getD_none, Nat.cast_zero]
        linarith
      simp only [List.length_nil, this, Option.bind_none]
  · intro u f hu hne
    have hu' : u.length ≠ 0 := by simpa using hu
    unfold dft
    rw [if_neg (fun h => hu' h.2.2.2.1)]
    simp only [if_neg hu', Option.bind_some, if_true, ne_eq, hne, not_false_eq_true, Option.map_none]
    cases realspace f.length dx x0 x1 <;> rfl

/-- C32: the transforms are linear. -/
theorem fft_linear (f g : List ℂ) (hlen : f.length = g.length) (hf : f ≠ []) (dx : ℝ) (hdx : dx ≠ 0) (a b : ℂ) (centered inverse : Bool) (norm : Conv) :
    ∃ F G, dft f dx 0 none [] centered inverse norm = some F ∧ dft g dx 0 none [] centered inverse norm = some G ∧
      dft (List.zipWith (fun x y => a * x + b * y) f g) dx 0 none [] centered inverse norm = some (List.zipWith (fun x y => a * x + b * y) F G) := by
  have hn : 0 < f.length := List.length_pos_iff.2 hf
  have hg : g ≠ [] := List.length_pos_iff.1 (by omega)
  have hz : List.zipWith (fun x y => a * x + b * y) f g ≠ [] := List.length_pos_iff.1 (by rw [List.length_zipWith]; omega)
  have hl : (List.zipWith (fun x y => a * x + b * y) f g).length = f.length := by rw [List.length_zipWith]; omega
  have hgd : ∀ j < f.length, (List.zipWith (fun x y => a * x + b * y) f g).getD j 0 = a * f.getD j 0 + b * g.getD j 0 := by
    intro j hj
    simp only [List.getD_eq_getElem?_getD, List.getElem?_zipWith, List.getElem?_eq_getElem hj, List.getElem?_eq_getElem (hlen ▸ hj), Option.getD_some]
  cases inverse
  · refine ⟨_, _, fft_spec f hf dx hdx centered norm, fft_spec g hg dx hdx centered norm, ?_⟩
    rw [fft_spec _ hz dx hdx, hl, ← hlen, List.zipWith_map_left, List.zipWith_map_right, List.zipWith_self]
    congr 1
    apply List.map_congr_left
    intro k _
    unfold fwd
    rw [mul_left_comm a, mul_left_comm b, ← mul_add]
    congr 1
    rw [Finset.mul_sum, Finset.mul_sum, ← Finset.sum_add_distrib]
    apply Finset.sum_congr rfl
    intro j hj
    beta_reduce
    rw [hgd j (Finset.mem_range.1 hj)]; ring
  · refine ⟨_, _, ifft_spec f hf dx hdx centered norm, ifft_spec g hg dx hdx centered norm, ?_⟩
    rw [ifft_spec _ hz dx hdx, hl, ← hlen, List.zipWith_map_left, List.zipWith_map_right, List.zipWith_self]
    congr 1
    apply List.map_congr_left
    intro k _
    unfold inv
    rw [mul_left_comm a, mul_left_comm b, ← mul_add]
    congr 1
    rw [Finset.mul_sum, Finset.mul_sum, ← Finset.sum_add_distrib]
    apply Finset.sum_congr rfl
    intro j hj
    beta_reduce
    rw [hgd j (Finset.mem_range.1 hj)]; ring

end SC.Ft
