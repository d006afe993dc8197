import Verif.Align.PropsPad
/-! # Alignment: concrete cases and deviations -/
namespace SC.Align

/-- Two images, the second moved by `(2, -1)` (x, y), aligned on the first. -/
def exCall (p c : Bool) : Call :=
  ⟨p, c, false, true, false, (0, 0), 0, 2, fun i => if i = 1 then (2, -1) else (9, 9), false, 0, 0, fun _ _ => false⟩

example : (exCall true false).ts = [(0, 0), (2, -1)] := by decide +kernel
example : alignCalls (init (3, 4)) [exCall true false] =
    some (⟨(3, 4), (0, 1), (2, 0), true, false⟩, [(0, 0), (2, -1)]) := by decide +kernel
example : alignCalls (init (3, 4)) [exCall true false, exCall false true] =
    some (⟨(3, 4), (-1, 0), (0, -2), false, true⟩, [(0, 0), (2, -1)]) := by decide +kernel
example : destImgsize ⟨(3, 4), (0, 1), (2, 0), true, false⟩ = (4, 6) := by decide +kernel
example : transformAxes ⟨(3, 4), (0, 1), (2, 0), true, false⟩ 2 [[1, 2, 4], [0, 1, 2, 3], [5, 6]] =
    some [[some 1, some 2, some 4, some 6], [some (-2), some (-1), some 0, some 1, some 2, some 3], [some 5, some 6]] := by
  decide +kernel
example : transformAxes ⟨(3, 4), (-1, 0), (0, -2), false, true⟩ 0 [[5, 6], [1, 2, 4], [0, 1, 2, 3]] =
    some [[some 5, some 6], [some 2, some 4], [some 0, some 1]] := by decide +kernel
/-- Hypotheses of `axes_partial`. -/
example : ((0, 0) : Tr) ∈ (exCall true false).ts ∧ (exCall true false).Ok (3, 4) := by
  refine ⟨by decide +kernel, by decide, by decide⟩
/-- Hypotheses of `crop_exact`, `mask_agrees`. -/
example : polygoncollectionbounds (3, 4) false (exCall false true).ts = .box 0 1 1 2 := by decide +kernel
example : ∀ t ∈ (exCall false true).ts, ∃ n, IntTr t n := by
  have : (exCall false true).ts = [(0, 0), (2, -1)] := by decide +kernel
  rw [this]
  intro t ht
  simp only [List.mem_cons, List.not_mem_nil, or_false] at ht
  rcases ht with rfl | rfl
  · exact ⟨(0, 0), by simp [IntTr]⟩
  · exact ⟨(2, -1), by constructor <;> norm_num⟩
/-- Pairwise alignment. -/
example : (⟨false, false, true, true, false, (0, 0), 0, 4, fun i => (i, -1), false, 0, 0, fun _ _ => false⟩ : Call).ts =
    [(0, 0), (1, -1), (3, -2), (6, -3)] := by decide +kernel
/-- `minimal_centres`. -/
example : minimaltransformation (3, 4) [(0, 0), (3, 1), (1, 0)] [(0, 0), (3, 1), (1, 0)] =
    some [(-3/2, -1/2), (3/2, 1/2), (-1/2, -1/2)] := by decide +kernel

/-- **C27, deviation.**  An image of one row, padded along the rows: the axis has no second value and
`transform_axes` raises, although the images are padded and written. -/
theorem single_row_axis_deviation :
    ∃ k : Call, k.Ok (1, 3) ∧ ((0, 0) : Tr) ∈ k.ts ∧
      ∃ s ts, alignCall (init (1, 3)) k = some (s, ts) ∧ destImgsize s = (2, 3) ∧
        transformAxes s 2 [[7], [0, 1, 2], [0, 1]] = none :=
  ⟨⟨true, false, false, true, false, (0, 0), 0, 2, fun _ => (0, 1), false, 0, 0, fun _ _ => false⟩,
    ⟨by decide, by decide⟩, by decide +kernel,
    ⟨(1, 3), (1, 0), (0, 0), true, false⟩, [(0, 0), (0, 1)], by decide +kernel, by decide +kernel, by decide +kernel⟩

/-- **C47, deviation.**  Cropping rounds outwards: for a translation of half a pixel nothing is removed
and the first row of the moved image is missing data. -/
theorem crop_subpixel_deviation :
    ∃ k : Call, k.Ok (3, 3) ∧ k.padReq = false ∧ k.cropReq = true ∧
      bextendfrommask k.cropReq k.cvalIsNan k.pairwise = false ∧
      ∃ s, alignCall (init (3, 3)) k = some (s, [(0, 0), (0, -1/2)]) ∧ destImgsize s = (3, 3) ∧
        ∀ (interp : Img → Rat → Rat → Px) (cval : Px) (img : Img), img.h = 3 → img.w = 3 → ∀ x : Int,
          (transform interp cval s (0, 0) (0, -1/2) img).get 0 x = cval := by
  refine ⟨⟨false, true, true, true, false, (0, 0), 0, 2, fun _ => (0, -1/2), true, 0, 0, fun _ _ => false⟩,
    ⟨by decide, by decide⟩, rfl, rfl, rfl, ⟨(3, 3), (0, 0), (0, 0), false, false⟩, by decide +kernel, by decide +kernel, ?_⟩
  intro interp cval img h1 h2 x
  have hp : pureidentity ⟨(3, 3), (0, 0), (0, 0), false, false⟩ ((0, -1/2) : Tr) = false := by decide +kernel
  have hz : ¬ ((0, -1/2) : Tr) = (0, 0) := by decide +kernel
  simp only [transform, hp, Bool.false_eq_true, if_false, executeTransform, if_true, hz, shift]
  rw [if_pos]
  left
  norm_num

/-- **C47, deviation.**  "pad has priority over crop" does not hold for an alignment to a reference
with NaN as missing value: when both are requested the images are cropped. -/
theorem pad_priority_deviation :
    ∃ k : Call, k.Ok (2, 2) ∧ k.padReq = true ∧ k.cropReq = true ∧
      ∃ s, alignCall (init (2, 2)) k = some (s, [(0, 0), (1, 0)]) ∧ s.pad = false ∧ destImgsize s = (2, 1) :=
  ⟨⟨true, true, false, true, false, (0, 0), 0, 2, fun _ => (1, 0), true, 2, 2, fun _ x => decide (x = 0)⟩,
    ⟨by decide, by decide⟩, rfl, rfl, ⟨(2, 2), (0, 0), (0, -1), false, true⟩, by decide +kernel, rfl, by decide +kernel⟩

/-- **C47, deviation.**  One common pixel counts as nothing: cropping is skipped and missing data stays. -/
theorem crop_single_pixel_deviation :
    polygoncollectionbounds (2, 2) false [(0, 0), (1, 1)] = .nothing ∧
    Inside (2, 2) (0, 0) 0 0 ∧ Inside (2, 2) (1, 1) 0 0 := by
  refine ⟨by decide +kernel, ?_, ?_⟩ <;> refine ⟨?_, ?_, ?_, ?_⟩ <;> norm_num

end SC.Align
