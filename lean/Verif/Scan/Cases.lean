import Verif.Scan.Props
/-! # C40: concrete cases and findings -/
namespace SC.Scan

/-- Five pixels from 0 to 10. -/
example : zaplineValues 0 10 5 = some [1, 3, 5, 7, 9] ∧ zaplineRange 0 10 5 = some (1, 9) ∧
    zaplineScansize 0 10 5 = some 8 ∧ zaplinePixelsize 0 10 5 = some (5 / 2) := by
  decide +kernel

example : ascanValues 0 10 5 = some [0, 2, 4, 6, 8, 10] ∧ ascanPixelsize 0 10 5 = some 2 := by
  decide +kernel

/-- **Finding**: the pixel size of the scan above is 2, not 5/2 (`zapline_pixelsize` divides by
one less than the number of pixels). -/
theorem zapline_pixelsize_wrong : ∃ s e n v h, zaplineValues s e n = some v ∧
    zaplinePixelsize s e n = some h ∧ ¬ Spaced h v := by
  refine ⟨0, 10, 5, [1, 3, 5, 7, 9], 5 / 2, by decide +kernel, by decide +kernel, ?_⟩
  intro h
  have := h 0 (by decide)
  revert this
  decide +kernel

/-- One pixel has no pixel size. -/
example : zaplinePixelsize 0 10 1 = none := by decide +kernel

/-- A sub-map of the scan above around 5 with half range 2, with a slow motor from 0 to 4 in
4 steps, around 2 with half range 1. -/
example : submapPlan ⟨0, 10, 5⟩ ⟨0, 4, 4⟩ 5 2 2 1 =
    some ⟨some ⟨4, 8, 3⟩, ⟨1, 3, 2⟩, (1, 4, 1), (1, 4, 1)⟩ := by decide +kernel

/-- The chosen pixels are at 3, 5 and 7; those of the new command are not (`subFast_wrong`). -/
example : between [1, 3, 5, 7, 9] 1 3 = [3, 5, 7] ∧ zaplineValues 4 8 3 = some [14 / 3, 6, 22 / 3] ∧
    between [0, 1, 2, 3, 4] 1 3 = [1, 2, 3] ∧ ascanValues 1 3 2 = some [1, 2, 3] := by decide +kernel

/-- From high to low: pixels 3, 2, 1 are chosen but the slice gives only pixel 3
(`subSlice_down`). -/
example : submapPlan ⟨10, 0, 5⟩ ⟨0, 4, 4⟩ 5 2 2 1 =
    some ⟨some ⟨4, 8, 3⟩, ⟨1, 3, 2⟩, (3, 2, -1), (1, 4, 1)⟩ ∧
    (Py.Slice.mk (some 3) (some 2) (some (-1))).positions 5 = some [3] := by decide +kernel

end SC.Scan
