import Verif.Ft.Model
import Verif.Center.Model
import Mathlib.Analysis.Complex.Norm
/-! # Translations from Fourier correlation (align/alignFFT.py)

Real and complex numbers without rounding (the code stores a few of them as `self.dtype`).  Left out:
the fit (`maxmethod = "fit"`), missing data (`fft_handle_missing` replaces it by zero, lines 153-166),
rigid and similarity transformations (lines 280-335). -/
namespace SC.AlignFFT
open SC.Ft SC.Center

/-- `ftmodulus` (lines 173-178), one element -/
noncomputable def modulus (z : ℂ) : ℝ := if ‖z‖ < 1 / 10 ^ 20 then 1 else ‖z‖

/-- `maxmethod` (line 26) -/
inductive Method | max | centroid
deriving DecidableEq

/-- `cc_maximum` (lines 189-200) of one-dimensional data -/
noncomputable def ccMaximum (m : Method) (cc : List ℂ) : Option ℝ :=
  let data := cc.map modulus
  match m with
  | .centroid => fcentroid data
  | .max => (fmax data).map fun (i : Nat) => (i : ℝ)

/-- `ftmodulus` (lines 173-178) of an image -/
noncomputable def modulus2 (cc : Img) : Grid ℝ := { ny := cc.ny, nx := cc.nx, v := fun i j => modulus (cc.v i j) }

/-- `cc_maximum` (lines 189-200) of an image: row and column -/
noncomputable def ccMaximum2 (m : Method) (cc : Img) : Option (ℝ × ℝ) :=
  let data := modulus2 cc
  match m with
  | .centroid => fcentroid2 data
  | .max => (fmax2 data).map fun p => ((p.1 : ℝ), (p.2 : ℝ))

/-- `ifft_interpolate` (lines 32-56) of one-dimensional data -/
noncomputable def ifftInterpolate (sampling : Nat) (imgft : List ℂ) (off size : ℝ) : Option (List ℂ) :=
  let x0 := -off
  let x1 := x0 + size - 1
  (fftfreq imgft.length sampling false .numpy).bind fun u =>
    dft imgft (x0 := x0) (x1 := some x1) (u := u) (inverse := true)

/-- `ifft_interpolate` (lines 57-70) of an image; offsets and sizes: rows, columns -/
noncomputable def ifftInterpolate2 (sampling : Nat) (imgft : Img) (off size : ℝ × ℝ) : Option Img :=
  let x0 := -off.2
  let x1 := x0 + size.2 - 1
  let y0 := -off.1
  let y1 := y0 + size.1 - 1
  (fftfreq imgft.nx sampling false .numpy).bind fun u =>
    (fftfreq imgft.ny sampling false .numpy).bind fun v =>
      dft2 imgft (x0 := x0) (x1 := some x1) (u := u) (y0 := y0) (y1 := some y1) (v := v) (inverse := true)

/-- `shift > imax` counts from the end (lines 220-228) -/
def unwrap (n : Nat) (d : Nat) : Int :=
  let imax := (freqind n .numpy).2
  if (d : Int) > imax then d - n else d

/-- `determine_shift` (lines 202-261) of one-dimensional data.  Transforms of different lengths:
ValueError (numpy would repeat a single element). -/
noncomputable def determineShift (sampling : Nat) (m : Method) (img1ft img2ft : List ℂ) : Option ℝ :=
  if img1ft.length ≠ img2ft.length then none
  else
    let product := List.zipWith (fun a b => a * (starRingEnd ℂ) b) img1ft img2ft
    (dft product (inverse := true)).bind fun cc =>
      (fmax (cc.map modulus)).bind fun d =>
        let shift := unwrap cc.length d
        if 1 < sampling then
          let size : Nat := 4 * sampling
          let ksampled := (freqind size .numpy).2
          let off : ℝ := (ksampled : ℝ) - shift * sampling
          (ifftInterpolate sampling product off size).bind fun cc =>
            (ccMaximum m cc).map fun shiftsampled => (shiftsampled - off) / sampling
        else some (shift : ℝ)

/-- `determine_shift` (lines 202-261) of images: rows, columns -/
noncomputable def determineShift2 (sampling : Nat) (m : Method) (img1ft img2ft : Img) : Option (ℝ × ℝ) :=
  if img1ft.ny ≠ img2ft.ny ∨ img1ft.nx ≠ img2ft.nx then none
  else
    let product : Img := { ny := img1ft.ny, nx := img1ft.nx, v := fun i j => img1ft.v i j * (starRingEnd ℂ) (img2ft.v i j) }
    (dft2 product (inverse := true)).bind fun cc =>
      (fmax2 (modulus2 cc)).bind fun d =>
        let shift := (unwrap cc.ny d.1, unwrap cc.nx d.2)
        if 1 < sampling then
          let size : Nat := 3 * sampling
          let ksampled := (freqind size .numpy).2
          let off : ℝ × ℝ := ((ksampled : ℝ) - shift.1 * sampling, (ksampled : ℝ) - shift.2 * sampling)
          (ifftInterpolate2 sampling product off (size, size)).bind fun cc =>
            (ccMaximum2 m cc).map fun shiftsampled => ((shiftsampled.1 - off.1) / sampling, (shiftsampled.2 - off.2) / sampling)
        else some ((shift.1 : ℝ), (shift.2 : ℝ))

/-- `img.flatten()` -/
def flatten (f : Img) : List ℂ := (List.range (f.ny * f.nx)).map fun (k : Nat) => f.v (k / f.nx) (k % f.nx)

/-- The transformation found by `execute_alignkernel` (lines 263-279) after `set_reference` (lines
339-344): the arguments of `settranslation`, `(x, y)` -/
noncomputable def alignKernel (sampling : Nat) (m : Method) (reference img : Img) : Option (ℝ × ℝ) :=
  if img.ny * img.nx = img.ny ∨ img.ny * img.nx = img.nx then
    (dft (flatten img)).bind fun F =>
      (dft (flatten reference)).bind fun G =>
        (determineShift sampling m F G).map fun shift => if img.ny = 1 then (shift, 0) else (0, shift)
  else
    (dft2 img).bind fun F =>
      (dft2 reference).bind fun G =>
        (determineShift2 sampling m F G).map fun shift => (shift.2, shift.1)

open Classical in
/-- `transformimage` for a translation `(x, y)` (transform.py lines 62-71, `scipy.ndimage.shift`): no
interpolation at whole pixels, `interp` elsewhere -/
noncomputable def transformImage (interp : Img → ℝ → ℝ → ℂ) (cval : ℂ) (t : ℝ × ℝ) (img : Img) : Img :=
  if t.1 = 0 ∧ t.2 = 0 then img
  else
    { img with v := fun i j =>
        let y : ℝ := i - -t.2
        let x : ℝ := j - -t.1
        if y < 0 ∨ (img.ny : ℝ) - 1 < y ∨ x < 0 ∨ (img.nx : ℝ) - 1 < x then cval
        else if (∃ a : Int, y = a) ∧ (∃ b : Int, x = b) then img.v ⌊y⌋.toNat ⌊x⌋.toNat
        else interp img y x }

end SC.AlignFFT
