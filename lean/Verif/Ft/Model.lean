import Verif.Numpy.Lemmas
import Mathlib.Data.Complex.Basic
import Mathlib.Analysis.Complex.Exponential
import Mathlib.Analysis.SpecialFunctions.Trigonometric.Basic
import Mathlib.Algebra.BigOperators.Group.Finset.Basic
import Mathlib.Algebra.Order.Floor.Ring
/-! # Fourier transforms and their conventions (math/ft.py)

Integers as in Python; real and complex numbers without rounding. -/
namespace SC.Ft
open SC.Numpy

/-- `fftConvention` (line 4) -/
inductive Conv | numpy | idl
deriving DecidableEq

/-- `fft_freqind` (lines 29-43) -/
def freqind (n : Int) : Conv → Int × Int
  | .idl => (-(n / 2) + (1 - n % 2), (n + 1) / 2 - n % 2)
  | .numpy => (-(n / 2), (n + 1) / 2 - 1)

/-- `np.arange(a, b)` of integers -/
def arange (a b : Int) : List Int := (List.range (b - a).toNat).map fun (k : Nat) => a + k

/-- The position a slice bound stands for, in an array of `n` elements -/
def bound (n : Nat) (i : Int) : Nat := if i < 0 then (i + n).toNat else min i.toNat n

/-- Assigning a one-dimensional array to `m` places (numpy: equal lengths, or one element repeated;
ValueError is `none`) -/
def assign (m : Nat) (src : List Int) : Option (List Int) :=
  if src.length = m then some src
  else if src.length = 1 then some (List.replicate m (src.headD 0))
  else none

/-- `out = np.empty(n, int); out[:at] = a; out[at:] = b` -/
def fill (n : Nat) (at_ : Int) (a b : List Int) : Option (List Int) :=
  let p := bound n at_
  (assign p a).bind fun x => (assign (n - p) b).map fun y => x ++ y

/-- `fftfreq` (lines 46-62) without the division -/
def freqs (n : Nat) (centered : Bool) (c : Conv) : Option (List Int) :=
  let (imin, imax) := freqind n c
  if centered then some (arange imin (imax + 1))
  else
    let npos := imax + 1
    fill n npos (arange 0 npos) (arange imin 0)

/-- `fftfreq` (lines 46-62) -/
noncomputable def fftfreq (n : Nat) (d : ℝ) (centered : Bool) (c : Conv) : Option (List ℝ) :=
  (freqs n centered c).map fun l => l.map fun (i : Int) => (i : ℝ) / (n * d)

/-- `np.take(a, ind, axis=k)`: indices count from the end when negative, IndexError is `none` -/
def take {α : Type} (a : Arr α) (ind : List Int) (k : Nat) : Option (Arr α) :=
  let n := a.shape.getD k 0
  if ind.all fun i => decide (-(n : Int) ≤ i ∧ i < n) then
    some { shape := a.shape.set k ind.length
           get := fun r =>
             let i := ind.getD (r.getD k 0) 0
             a.get (r.set k (if i < 0 then i + n else i).toNat) }
  else none

/-- The index list of one axis (lines 78-81 and 98-101) -/
def shiftInd (n : Nat) (npos : Int) : Option (List Int) :=
  let off := n - npos
  fill n off (arange npos n) (arange 0 npos)

/-- The loop over the axes (lines 77-82 and 97-102) -/
def shiftLoop {α : Type} (npos : List Int) (dim : List Nat) : List Nat → Arr α → Option (Arr α)
  | [], out => some out
  | k :: ks, out =>
    (shiftInd (dim.getD k 0) (npos.getD k 0)).bind fun ind =>
      (take out ind k).bind fun out => shiftLoop npos dim ks out

/-- `fftshift` (lines 65-83) -/
def fftshift {α : Type} (c : Conv) (sig : Arr α) : Option (Arr α) :=
  shiftLoop (sig.shape.map fun (n : Nat) => (freqind n c).2 + 1) sig.shape (List.range sig.shape.length) sig

/-- `ifftshift` (lines 86-103) -/
def ifftshift {α : Type} (c : Conv) (sig : Arr α) : Option (Arr α) :=
  shiftLoop (sig.shape.map fun (n : Nat) => -(freqind n c).1) sig.shape (List.range sig.shape.length) sig

/-! ## Fourier transforms -/

/-- `_realspace` (lines 106-119); ValueError is `none`.  Start and end may be fractions, as in
align/alignFFT.py: `np.arange` then has the rounded up difference as number of elements. -/
noncomputable def realspace (N : Nat) (dx x0 : ℝ) (x1 : Option ℝ) : Option (List ℝ) :=
  let x1 := x1.getD (N - 1)
  if x1 < x0 then none
  else some ((List.range (⌈x1 + 1 - x0⌉).toNat).map fun (k : Nat) => (x0 + k) * dx)

/-- `np.exp(c * np.outer(a, b)).dot(f)` with `c = ±2j π` -/
noncomputable def kernelDot (sgn : ℝ) (a b : List ℝ) (f : List ℂ) : List ℂ :=
  a.map fun s => ∑ j ∈ Finset.range b.length, Complex.exp ((sgn * 2 * Real.pi * (s * b.getD j 0) : ℝ) * Complex.I) * f.getD j 0

/-- `np.fft.fft` and `np.fft.ifft`: the definition in the documentation of numpy; no data points is a
ValueError. -/
noncomputable def npfft (inverse : Bool) (f : List ℂ) : Option (List ℂ) :=
  if f.length = 0 then none
  else some ((List.range f.length).map fun (k : Nat) =>
    (if inverse then (f.length : ℂ)⁻¹ else 1) *
      ∑ j ∈ Finset.range f.length, Complex.exp (((if inverse then 1 else -1) * 2 * Real.pi * (j * k / f.length) : ℝ) * Complex.I) * f.getD j 0)

open Classical in
/-- `_dft` (lines 122-182); ValueError is `none` -/
noncomputable def dft (f : List ℂ) (dx : ℝ := 1) (x0 : ℝ := 0) (x1 : Option ℝ := none) (u : List ℝ := [])
    (centered : Bool := false) (inverse : Bool := false) (norm : Conv := .numpy) : Option (List ℂ) :=
  if dx = 1 ∧ x0 = 0 ∧ x1 = none ∧ u.length = 0 ∧ centered = false then
    (npfft inverse f).map fun ret =>
      if norm = Conv.idl then (if inverse then ret.map (· * (f.length : ℂ)) else ret.map (· / (f.length : ℂ)))
      else ret
  else
    (realspace f.length dx x0 x1).bind fun x =>
      (if u.length = 0 then fftfreq f.length dx centered .numpy else some u).bind fun u =>
        (if inverse then
            if u.length ≠ f.length then none else some (kernelDot 1 x u f)
          else
            if x.length ≠ f.length then none else some (kernelDot (-1) u x f)).map fun ret =>
          if xor (norm = Conv.idl) inverse then ret.map (· / (u.length : ℂ)) else ret

/-- A two-dimensional array -/
structure Img where
  ny : Nat
  nx : Nat
  v : Nat → Nat → ℂ

/-- Same shape, same pixels -/
def Img.Same (a b : Img) : Prop := a.ny = b.ny ∧ a.nx = b.nx ∧ ∀ i < a.ny, ∀ j < a.nx, a.v i j = b.v i j

/-- `np.fft.fft2` and `np.fft.ifft2` (documentation of numpy) -/
noncomputable def npfft2 (inverse : Bool) (f : Img) : Option Img :=
  if f.ny = 0 ∨ f.nx = 0 then none
  else some { ny := f.ny, nx := f.nx, v := fun k l =>
    (if inverse then ((f.ny : ℂ) * f.nx)⁻¹ else 1) *
      ∑ i ∈ Finset.range f.ny, ∑ j ∈ Finset.range f.nx,
        Complex.exp (((if inverse then 1 else -1) * 2 * Real.pi * (i * k / f.ny + j * l / f.nx) : ℝ) * Complex.I) * f.v i j }

/-- `np.exp(c * a[:, None].dot(b[None, :]))` -/
noncomputable def kernel (sgn : ℝ) (a b : List ℝ) : Nat → Nat → ℂ :=
  fun i j => Complex.exp ((sgn * 2 * Real.pi * (a.getD i 0 * b.getD j 0) : ℝ) * Complex.I)

open Classical in
/-- `_dft2` (lines 185-275); ValueError is `none` -/
noncomputable def dft2 (f : Img) (dx : ℝ := 1) (x0 : ℝ := 0) (x1 : Option ℝ := none) (u : List ℝ := [])
    (dy : ℝ := 1) (y0 : ℝ := 0) (y1 : Option ℝ := none) (v : List ℝ := [])
    (centered : Bool := false) (inverse : Bool := false) (norm : Conv := .numpy) : Option Img :=
  if dx = 1 ∧ x0 = 0 ∧ x1 = none ∧ u.length = 0 ∧ dy = 1 ∧ y0 = 0 ∧ y1 = none ∧ v.length = 0 ∧ centered = false then
    (npfft2 inverse f).map fun ret =>
      if norm = Conv.idl then
        (if inverse then { ret with v := fun i j => ret.v i j * ((f.ny : ℂ) * f.nx) } else { ret with v := fun i j => ret.v i j / ((f.ny : ℂ) * f.nx) })
      else ret
  else
    (realspace f.nx dx x0 x1).bind fun x =>
    (realspace f.ny dy y0 y1).bind fun y =>
    (if u.length = 0 then fftfreq f.nx dx centered .numpy else some u).bind fun u =>
    (if v.length = 0 then fftfreq f.ny dy centered .numpy else some v).bind fun v =>
      (if inverse then
          if u.length ≠ f.nx ∨ v.length ≠ f.ny then none
          else some { ny := y.length, nx := x.length, v := fun i j =>
            ∑ l ∈ Finset.range f.nx, (∑ k ∈ Finset.range f.ny, kernel 1 y v i k * f.v k l) * kernel 1 u x l j : Img }
        else
          if x.length ≠ f.nx ∨ y.length ≠ f.ny then none
          else some { ny := v.length, nx := u.length, v := fun i j =>
            ∑ l ∈ Finset.range f.nx, (∑ k ∈ Finset.range f.ny, kernel (-1) v y i k * f.v k l) * kernel (-1) x u l j : Img }).map fun ret =>
        if xor (norm = Conv.idl) inverse then { ret with v := fun i j => ret.v i j / ((u.length : ℂ) * v.length) } else ret

end SC.Ft
