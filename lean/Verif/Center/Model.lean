import Mathlib.Algebra.BigOperators.Group.Finset.Basic
import Mathlib.Algebra.Order.Field.Basic
/-! # Position of the peak (math/center.py)

Numbers from an ordered field without rounding, no NaN: `np.nanargmax` is the index of the first
maximum.  The fit (`_fit`, lines 32-47) is left out. -/
namespace SC.Center
open Finset

variable {K : Type} [Field K] [LinearOrder K]

/-- `np.nanargmax` of a one-dimensional array; ValueError (no elements) is `none` -/
def argmax : List K → Option Nat
  | [] => none
  | x :: xs =>
    match argmax xs with
    | none => some 0
    | some i => if x < xs.getD i 0 then some (i + 1) else some 0

/-- `fmax` of one-dimensional data (lines 6-8) -/
def fmax (data : List K) : Option Nat := argmax data

/-- A two-dimensional array -/
structure Grid (K : Type) where
  ny : Nat
  nx : Nat
  v : Nat → Nat → K

/-- `data.flatten()` -/
def Grid.flat (g : Grid K) : List K := (List.range (g.ny * g.nx)).map fun k => g.v (k / g.nx) (k % g.nx)

/-- `fmax` of two-dimensional data (lines 9-10): row and column -/
def fmax2 (g : Grid K) : Option (Nat × Nat) := (argmax g.flat).map fun k => (k / g.nx, k % g.nx)

/-- `_centroid` of one-dimensional data (lines 20-23) -/
def centroid (data : List K) : K :=
  (∑ x ∈ range data.length, (x : K) * data.getD x 0) / (∑ x ∈ range data.length, data.getD x 0)

/-- `_centroid` of two-dimensional data (lines 24-29): the column comes first -/
def centroid2 (g : Grid K) : K × K :=
  let tot := ∑ i ∈ range g.ny, ∑ j ∈ range g.nx, g.v i j
  let cx := (∑ i ∈ range g.ny, ∑ j ∈ range g.nx, (j : K) * g.v i j) / tot
  let cy := (∑ i ∈ range g.ny, ∑ j ∈ range g.nx, (i : K) * g.v i j) / tot
  (cx, cy)

/-- The loop of `foptimize` for one-dimensional data (lines 54-62).  The interval is
`[shift - w, shift + w]` throughout: both ends move together. -/
def grow (data : List K) (thres : K) (shift : Nat) : Nat → Nat → Nat
  | 0, w => w
  | fuel + 1, w =>
    if thres < data.getD (shift - w) 0 ∧ thres < data.getD (shift + w) 0 then
      if shift < w + 1 ∨ data.length ≤ shift + (w + 1) then w
      else grow data thres shift fuel (w + 1)
    else w

/-- `foptimize` for one-dimensional data (lines 50-64) -/
def foptimize (proc : List K → K) (data : List K) (threshold : K := 9 / 10) : Option K :=
  (fmax data).map fun shift =>
    let thres := threshold * data.getD shift 0
    let w := grow data thres shift data.length 0
    if w = 0 then (shift : K)
    else proc ((data.drop (shift - w)).take (2 * w + 1)) + ((shift - w : Nat) : K)

/-- `data[i0 - off : i0 + off + 1, i1 - off : i1 + off + 1]` inside the array -/
def window (g : Grid K) (i0 i1 off : Nat) : Grid K :=
  { ny := 2 * off + 1, nx := 2 * off + 1, v := fun i j => g.v (i0 - off + i) (i1 - off + j) }

/-- The loop of `foptimize` for two-dimensional data (lines 66-82) -/
def grow2 (g : Grid K) (thres : K) (i0 i1 : Nat) : Nat → Nat → Nat
  | 0, off => off
  | fuel + 1, off =>
    if ∀ i < 2 * off + 1, ∀ j < 2 * off + 1, ¬ (window g i0 i1 off).v i j < thres then
      if i0 < off + 1 ∨ i1 < off + 1 ∨ g.ny ≤ i0 + (off + 1) ∨ g.nx ≤ i1 + (off + 1) then off
      else grow2 g thres i0 i1 fuel (off + 1)
    else off

/-- `foptimize` for two-dimensional data (lines 50-52 and 65-94): the two numbers of `proc` are added
to row and column in this order. -/
def foptimize2 (proc : Grid K → K × K) (g : Grid K) (threshold : K := 9 / 10) : Option (K × K) :=
  (fmax2 g).map fun shift =>
    let thres := threshold * g.v shift.1 shift.2
    let off := grow2 g thres shift.1 shift.2 (g.ny + g.nx) 0
    if off = 0 then ((shift.1 : K), (shift.2 : K))
    else
      let c := proc (window g shift.1 shift.2 off)
      ((shift.1 : K) + c.1 - off, (shift.2 : K) + c.2 - off)

/-- `fcentroid` (lines 99-100) -/
def fcentroid (data : List K) : Option K := foptimize centroid data
/-- `fcentroid` of an image (center.py 99-100). -/
def fcentroid2 (g : Grid K) : Option (K × K) := foptimize2 centroid2 g

end SC.Center
