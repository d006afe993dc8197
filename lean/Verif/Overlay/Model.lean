import Mathlib.Algebra.Order.Ring.Rat
import Mathlib.Algebra.Order.Field.Rat
import Verif.Common.Sort
/-! # Model of `visualization/id21_scanoverlap.py`: positions of point measurements on a map

A picture is an extent and a table of values; `imshow` with origin "lower" puts pixel `(r, c)` between
`y0 + r (y1 - y0)/nr` and `y0 + (r+1) (y1 - y0)/nr`, and likewise for the columns.
One of the three colours of the image is modelled, they are treated alike. -/
namespace SC.Overlay

structure Pic where
  x0 : Rat
  x1 : Rat
  y0 : Rat
  y1 : Rat
  nr : Nat
  nc : Nat
  img : Nat → Nat → Rat

structure Opt where
  transpose : Bool
  flipvert : Bool
  fliphor : Bool
  defaultorigin : Bool

/-- Picture and markers while `show` works. -/
abbrev State := Pic × List (Rat × Rat)

/-- `np.clip(x, 0, 1)`. -/
def clip (x : Rat) : Rat := max 0 (min 1 x)

/-- `np.argsort`, id21_scanoverlap.py:40 and 43. numpy's default sort is not stable; the
coordinates are distinct in every theorem. -/
def argsort (v : List Rat) : List Nat := Common.stableSort (fun i => v.getD i 0) (List.range v.length)

/-- `x[ind]`, id21_scanoverlap.py:41 and 44. -/
def sorted (v : List Rat) : List Rat := (argsort v).map fun i => v.getD i 0

/-- `np.linspace(x[0], x[-1], len(x))[i]` for at least two values, id21_scanoverlap.py:49-50. -/
def grid (x : List Rat) (i : Nat) : Rat :=
  x.getD 0 0 + i * ((x.getD (x.length - 1) 0 - x.getD 0 0) / (x.length - 1))

/-- The fitted surface `interp2d(x, y, z)` at a point; the fit itself is a parameter. -/
abbrev Interp := List Rat → List Rat → (Nat → Nat → Rat) → Rat → Rat → Rat

/-- Sorting, interpolation and extent, id21_scanoverlap.py:39-62. With less than two coordinates `xnew[1]`
raises (the fit itself needs at least four, which is not modelled). -/
def prepare (interp : Interp) (xs ys : List Rat) (img : Nat → Nat → Rat) : Option Pic :=
  if xs.length < 2 ∨ ys.length < 2 then none
  else
    let x := sorted xs
    let y := sorted ys
    let z := fun r c => img ((argsort ys).getD r 0) ((argsort xs).getD c 0)
    let dx := (grid x 1 - grid x 0) / 2
    let dy := (grid y 1 - grid y 0) / 2
    some { x0 := x.getD 0 0 - dx, x1 := x.getD (x.length - 1) 0 + dx,
           y0 := y.getD 0 0 - dy, y1 := y.getD (y.length - 1) 0 + dy,
           nr := ys.length, nc := xs.length,
           img := fun r c => clip (interp x y z (grid x c) (grid y r)) }

/-- id21_scanoverlap.py:64-69. -/
def transposeS (s : State) : State :=
  ({ x0 := s.1.y0, x1 := s.1.y1, y0 := s.1.x0, y1 := s.1.x1, nr := s.1.nc, nc := s.1.nr,
     img := fun r c => s.1.img c r },
   s.2.map fun p => (p.2, p.1))

/-- id21_scanoverlap.py:71-74. -/
def flipvertS (s : State) : State :=
  ({ s.1 with y0 := s.1.y1, y1 := s.1.y0, img := fun r c => s.1.img (s.1.nr - 1 - r) c }, s.2)

/-- id21_scanoverlap.py:76-79. -/
def fliphorS (s : State) : State :=
  ({ s.1 with x0 := s.1.x1, x1 := s.1.x0, img := fun r c => s.1.img r (s.1.nc - 1 - c) }, s.2)

/-- id21_scanoverlap.py:84-89 and 94. -/
def originX (s : State) : State :=
  if s.1.x1 < s.1.x0 then
    ({ s.1 with x0 := s.1.x1, x1 := s.1.x0 }, s.2.map fun p => (s.1.x1 + s.1.x0 - p.1, p.2))
  else s

/-- id21_scanoverlap.py:90-94. -/
def originY (s : State) : State :=
  if s.1.y1 < s.1.y0 then
    ({ s.1 with y0 := s.1.y1, y1 := s.1.y0 }, s.2.map fun p => (p.1, s.1.y1 + s.1.y0 - p.2))
  else s

/-- id21_scanoverlap.py:64-94. -/
def arrange (o : Opt) (s : State) : State :=
  let s := if o.transpose then transposeS s else s
  let s := if o.flipvert then flipvertS s else s
  let s := if o.fliphor then fliphorS s else s
  if o.defaultorigin then originY (originX s) else s

/-- `show` up to the drawing, id21_scanoverlap.py:10-94. -/
def showS (interp : Interp) (o : Opt) (xs ys : List Rat) (img : Nat → Nat → Rat) (marks : List (Rat × Rat)) : Option State :=
  (prepare interp xs ys img).map fun p => arrange o (p, marks)

/-- Offset, name of the scanned motor and factor of one dimension, with the names of the coarse and the fine
motor; none is the initial `0.0`, which is not an array. id21_scanoverlap.py:181-212. -/
def axisInfo (coarse fine : String) : List (String × Rat) → Option Rat × String × Rat → Option Rat × String × Rat
  | [], a => a
  | (f, v) :: l, a =>
    let a := if f = coarse then (some (v * 1000), fine, 1) else a
    let a := if f = fine then (some v, coarse, 1000) else a
    axisInfo coarse fine l a

/-- The axis in micron, id21_scanoverlap.py:218-219, for the fixed motors of the image that is shown and the
scanned values of a motor. `0.0[ind]` raises. -/
def axisValues (coarse fine : String) (fixed : List (String × Rat)) (scanned : String → Option (List Rat)) : Option (List Rat) :=
  match axisInfo coarse fine fixed (none, coarse, 1) with
  | (none, _, _) => none
  | (some off, name, mult) => (scanned name).map fun l => l.map fun v => off + v * mult

/-- Position of a point measurement along one dimension, id21_scanoverlap.py:266-267. -/
def position (coarse fine off : Rat) : Rat := coarse * 1000 + fine + off

/-- `min(dim)`. -/
def minimum : List Rat → Rat
  | [] => 0
  | a :: l => l.foldl min a

def maximum : List Rat → Rat
  | [] => 0
  | a :: l => l.foldl max a

/-- The shift that makes axes readable and the call of `show`, id21_scanoverlap.py:269-300. -/
def overlay (interp : Interp) (o : Opt) (dim1 dim2 : List Rat) (img : Nat → Nat → Rat) (marks : List (Rat × Rat)) : Option State :=
  let m1 := minimum dim1
  let m2 := minimum dim2
  showS interp o (dim2.map (· - m2)) (dim1.map (· - m1)) img (marks.map fun p => (p.1 - m2, p.2 - m1))

/-- The range of a colour, id21_scanoverlap.py:237-241. -/
def colourRange (lo hi : Rat) (img : List Rat) : Rat × Rat :=
  let mi := minimum img
  let ma := maximum img
  let d := ma - mi
  (mi + d * lo, ma - d * (1 - hi))

/-- The intensity of a value, id21_scanoverlap.py:242-244; a division by zero (infinite or not a number) is
none. -/
def intensity (lo hi : Rat) (img : List Rat) (v : Rat) : Option Rat :=
  let r := colourRange lo hi img
  if r.2 = 0 then none else some (clip ((v - r.1) / r.2))

end SC.Overlay
