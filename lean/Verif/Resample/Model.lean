import Verif.Axis.Model
import Verif.Common.Sort
import Mathlib.Algebra.Field.Rat
import Mathlib.Algebra.Order.Field.Rat
/-! # Model of resampling on encoders, `process/nxresample.py` and `math/interpolate.py`

Numbers are exact and positions are in the units of their axis.  An array of any number of dimensions is a function of the
list of its indices.  Not modelled: scipy for splines of degree two and more and for scattered data in two and more
dimensions (a parameter below), missing values in data and encoders, HDF5. -/
namespace SC.Resample

open SC.Axis

/-- Exceptions; `axis` for those of process/axis.py. -/
inductive Err
  | valueError | attributeError | indexError | typeError | axis
  deriving DecidableEq

/-- An array by its indices. -/
abbrev Arr := List Nat → ℚ

/-- All indices of an array of this shape, in C-order. -/
def allIdx : List Nat → List (List Nat)
  | [] => [[]]
  | n :: r => (List.range n).flatMap fun (i : Nat) => (allIdx r).map (i :: ·)

/-! ## The grid -/

/-- np.min (`none`: ValueError of an empty array). -/
def minOf : List ℚ → Option ℚ
  | [] => none
  | x :: r => some (r.foldl min x)

/-- np.max -/
def maxOf : List ℚ → Option ℚ
  | [] => none
  | x :: r => some (r.foldl max x)

/-- The values of a signal at one index of a dimension, `dset[..., i, ...]`, nxresample.py:207, 227, 232. -/
def plane (shape : List Nat) (dim i : Nat) (signal : Arr) : List ℚ :=
  (allIdx (shape.set dim 1)).map fun m => signal (m.set dim i)

/-- Measured start or end, nxresample.py:216-236: smallest for the start of an increasing encoder and for the end of a
decreasing one, largest otherwise; the reverse when cropping. -/
def measured (crop increasing isend : Bool) (l : List ℚ) : Option ℚ :=
  if (crop != (increasing != isend)) then minOf l else maxOf l

/-- _encoder, nxresample.py:181-258: new motor positions, encoder positions, and offset; `first` and `last` are the
measured positions at both sides of the dimension (at 258 a number that is given as offset has no `to`). -/
def encoder (position : Ax) (res : ℚ) (given : Option ℚ) (crop : Bool) (first last : List ℚ) :
    Except Err (Ax × Option Ax × ℚ) :=
  match simplify 0 (position.values.map fun p => p * res + given.getD 0) with
  | none => .error .axis
  | some enc => match enc.start, enc.stop with
    | some s, some e => match measured crop (decide (s < e)) false first, measured crop (decide (s < e)) true last with
      | some a, some b =>
        let offset := given.getD ((a + b) / 2 - (s + e) / 2)
        match (if given.isNone then simplify 0 (enc.values.map (· + offset)) else some enc) with
        | none => .error .axis
        | some enc => match newlimits enc a b with
          | none => .error .axis
          | some none => .ok (position, none, offset)
          | some (some enc) => match simplify 0 (enc.values.map fun x => (x - offset) / res) with
            | none => .error .axis
            | some p => if given.isSome then .error .attributeError else .ok (p, some enc, offset)
      | _, _ => .error .valueError
    | _, _ => .error .axis

/-! ## Interpolation -/

/-- The line through two points. -/
def line (a b : ℚ × ℚ) (x : ℚ) : ℚ := a.2 + (b.2 - a.2) / (b.1 - a.1) * (x - a.1)

/-- scipy.interpolate.interp1d of sorted points, `kind="linear"`: the first interval that ends at or after the position. -/
def linearSeg : List (ℚ × ℚ) → ℚ → ℚ
  | a :: b :: c :: r, x => if x ≤ b.1 then line a b x else linearSeg (b :: c :: r) x
  | [a, b], x => line a b x
  | [a], _ => a.2
  | [], _ => 0

/-- scipy.interpolate.interp1d of sorted points, `kind="nearest"`: the first point whose border to the next is at or after
the position. -/
def nearestSeg : List (ℚ × ℚ) → ℚ → ℚ
  | a :: b :: r, x => if x ≤ (a.1 + b.1) / 2 then a.2 else nearestSeg (b :: r) x
  | [a], _ => a.2
  | [], _ => 0

/-- interp1d with `assume_sorted=False, fill_value=cval, bounds_error=False`, interpolate.py:156-164; `cval` is `none` for
nan. -/
def interp1d (seg : List (ℚ × ℚ) → ℚ → ℚ) (cval : Option ℚ) (pts : List (ℚ × ℚ)) (x : ℚ) : Option ℚ :=
  match minOf (pts.map Prod.fst), maxOf (pts.map Prod.fst) with
  | some lo, some hi => if x < lo ∨ hi < x then cval else some (seg (SC.Common.stableSort Prod.fst pts) x)
  | _, _ => cval

/-- Names of methods. -/
inductive Kind
  | nearest | linear | quadratic | cubic
  deriving DecidableEq

/-- Indexing of a Python list. -/
def pyIndex {α : Type} (l : List α) (i : Int) : Option α :=
  if i < 0 then (if 0 ≤ i + l.length then l[(i + l.length).toNat]? else none) else l[i.toNat]?

/-- The method for one dimension, interpolate.py:85, 154. -/
def kind1d (degree : Int) : Option Kind := pyIndex [.nearest, .linear, .quadratic, .cubic] (min degree 3)

/-- The method for scattered data, interpolate.py:166-174. -/
def kindnd (ndim : Nat) (degree : Int) : Option Kind :=
  if ndim = 2 then (pyIndex [some Kind.nearest, some .linear, none, some .cubic] (min degree 3)).map (·.getD .cubic)
  else if degree = 0 then some .nearest else some .linear

/-- What a method does in one dimension; splines are a parameter. -/
def segOf (spline : Kind → List (ℚ × ℚ) → ℚ → ℚ) : Kind → List (ℚ × ℚ) → ℚ → ℚ
  | .nearest => nearestSeg
  | .linear => linearSeg
  | k => spline k

/-! ## The task -/

/-- A dimension of the signals: its size, the encoder positions to interpolate on, and the encoder signal. -/
structure Dim where
  size : Nat
  enc : Option (List ℚ)
  signal : Option Arr

/-- resampled_shape, nxresample.py:88-93 -/
def Dim.out (d : Dim) : Nat := match d.enc with
  | none => d.size
  | some l => l.length

/-- An index in one dimension: a number or `:`. -/
inductive Sel
  | at (i : Nat)
  | all
  deriving DecidableEq

/-- _process_indices, nxresample.py:164-170 -/
def selections : List Dim → List (List Sel)
  | [] => [[]]
  | d :: r => match d.enc with
    | none => (List.range d.size).flatMap fun (i : Nat) => (selections r).map (.at i :: ·)
    | some _ => (selections r).map (.all :: ·)

/-- The index in the whole array of an element of the part that is selected. -/
def fill : List Sel → List Nat → List Nat
  | [], _ => []
  | .at i :: r, l => i :: fill r l
  | .all :: r, j :: l => j :: fill r l
  | .all :: r, [] => 0 :: fill r []

/-- `dset[index]` -/
def part (ix : List Sel) (a : Arr) : Arr := fun loc => a (fill ix loc)

/-- Number of dimensions of a selected part. -/
def rank (ix : List Sel) : Nat := (ix.filter fun s => s = .all).length

/-- The interpolation of the part of data at an index: `coords` are the encoder positions of all its elements, `dest` the
values to interpolate on, `shape` the shape of the part; gives the value for an element of the result. -/
abbrev Interp := (shape : List Nat) → (data : Arr) → (coords : List Arr) → (dest : List (List ℚ)) → List Nat → Option ℚ

/-- interpolate_irregular, interpolate.py:137-182, with `griddata` for scattered data. -/
def irregular (spline : Kind → List (ℚ × ℚ) → ℚ → ℚ) (griddata : Kind → Interp) (cval : Option ℚ) (degree : Int) (ndim : Nat)
    (shape : List Nat) (data : Arr) (coords : List Arr) (dest : List (List ℚ)) : Except Err (List Nat → Option ℚ) :=
  if coords.length ≠ ndim ∨ dest.length ≠ ndim then .error .valueError
  else if ndim = 1 then match kind1d degree with
    | none => .error .indexError
    | some k => .ok fun loc => interp1d (segOf spline k) cval
        ((List.range (shape.headD 0)).map fun (i : Nat) => ((coords.headD fun _ => 0) [i], data [i])) ((dest.headD []).getD (loc.headD 0) 0)
  else match kindnd ndim degree with
    | none => .error .indexError
    | some k => .ok (griddata k shape data coords dest)

/-- _process_data, nxresample.py:172-179, for the part at an index. -/
def processData (interp : Nat → List Nat → Arr → List Arr → List (List ℚ) → Except Err (List Nat → Option ℚ)) (dims : List Dim)
    (ix : List Sel) (data : Arr) : Except Err (List Nat → Option ℚ) :=
  let signals := dims.filterMap (·.signal)
  if signals = [] then .ok fun loc => some (part ix data loc)
  else interp (rank ix) ((dims.filter (·.enc.isSome)).map (·.size)) (part ix data) (signals.map (part ix)) (dims.filterMap (·.enc))

/-- The loop of _execute_grid, nxresample.py:146-149, for one signal: what is written at which index. -/
def writes (interp : Nat → List Nat → Arr → List Arr → List (List ℚ) → Except Err (List Nat → Option ℚ)) (dims : List Dim)
    (data : Arr) : List (List Sel) → Except Err (List (List Nat × Option ℚ))
  | [] => .ok []
  | ix :: r => match processData interp dims ix data with
    | .error e => .error e
    | .ok f => match writes interp dims data r with
      | .error e => .error e
      | .ok l => .ok ((allIdx (dims.filterMap fun d => d.enc.map List.length)).map (fun loc => (fill ix loc, f loc)) ++ l)

/-! ## Steps -/

/-- The result of a function of arrays. -/
inductive Out
  | number (q : Option ℚ)
  | mapObject

/-- interp1d_floor, `pointwise`, interpolate.py:28-33: the last one that is not larger. -/
def floorAt (pts : List (ℚ × ℚ)) (x : ℚ) : Option ℚ := ((pts.filter fun p => decide (p.1 ≤ x)).getLast?).map Prod.snd

/-- interp1d_ceil, `pointwise`, interpolate.py:45-50: the first one that is not smaller. -/
def ceilAt (pts : List (ℚ × ℚ)) (x : ℚ) : Option ℚ := ((pts.filter fun p => decide (x ≤ p.1)).head?).map Prod.snd

/-- An argument: one number or many. -/
inductive Arg
  | scalar (x : ℚ)
  | array (l : List ℚ)

/-- ufunclike, interpolate.py:35-39, 52-56: `array(map(...))` of an array holds the `map` itself; of a number raises
TypeError, which is caught. -/
def stepCall (pointwise : ℚ → Option ℚ) : Arg → Out
  | .scalar x => .number (pointwise x)
  | .array _ => .mapObject

/-- ufunclike of extrap1d, interpolate.py:21-22: TypeError of a number is not caught. -/
def extrapCall : Arg → Except Err Out
  | .scalar _ => .error .typeError
  | .array _ => .ok .mapObject

/-- extrap1d, `pointwise`, interpolate.py:13-19: first and last two points outside; `none`: IndexError. -/
def extrapAt (interp : ℚ → ℚ) : List (ℚ × ℚ) → ℚ → Option ℚ
  | a :: b :: r, x =>
    let z := (a :: b :: r).reverse
    match z with
    | e :: d :: _ =>
      if x < a.1 then some (a.2 + (x - a.1) * (b.2 - a.2) / (b.1 - a.1))
      else if e.1 < x then some (e.2 + (x - e.1) * (e.2 - d.2) / (e.1 - d.1))
      else some (interp x)
    | _ => none
  | _, _ => none

end SC.Resample
