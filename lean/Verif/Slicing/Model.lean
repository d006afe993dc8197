import Verif.Numpy.Index
/-! # Model of src/spectrocrunch/math/slicing.py

Simplified: the element size is a natural number of bytes (`calc_nbytes`, slicing.py:5-6); the
threshold is an exact rational number of megabytes and the comparison is exact (the code uses 64-bit
integers for the product and float64 for the division by 1024**2). -/
namespace SC.Slicing
open SC.Py SC.Numpy

/-- `numpy.cumprod(shape)`, multiplied by `acc`. -/
def cumprod (acc : Nat) : List Nat → List Nat
  | [] => []
  | n :: s => (acc * n) :: cumprod (acc * n) s

/-- Position of the last `true` (`numpy.where(b)[0][-1]`). -/
def lastTrue : List Bool → Option Nat
  | [] => none
  | b :: bs =>
    match lastTrue bs with
    | some k => some (k + 1)
    | none => if b then some 0 else none

/-- find_slice_axis (slicing.py:9-15). -/
def findSliceAxis (shape : List Nat) (nbytes : Nat) (mb : Rat) : Nat :=
  (lastTrue ((cumprod 1 shape).map fun c => decide (((c * nbytes : Nat) : Rat) / 1048576 ≤ mb))).getD 0

/-- `itertools.product(*choices)`. -/
def product {α : Type} : List (List α) → List (List α)
  | [] => [[]]
  | c :: cs => c.flatMap fun x => (product cs).map (x :: ·)

/-- `choices` of slice_generator (slicing.py:20-22). -/
def choices (shape : List Nat) (axis : Nat) : List (List Item) :=
  List.replicate (axis + 1) [Item.slice Slice.full] ++
    (shape.drop (axis + 1)).map fun n => (List.range n).map fun (k : Nat) => Item.int k

/-- slice_generator (slicing.py:18-24), read to its end. -/
def sliceGenerator (shape : List Nat) (nbytes : Nat) (mb : Rat) : List (List Item) :=
  product (choices shape (findSliceAxis shape nbytes mb))

end SC.Slicing
