import Verif.Numpy.Index
import Mathlib.Algebra.Order.Ring.Unbundled.Rat
/-! # Model of the crop task (`process/nxcrop.py`) and of `RegularGrid.sliceinfo`

Arrays and their indexing are those of `Verif/Numpy/Index.lean`.  Pixels are rational numbers or NaN.
The stack dimension is a valid non-negative dimension.

Not modelled: the reference signal is chosen (nxregulargrid.py 46-66), HDF5. -/
namespace SC.Crop
open SC.Numpy SC.Py

/-- A pixel; `none` is NaN. -/
abbrev Px := Option Rat

/-- IEEE `==`: NaN equals nothing. -/
def ieeeEq : Px → Px → Bool
  | some a, some b => decide (a = b)
  | _, _ => false

/-- The parameter `nanval`: the object `np.nan`, or anything else (also another NaN object). -/
inductive NanVal where
  | npnan
  | value (v : Px)
deriving DecidableEq, Repr

/-- The test of a pixel, nxcrop.py 67-70 and 72-75. -/
def isBad (nv : NanVal) (x : Px) : Bool :=
  match nv with
  | .npnan => x.isNone
  | .value v => ieeeEq x v

/-- The index of `sliceinfo`, regulargrid.py 57-77. -/
def sliceItems (ndim sd i : Nat) : List Item :=
  if sd = 0 then [.int i, .ellipsis]
  else if sd = ndim - 1 then [.ellipsis, .int i]
  else List.replicate sd (.slice Slice.full) ++ [.int i] ++ List.replicate (ndim - 1 - sd) (.slice Slice.full)

/-- The shape of `sliceinfo`, regulargrid.py 62, 69, 77. -/
def sliceShape (shape : List Nat) (sd : Nat) : List Nat :=
  if sd = 0 then shape.drop 1
  else if sd = shape.length - 1 then shape.dropLast
  else shape.take sd ++ shape.drop (sd + 1)

/-- The mask computed image by image, nxcrop.py 62-70; `none`: an index is out of range. -/
def maskSliced (a : Arr Px) (sd : Nat) (nv : NanVal) : List Nat → (List Nat → Bool) → Option (List Nat → Bool)
  | [], m => some m
  | i :: is, m =>
    match npGet a (sliceItems a.shape.length sd i) with
    | none => none
    | some img => maskSliced a sd nv is (fun r => m r && !isBad nv (img.get r))

/-- The mask computed at once, nxcrop.py 71-75: no bad pixel along the stack dimension. -/
def maskWhole (a : Arr Px) (sd : Nat) (nv : NanVal) : List Nat → Bool := fun r =>
  decide (((List.range (a.shape.getD sd 0)).filter fun (k : Nat) => isBad nv (a.get (r.insertIdx sd k))).length = 0)

/-- All index tuples of a shape. -/
def allIdx : List Nat → List (List Nat)
  | [] => [[]]
  | n :: s => (List.range n).flatMap fun (i : Nat) => (allIdx s).map (i :: ·)

/-- `mask.sum(axis=sumdims)[j]` where `sumdims` are all dimensions but `d`, nxcrop.py 85-86. -/
def count (shape : List Nat) (mask : List Nat → Bool) (d j : Nat) : Nat :=
  ((allIdx shape).filter fun r => decide (r.getD d 0 = j) && mask r).length

/-- nxcrop.py 87-94; the outer `none`: np.max of nothing raises; the inner: no valid pixel. -/
def axisRoi (nanfull : Bool) (c : List Nat) : Option (Option (Nat × Nat)) :=
  if nanfull && decide (c = []) then none
  else
    let m := c.foldr max 0
    let flags := if nanfull && decide (m ≠ 0) then c.map (fun (x : Nat) => decide (x = m)) else c.map (fun (x : Nat) => decide (x ≠ 0))
    let ind := nonzeroFrom 0 flags
    match ind.head?, ind.getLast? with
    | some i, some j => some (some (i, j + 1))
    | _, _ => some none

/-- The loop over the dimensions of the grid, nxcrop.py 78-97; `im` is the next dimension of the
mask. -/
def roiLoop (mshape : List Nat) (mask : List Nat → Bool) (nanfull : Bool) (sd n : Nat) :
    List Nat → Nat → Option (Option (List (Nat × Nat)))
  | [], _ => some (some [])
  | g :: gs, im =>
    if g = sd then
      match roiLoop mshape mask nanfull sd n gs im with
      | some (some l) => some (some ((0, n) :: l))
      | r => r
    else
      match axisRoi nanfull ((List.range (mshape.getD im 0)).map fun (j : Nat) => count mshape mask im j) with
      | none => none
      | some none => some none
      | some (some ab) =>
        match roiLoop mshape mask nanfull sd n gs (im + 1) with
        | some (some l) => some (some (ab :: l))
        | r => r

/-- calccroproi, nxcrop.py 47-97; the outer `none`: an exception; the inner: None. -/
def calccroproi (a : Arr Px) (sd : Nat) (nv : NanVal) (nanfull sliced : Bool) : Option (Option (List (Nat × Nat))) :=
  let n := a.shape.getD sd 0
  if sliced then
    match maskSliced a sd nv (List.range n) (fun _ => true) with
    | none => none
    | some mask => roiLoop (sliceShape a.shape sd) mask nanfull sd n (List.range a.shape.length) 0
  else
    roiLoop (a.shape.eraseIdx sd) (maskWhole a sd nv) nanfull sd n (List.range a.shape.length) 0

/-- convertuserroi, nxcrop.py 99-112. -/
def convertuserroi (shape : List Nat) (sd : Nat) (roi : List (Int × Int)) : List (Int × Int) :=
  let full : Int × Int := (0, (shape.getD sd 0 : Nat))
  if sd ≤ roi.length then roi.insertIdx sd full else roi ++ [full]

/-- cropped_shape, nxcrop.py 29 -/
def croppedShape (roi : List (Int × Int)) : List Int := roi.map fun ab => ab.2 - ab.1

/-- indexin, nxcrop.py 30 -/
def indexin (roi : List (Int × Int)) : List Item := roi.map fun ab => .slice ⟨some ab.1, some ab.2, none⟩

/-- The signal is cropped at once, nxregulargrid.py 107-110. -/
def cropWhole {α : Type} (a : Arr α) (roi : List (Int × Int)) : Option (Arr α) := npGet a (indexin roi)

/-- One slice of a signal that is cropped slice by slice, nxregulargrid.py 101-105. -/
def cropSlice {α : Type} (a : Arr α) (roi : List (Int × Int)) (sd i : Nat) : Option (Arr α) :=
  npGet a ((indexin roi).set sd (.int i))

/-- `dsetout[indexout] = data`, nxregulargrid.py 105: only slice `i` of the stack dimension changes. -/
def writeSlice {α : Type} (out : Arr α) (sd i : Nat) (data : Arr α) : Arr α :=
  ⟨out.shape, fun r => if r.getD sd 0 = i then data.get (r.eraseIdx sd) else out.get r⟩

/-- The loop over the slices, nxregulargrid.py 101-105; `out` is the data set of `add_signal`, which
has the cropped shape; `none`: an index is out of range.  Not modelled: a data slice that does not fit
in the output raises. -/
def cropSliced {α : Type} (a : Arr α) (roi : List (Int × Int)) (sd : Nat) : List Nat → Arr α → Option (Arr α)
  | [], out => some out
  | i :: is, out =>
    match cropSlice a roi sd i with
    | none => none
    | some data => cropSliced a roi sd is (writeSlice out sd i data)

end SC.Crop
