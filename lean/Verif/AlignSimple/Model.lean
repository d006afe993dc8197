import Verif.Align.Model
import Verif.Center.Model
import Mathlib.Algebra.Order.Ring.Rat
/-! # Model of `align/alignSimple.py`

Images and translations are those of `Verif.Align.Model`: rational pixels or NaN (`none`). Exceptions are
`none`: ValueError of `np.nanargmax` when all pixels are NaN. Not modelled: `gaussmax` (a fit). The
centroid of an image in which NaN remains (that happens with `cval` other than NaN only) is not modelled
and also `none`. -/
namespace SC.AlignSimple
open SC.Align

/-- `self.cval`: `np.nan` or a number. -/
inductive CVal where
  | nan
  | num (c : Rat)
deriving DecidableEq

/-- `xytype`, alignSimple.py:88-115. -/
inductive Kind where
  | min | max | centroid
deriving DecidableEq

/-- `img2[missing] = newval`. -/
def replace (missing : Px → Bool) (newval : Px) (img : Img) : Img :=
  { img with get := fun y x => if missing (img.get y x) then newval else img.get y x }

/-- handle_missing, alignSimple.py:34-56; `newval` is NaN (`none`) or a number. With `cval = 0` nothing is
missing. -/
def handleMissing (cval : CVal) (newval : Px) (img : Img) : Img := match cval with
  | .nan => match newval with
    | none => img
    | some _ => replace (fun p => p.isNone) newval img
  | .num c =>
    if some c = newval then img
    else if c ≠ 0 then replace (fun p => p = some c) newval img
    else img

/-- `np.nanargmin` and `np.nanargmax` compare this way. -/
def beats (k : Kind) (a b : Rat) : Bool := if k = .min then decide (a < b) else decide (b < a)

/-- `np.nanargmin`, `np.nanargmax`: index and value of the first extreme number. -/
def argbest (k : Kind) : List Px → Option (Nat × Rat)
  | [] => none
  | none :: xs => (argbest k xs).map fun r => (r.1 + 1, r.2)
  | some a :: xs => match argbest k xs with
    | none => some (0, a)
    | some r => if beats k r.2 a then some (r.1 + 1, r.2) else some (0, a)

/-- `img.flatten()` -/
def flat (img : Img) : List Px :=
  (List.range (img.h * img.w)).map fun (k : Nat) => img.get ((k / img.w : Nat) : Int) ((k % img.w : Nat) : Int)

/-- `img.size in img.shape` -/
def isLine (img : Img) : Bool := decide (img.h * img.w = img.h ∨ img.h * img.w = img.w)

/-- fmin and fmax, center.py:6-17, followed by alignSimple.py:69-75: row and column. -/
def extreme (k : Kind) (img : Img) : Option (Rat × Rat) :=
  (argbest k (flat img)).map fun r =>
    if isLine img then
      if img.h = 1 then (0, (r.1 : Rat)) else ((r.1 : Rat), 0)
    else (((r.1 / img.w : Nat) : Rat), ((r.1 % img.w : Nat) : Rat))

/-- The pixels as numbers, when there is no NaN. -/
def numbers (img : Img) : Option (SC.Center.Grid Rat) :=
  if (List.range img.h).all (fun y => (List.range img.w).all fun x => (img.get y x).isSome) then
    some { ny := img.h, nx := img.w, v := fun i j => (img.get i j).getD 0 }
  else none

/-- fcentroid, center.py:99-100, followed by alignSimple.py:69-75: the two numbers in the order of the code. -/
def centroid (img : Img) : Option (Rat × Rat) :=
  (numbers img).bind fun g =>
    if isLine img then
      (SC.Center.fcentroid g.flat).map fun c => if img.h = 1 then (0, c) else (c, 0)
    else SC.Center.fcentroid2 g

/-- getxy, alignSimple.py:58-76: `np.array(yx)[::-1]`. -/
def getxy (cval : CVal) (k : Kind) (img : Img) : Option (Rat × Rat) :=
  let yx : Option (Rat × Rat) := match k with
    | .centroid => centroid (handleMissing cval (some 0) img)
    | k => extreme k (handleMissing cval none img)
  yx.map fun yx => (yx.2, yx.1)

/-- The pixel of `cval`. -/
def CVal.px : CVal → Px
  | .nan => none
  | .num c => some c

/-- The translation of execute_alignkernel, alignSimple.py:23-32, after set_reference with `ref`, 78-83:
`settranslation(movingxy - fixedxy)`. -/
def kernel (cval : CVal) (k : Kind) (ref img : Img) : Option Tr :=
  (getxy cval k ref).bind fun fixed => (getxy cval k img).map fun moving => (moving.1 - fixed.1, moving.2 - fixed.2)

/-- The image that execute_alignkernel returns, alignSimple.py:19-21 and 32; the identity leaves the image as
it is (transform.py:64-65). -/
def aligned (interp : Img → Rat → Rat → Px) (cval : CVal) (k : Kind) (ref img : Img) : Option Img :=
  (kernel cval k ref img).map fun t => if t = (0, 0) then img else shift interp cval.px t img

end SC.AlignSimple
