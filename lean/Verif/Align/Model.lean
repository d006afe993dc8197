import Verif.Py.Basic
import Mathlib.Data.Rat.Floor
/-! # Model of the pad/crop bookkeeping of `align/align.py` for translations

A transformation is a translation `(tx, ty)` (rational numbers, `align.transfotype` is
`translation`, the default).  Pixels are rational numbers or NaN (`none`).

Trusted: shapely (the bounds of a union are the extreme bounds; two rectangles with parallel sides,
possibly degenerate, intersect in the rectangle of the overlapping intervals; `area`/`length` vanish
exactly when nothing or a point is left); `np.pad`, slicing; `scipy.ndimage.shift` with `order=1,
mode="constant"` (output pixel `o` samples the input at `o - s`; outside the input the result is
`cval`; at a pixel it is that pixel; between pixels it is some function `interp` of the input and the point).

Not modelled: the alignment kernels (an arbitrary translation comes out), pre-transformations
(`prealigntransfo`), transformations other than translations, plotting. -/
namespace SC.Align
open SC.Py

/-- A pixel; `none` is NaN. -/
abbrev Px := Option Rat

/-- An image: shape and pixels. -/
structure Img where
  h : Nat
  w : Nat
  get : Int → Int → Px

/-- A translation `(tx, ty)`. -/
abbrev Tr := Rat × Rat

/-- `self.extend` and the flags, align.py 62-66; `imgsize` of the source. -/
structure St where
  imgsize : Nat × Nat
  /-- `extend[0]`: rows -/
  e1 : Int × Int
  /-- `extend[1]`: columns -/
  e2 : Int × Int
  pad : Bool
  crop : Bool
deriving DecidableEq, Repr

/-- The constructor, align.py 62-66. -/
def init (imgsize : Nat × Nat) : St := ⟨imgsize, (0, 0), (0, 0), false, false⟩

/-! ## padding and cropping -/

/-- padfromextend, align.py 117-121 (one axis) -/
def padOf (e : Int × Int) : Nat × Nat := ((max e.1 0).toNat, (max e.2 0).toNat)

/-- cropfromextend, align.py 123-127 (one axis) -/
def cropOf (e : Int × Int) (dim : Nat) : Int × Int := (max (-e.1) 0, dim - max (-e.2) 0)

/-- pad, align.py 129-135 -/
def pad (cval : Px) (s : St) (img : Img) : Img :=
  let p1 := padOf s.e1
  let p2 := padOf s.e2
  if p1.1 = 0 ∧ p1.2 = 0 ∧ p2.1 = 0 ∧ p2.2 = 0 then img
  else
    { h := p1.1 + img.h + p1.2, w := p2.1 + img.w + p2.2,
      get := fun y x =>
        if (p1.1 : Int) ≤ y ∧ y < p1.1 + img.h ∧ (p2.1 : Int) ≤ x ∧ x < p2.1 + img.w then
          img.get (y - p1.1) (x - p2.1)
        else cval }

/-- First position and number of positions of `seq[a:b]`. -/
def sl (n : Nat) (a b : Int) : Int × Nat :=
  let lo := clampBound n 0 n a
  let hi := clampBound n 0 n b
  (lo, (hi - lo).toNat)

/-- crop, align.py 137-149 -/
def crop (s : St) (img : Img) : Img :=
  let c1 := cropOf s.e1 img.h
  let c2 := cropOf s.e2 img.w
  if c1.1 ≠ 0 ∨ c2.1 ≠ 0 ∨ c1.2 ≠ img.h ∨ c2.2 ≠ img.w then
    let r1 := sl img.h c1.1 c1.2
    let r2 := sl img.w c2.1 c2.2
    { h := r1.2, w := r2.2, get := fun y x => img.get (y + r1.1) (x + r2.1) }
  else img

/-- A rational number is an integer. -/
def isInt (q : Rat) : Bool := decide (q.den = 1)

/-- transformimage for a translation, transform.py:62-71 (`scipy.ndimage.shift`). -/
def shift (interp : Img → Rat → Rat → Px) (cval : Px) (t : Tr) (img : Img) : Img :=
  { img with get := fun y x =>
      let py : Rat := y - -t.2
      let px : Rat := x - -t.1
      if py < 0 ∨ (img.h : Rat) - 1 < py ∨ px < 0 ∨ (img.w : Rat) - 1 < px then cval
      else if isInt py && isInt px then img.get py.floor px.floor
      else interp img py px }

/-- new_frame of a translation by a translation, transform.py:390-391. -/
def newFrame (a c : Tr) : Tr := (-c.1 + a.1 + c.1, -c.2 + a.2 + c.2)

/-- execute_transform, align.py 324-344; `c` is `prealign_to_pretransform[i]`. -/
def executeTransform (interp : Img → Rat → Rat → Px) (cval : Px) (c t : Tr) (img : Img) : Img :=
  let t := if c = (0, 0) then t else newFrame t c
  if t = (0, 0) then img else shift interp cval t img

/-- nopre_transform, align.py 200-207 -/
def nopreTransform (s : St) : Bool :=
  decide (s.e1.1 ≤ 0) && decide (s.e1.2 ≤ 0) && decide (s.e2.1 ≤ 0) && decide (s.e2.2 ≤ 0)

/-- pureidentity, align.py 352-360 -/
def pureidentity (s : St) (t : Tr) : Bool := nopreTransform s && !s.crop && decide (t = (0, 0))

/-- transform, align.py 362-381 (dopre_transform 209-217, dopost_transform) -/
def transform (interp : Img → Rat → Rat → Px) (cval : Px) (s : St) (c t : Tr) (img : Img) : Img :=
  if pureidentity s t then img
  else
    let img := if s.pad then pad cval s img else img
    let img := executeTransform interp cval c t img
    if s.crop then crop s img else img

/-! ## the extension -/

/-- One side of the polygon of a transformed image, align.py 433-461 with
`transformcoordinates` (transform.py:411-417, 430-435): the corners 0 and `n - 1` minus the translation. -/
def span (n : Nat) (t : Rat) : Rat × Rat := (0 + -t, ((n : Rat) - 1) + -t)

/-- Bounds of `p.union(q)` -/
def unionB (a b : Rat × Rat) : Rat × Rat := (min a.1 b.1, max a.2 b.2)
/-- Bounds of `p.intersection(q)` (empty when the bounds are reversed) -/
def interB (a b : Rat × Rat) : Rat × Rat := (max a.1 b.1, min a.2 b.2)

/-- polygonempty, align.py 415-419, of the rectangle with these sides -/
def rectEmpty (x y : Rat × Rat) : Bool :=
  decide (x.2 < x.1) || decide (y.2 < y.1) || (decide (x.1 = x.2) && decide (y.1 = y.2))

/-- The result of `polygoncollectionbounds`. -/
inductive Bounds where
  /-- `ps[0]` of an empty list: IndexError -/
  | error
  /-- `()` -/
  | nothing
  | box (xmin ymin xmax ymax : Int)
deriving DecidableEq, Repr

/-- The bounds as floating point numbers, align.py 465-476: `(x, y)`. -/
def rawBounds (size : Nat × Nat) (padReq : Bool) (t : Tr) (ts : List Tr) : (Rat × Rat) × (Rat × Rat) :=
  let op := if padReq then unionB else interB
  (ts.foldl (fun b (t : Tr) => op b (span size.2 t.1)) (span size.2 t.1),
   ts.foldl (fun b (t : Tr) => op b (span size.1 t.2)) (span size.1 t.2))

/-- polygoncollectionbounds, align.py 464-484 -/
def polygoncollectionbounds (size : Nat × Nat) (padReq : Bool) : List Tr → Bounds
  | [] => .error
  | t :: ts =>
    let b := rawBounds size padReq t ts
    if !padReq && rectEmpty b.1 b.2 then .nothing
    else .box ⌊b.1.1⌋ ⌊b.2.1⌋ ⌈b.1.2⌉ ⌈b.2.2⌉

/-- setextend, align.py 515-523 -/
def setextend (s : St) (xmin ymin xmax ymax : Int) : St :=
  let o1min := -ymin
  let o1max := ymax - s.imgsize.1 + 1
  let o2min := -xmin
  let o2max := xmax - s.imgsize.2 + 1
  { s with
    e1 := (o1min, o1max), e2 := (o2min, o2max),
    pad := decide (0 < o1min) || decide (0 < o1max) || decide (0 < o2min) || decide (0 < o2max),
    crop := decide (o1min < 0) || decide (o1max < 0) || decide (o2min < 0) || decide (o2max < 0) }

/-- extendfromtransformation, align.py 525-535; `cof_in_raw_frame` (258-264) is the translation in
the frame of `prealign_to_raw[i]` (`cs`). -/
def extendfromtransformation (s : St) (padReq : Bool) (ts : List Tr) : Option St :=
  match polygoncollectionbounds s.imgsize padReq ts with
  | .error => none
  | .nothing => some { s with e1 := (0, 0), e2 := (0, 0), pad := false, crop := false }
  | .box xmin ymin xmax ymax => some (setextend { s with e1 := (0, 0), e2 := (0, 0) } xmin ymin xmax ymax)

/-- cof_in_raw_frame, align.py 258-264, for all images: the translation of the region of interest
is the same for every image (calccof_prealign_to_raw, 274-297). -/
def rawFrame (c : Tr) (ts : List Tr) : List Tr := ts.map fun t => if c = (0, 0) then t else newFrame t c

/-- Indices of the non-zero entries, `np.argwhere` of a one-dimensional array. -/
def validIdx (n : Nat) (p : Nat → Bool) : List Nat := (List.range n).filter p

/-- extendfrommask, align.py 559-568, with the mask `(mh, mw)`, `mask`; `none`: IndexError. -/
def extendfrommask (s : St) (mh mw : Nat) (mask : Nat → Nat → Bool) : Option St :=
  let rows := validIdx mh fun y => (List.range mw).any fun x => mask y x
  let cols := validIdx mw fun x => (List.range mh).any fun y => mask y x
  match rows.head?, rows.getLast?, cols.head?, cols.getLast? with
  | some r0, some r1, some c0, some c1 =>
    some (setextend s c0 r0 ((c1 : Int) - mw + s.imgsize.2) ((r1 : Int) - mh + s.imgsize.1))
  | _, _, _, _ => none

/-- setextendmask, align.py 548-557: the pixels that are not NaN in every aligned image. -/
def maskOf (imgs : List Img) : Nat → Nat → Bool := fun y x => imgs.all fun i => (i.get y x).isSome

/-- minimaltransformation, align.py 486-513 with `centroids=False`; `p0.bounds` is
`(0, 0, w - 1, h - 1)`. -/
def minimaltransformation (size : Nat × Nat) (raw ts : List Tr) : Option (List Tr) :=
  match polygoncollectionbounds size true raw with
  | .box xmin ymin xmax ymax =>
    let x0 : Rat := (0 + ((size.2 : Rat) - 1)) / 2
    let y0 : Rat := (0 + ((size.1 : Rat) - 1)) / 2
    let x : Rat := ((xmin : Rat) + xmax) / 2
    let y : Rat := ((ymin : Rat) + ymax) / 2
    some (ts.map fun t => (t.1 + (x - x0), t.2 + (y - y0)))
  | _ => none

/-- parsetransformation_beforeapplication, align.py 570-592, when the extension does not come from the
mask: the state and the translations. -/
def parseTransformation (s : St) (padReq cropReq : Bool) (c : Tr) (ts : List Tr) : Option (St × List Tr) :=
  if padReq || cropReq then (extendfromtransformation s padReq (rawFrame c ts)).map fun s => (s, ts)
  else (minimaltransformation s.imgsize (rawFrame c ts) ts).map fun ts => (s, ts)

/-- bextendfrommask, align.py 537-546 (translations). -/
def bextendfrommask (cropReq cvalIsNan pairwise : Bool) : Bool := cropReq && cvalIsNan && !pairwise

/-! ## the sizes and the axes -/

/-- dest_imgsize, align.py 694-701 (`nopost=False`, as in its only use) -/
def destImgsize (s : St) : Int × Int :=
  if s.pad || s.crop then
    ((s.imgsize.1 : Int) + s.e1.1 + s.e1.2, (s.imgsize.2 : Int) + s.e2.1 + s.e2.2)
  else (s.imgsize.1, s.imgsize.2)

/-- `v[a:b] = vals`; `none`: the shapes do not match (a single value is broadcast). -/
def setSlice (v : List (Option Rat)) (a b : Int) (vals : List Rat) : Option (List (Option Rat)) :=
  let r := sl v.length a b
  if vals.length = r.2 ∨ vals.length = 1 then
    some ((List.range v.length).map fun (k : Nat) =>
      if r.1 ≤ (k : Int) ∧ (k : Int) < r.1 + r.2 then
        (if vals.length = r.2 then vals[k - r.1.toNat]? else vals[0]?)
      else v.getD k none)
  else none

/-- `v[a:b]` -/
def getSlice (v : List Rat) (a b : Int) : List Rat :=
  let r := sl v.length a b
  (v.drop r.1.toNat).take r.2

/-- `start + delta * np.arange(n)` -/
def arange (start delta : Rat) (n : Nat) : List Rat := (List.range n).map fun (k : Nat) => start + delta * k

/-- The values before the first value of the axis, align.py 630-634. -/
def leftPart (ax : List Rat) (nleft : Int) (newaxis : List (Option Rat)) : Option (List (Option Rat)) :=
  if 0 < nleft then
    match ax[1]?, ax[0]? with
    | some a1, some a0 => setSlice newaxis 0 nleft (arange (a0 - (a1 - a0) * nleft) (a1 - a0) nleft.toNat)
    | _, _ => none
  else some newaxis

/-- One axis of transform_axes, align.py 615-643: the entries of `np.empty` are `none` until they
are assigned; the result `none`: an exception. -/
def newAxis (ax : List Rat) (nleft nright : Int) : Option (List (Option Rat)) :=
  let naxis : Int := ax.length
  if naxis + nleft + nright < 0 then none
  else
    let newaxis : List (Option Rat) := List.replicate (naxis + nleft + nright).toNat none
    let axis0 : Int := if nleft < 0 then 0 - nleft else 0
    let off0 : Int := if nleft < 0 then 0 else 0 + nleft
    let axisn : Int := if nright < 0 then naxis + nright else naxis
    let offn : Int := off0 + axisn - axis0
    (leftPart ax nleft newaxis).bind fun v =>
    (setSlice v off0 offn (getSlice ax axis0 axisn)).bind fun v =>
    if 0 < nright then
      match normIdx ax.length (-1), normIdx ax.length (-2) with
      | some i1, some i2 =>
        match ax[i1]?, ax[i2]? with
        | some b1, some b2 => setSlice v offn v.length (arange (b1 + (b1 - b2)) (b1 - b2) nright.toNat)
        | _, _ => none
      | _, _ => none
    else some v

/-- The two image dimensions, align.py 605-610 -/
def imageDims (stackdim : Nat) : Nat × Nat :=
  if stackdim = 2 then (0, 1) else if stackdim = 1 then (0, 2) else (1, 2)

/-- transform_axes, align.py 594-644; the values of the axes that were not computed are `some`. -/
def transformAxes (s : St) (stackdim : Nat) (axes : List (List Rat)) : Option (List (List (Option Rat))) :=
  let out := axes.map fun (a : List Rat) => a.map some
  if !s.pad && !s.crop then some out
  else
    let d := imageDims stackdim
    match axes[d.1]?, axes[d.2]? with
    | some a1, some a2 =>
      (newAxis a1 s.e1.1 s.e1.2).bind fun n1 =>
      (newAxis a2 s.e2.1 s.e2.2).bind fun n2 =>
      some ((out.set d.1 n1).set d.2 n2)
    | _, _ => none

/-! ## the translations of a stack -/

/-- The loop of doalign, align.py 741-790 with store_transformation (385-399): `ks i` is the
translation found by the kernel for image `i` (relative to the previous image for pairwise alignment
on raw images, to the reference otherwise).  `iref` is `refimageindex`, which may be negative, or for
pairwise alignment 0 and then the previous image.  The translations of the first `n` images. -/
def storeLoop (pairwise onraw : Bool) (iref0 : Int) (ks : Nat → Tr) : Nat → List Tr
  | 0 => []
  | i + 1 =>
    let ts := storeLoop pairwise onraw iref0 ks i
    let iref : Int := if pairwise then ((i - 1 : Nat) : Int) else iref0
    let t : Tr :=
      if (i : Int) = iref then (0, 0)
      else if pairwise && decide (i ≠ 0) && onraw then
        let p := ts.getD (i - 1) (0, 0)
        (p.1 + (ks i).1, p.2 + (ks i).2)
      else ks i
    ts ++ [t]

/-- A call of `align`, align.py 841-900 (`redo=False`). -/
structure Call where
  padReq : Bool
  cropReq : Bool
  pairwise : Bool
  onraw : Bool
  /-- `roi`, `rawcalc` or `prealigntransfo` is given -/
  other : Bool
  /-- the translation to the region of interest (`(0, 0)` without) -/
  c : Tr
  refindex : Int
  nimages : Nat
  ks : Nat → Tr
  cvalIsNan : Bool
  /-- the mask of the aligned images -/
  mh : Nat
  mw : Nat
  mask : Nat → Nat → Bool

/-- The translations found by a call. -/
def Call.ts (k : Call) : List Tr := storeLoop k.pairwise (if k.pairwise then k.onraw else true) k.refindex k.ks k.nimages

/-- The state and translations with which the images are transformed, align.py 873-900; `none`: an
exception. -/
def alignCall (s : St) (k : Call) : Option (St × List Tr) :=
  let s := { s with pad := k.padReq, crop := k.cropReq }
  if k.other || k.padReq || k.cropReq then
    if bextendfrommask k.cropReq k.cvalIsNan k.pairwise then
      (extendfrommask s k.mh k.mw k.mask).map fun s => (s, k.ts)
    else parseTransformation s k.padReq k.cropReq k.c k.ts
  else some (s, k.ts)

/-- Several calls on one object. -/
def alignCalls (s : St) : List Call → Option (St × List Tr)
  | [] => none
  | [k] => alignCall s k
  | k :: ks => (alignCall s k).bind fun r => alignCalls r.1 ks

end SC.Align
