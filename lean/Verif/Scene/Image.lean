import Verif.Scene.Model
import Verif.Common.Sort
import Verif.Axis.Model
/-! # Model of the images and intensities of a scene, `visualization/scene.py`, `visualization/scene_data.py`

Pixels are numbers; missing pixels (nan) are not modelled, except as values of channels that are not there. -/
namespace SC.Scene

/-! ## Channels -/

/-- The setting "channels": not given, one channel, a list (which can be extended in place), or a tuple or array. -/
inductive Chan
  | unset
  | one (i : Int)
  | list (l : List (Option Int))
  | fixed (l : List (Option Int))

/-- Image.channels, scene.py:602-620, for data with so many channels: the channels, and the setting after it (a list is
extended in place).  `range` and tuples have no `extend`. -/
def channels (depth : Nat) : Chan → Except Err (List (Option Int) × Chan)
  | .unset =>
    let n := min depth 3
    let l := (List.range n).map fun (i : Nat) => some (i : Int)
    if n = 1 then .ok (l.take 1, .unset) else if l.length < 3 then .error .attributeError else .ok (l.take 3, .unset)
  | .one i => .ok ([some i], .one i)
  | .list l =>
    if l.length = 1 then .ok (l, .list l)
    else if l.length < 3 then
      .ok (l ++ List.replicate (3 - l.length) none, .list (l ++ List.replicate (3 - l.length) none))
    else .ok (l.take 3, .list l)
  | .fixed l =>
    if l.length = 1 then .ok (l, .fixed l)
    else if l.length < 3 then .error .attributeError
    else .ok (l.take 3, .fixed l)

/-- The value of one pixel for a channel, scene.py:550-575: `flat` data have no axis of channels, `pix` are the values of
the pixel by channel.  Units of the colour bar are left out. -/
def pixel (flat : Bool) (pix : List ℚ) : Option Int → Except Err ℚ
  | none => .ok 0
  | some i =>
    if flat then (if i ≠ 0 then .error .indexError else match pix[0]? with | some v => .ok v | none => .error .indexError)
    else match pyget pix i with
      | some v => .ok v
      | none => .error .indexError

/-- Image.labels, scene.py:586-595: `none` for channels that are not used. -/
def chanLabels (labels : List Str) (l : List (Option Int)) : List (Option Str) :=
  l.map fun c => match c with
    | none => none
    | some i => some ((pyget labels i).getD ['<', 'e', 'm', 'p', 't', 'y', '>'])

/-! ## Intensities -/

/-- np.nanpercentile(img, 100 * p, interpolation="nearest"): the value at the rounded position among the sorted ones. -/
def percentile (l : List ℚ) (p : ℚ) : Option ℚ :=
  (SC.Common.stableSort id l)[(SC.Axis.roundEven (p * ((l.length : ℚ) - 1))).toNat]?

/-- Image.vminmax for one channel, scene.py:641-661: `ptrim` limited to 0 and 1. -/
def vminmax (img : List ℚ) (ptrim : ℚ) : Option (ℚ × ℚ) :=
  let p := max (min ptrim 1) 0
  match percentile img p, percentile img (1 - p) with
  | some a, some b => some (a, b)
  | _, _ => none

/-- selfscale for one channel, scene.py:682-690. -/
def selfscale (v : ℚ × ℚ) (pmin pmax : ℚ) : ℚ × ℚ := (v.1 + (v.2 - v.1) * pmin, v.1 + (v.2 - v.1) * pmax)

/-- _pminmaxparse for lists, scene.py:667-680: the list is cut or filled with zeros. -/
def pfill (p : List ℚ) (n : Nat) : List ℚ := if p.length < n then p ++ List.replicate (n - p.length) 0 else p.take n

/-- selfscale for all channels with lists, scene.py:682-690. -/
def selfscaleAll (v : List (ℚ × ℚ)) (pmin pmax : List ℚ) : List (ℚ × ℚ) :=
  List.zipWith (fun v (p : ℚ × ℚ) => selfscale v p.1 p.2) v ((pfill pmin v.length).zip (pfill pmax v.length))

/-- `np.nanmin(..., axis=0)` of one channel: the items that have it. -/
def optFold (f : ℚ → ℚ → ℚ) : List (Option ℚ) → Option ℚ
  | [] => none
  | none :: r => optFold f r
  | some x :: r => match optFold f r with
    | none => some x
    | some y => some (f x y)

/-- Scene.vminmax, scene.py:344-365: the limits by channel of each image. -/
def sceneVminmax (l : List (List (ℚ × ℚ))) : List (Option ℚ × Option ℚ) :=
  let n := (l.map List.length).foldl max 0
  (List.range n).map fun i => (optFold min (l.map fun v => (v[i]?).map Prod.fst), optFold max (l.map fun v => (v[i]?).map Prod.snd))

/-- The relative limits in scene_globalscaling for one channel, scenevis.py:35-51: `none` for not given.  The upper limit is
counted from the new lower limit; without a lower limit it is None plus a number. -/
def globalscaling (v : ℚ × ℚ) (rlo rhi : Option ℚ) : Except Err (Option ℚ × Option ℚ) :=
  match rlo, rhi with
  | none, none => .ok (none, none)
  | none, some _ => .error .typeError
  | some a, none => .ok (some (v.1 + (v.2 - v.1) * a), none)
  | some a, some b => .ok (some (v.1 + (v.2 - v.1) * a), some (v.1 + (v.2 - v.1) * a + (v.2 - v.1) * b))

/-- compositioncolor for one channel, scene.py:807-815: the value shown and the colour; limits that are equal divide by
zero (0 here). -/
def compcolor (c : ℚ) (lim : Option (ℚ × ℚ)) : ℚ × ℚ :=
  match lim with
  | none => (c, 0)
  | some (mi, ma) =>
    let k := max (min ((c - mi) / (ma - mi)) 1) 0
    (k * (ma - mi) + mi, k)

/-! ## Positions of pixels -/

/-- imshow with `extent` and `origin="lower"` (matplotlib): the centre of pixel i of n between two limits. -/
def pixelCentre (lim : ℚ × ℚ) (n i : Nat) : ℚ := lim.1 + ((i : ℚ) + 1 / 2) * ((lim.2 - lim.1) / n)

/-- datadisplay, scene.py:634-638: the data at a row and column of the display. -/
def displayed {α : Type} (transposed : Bool) (data : Nat → Nat → α) (row col : Nat) : α :=
  if transposed then data col row else data row col

/-- The number of columns (x) or rows of the display. -/
def displayCount (transposed : Bool) (n : Fin 2 → Nat) (x : Bool) : Nat :=
  if transposed then n (if x then 0 else 1) else n (if x then 1 else 0)

/-- bordercoord, scene.py:799-804 -/
def bordercoord (x y : ℚ × ℚ) : List (ℚ × ℚ) :=
  let x0 := min x.1 x.2
  let x1 := max x.1 x.2
  let y0 := min y.1 y.2
  let y1 := max y.1 y.2
  [(x0, y0), (x1, y0), (x1, y1), (x0, y1), (x0, y0)]

/-! ## What is plotted -/

/-- A plotted image: its pixels and limits. -/
structure Artist where
  data : List ℚ
  extent : ℚ × ℚ × ℚ × ℚ

/-- The image in updateview, scene.py:881-905: an existing one gets a new extent only. -/
def showImage (old : Option Artist) (data : List ℚ) (extent : ℚ × ℚ × ℚ × ℚ) : Artist :=
  match old with
  | some a => { a with extent := extent }
  | none => ⟨data, extent⟩

/-- Scatter.updatedata, scene.py:1192-1194: it calls the update of an image, which writes `lim`, not the coordinates. -/
def scatterUpdate (c : Fin 2 → List ℚ) (_new : Fin 2 → List ℚ) : Fin 2 → List ℚ := c

/-! ## Selection of images of a stack -/

/-- The loop of displaydata, scene_data.py:172-179: images with labels and channels so far; items are looked up with
Python's index. -/
def displayLoop {α : Type} (items : List (Str × α)) :
    List (Option Int) → List (Str × α) → List (Option Nat) → Except Err (List (Str × α) × List (Option Nat))
  | [], out, ch => .ok (out, ch)
  | none :: r, out, ch => displayLoop items r out (ch ++ [none])
  | some i :: r, out, ch => match pyget items i with
    | none => .error .indexError
    | some x => displayLoop items r (out ++ [x]) (ch ++ [some out.length])

/-- displaydata, scene_data.py:142-183: images, labels and channels. -/
def displaydata {α : Type} (items : List (Str × α)) (index : Option (List (Option Int))) :
    Except Err (List (Str × α) × List (Option Nat)) :=
  match index with
  | none => .ok (items, (List.range items.length).map some)
  | some l => displayLoop items l [] []

/-- XanesSpec.listoflists, scene_data.py:237-247: `none` is None, a list of numbers, or a list of lists. -/
inductive Nested
  | none
  | one (x : Nat)
  | flat (l : List Nat)
  | lists (l : List (List Nat))

/-- listoflists, scene_data.py:237-247 -/
def listoflists : Nested → List (List Nat)
  | .none => [[]]
  | .one x => [[x]]
  | .flat l => [l]
  | .lists [] => [[]]
  | .lists (a :: l) => a :: l

/-- XanesSpec.__iter__, scene_data.py:249-267: scan numbers and labels of every file; `all` gives the spectra of a file. -/
def xanes (all : Str → List Nat) (files : List Str) (numbers labels : Nested) : List (Str × List Nat × List Nat) :=
  ((files.zip ((listoflists numbers).zip (listoflists labels))).map fun p =>
    let n := if p.2.1 = [] then all p.1 else p.2.1
    (p.1, n, if p.2.2 = [] then n else p.2.2)).filter fun p => p.2.1 ≠ []

end SC.Scene
