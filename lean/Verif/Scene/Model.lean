import Mathlib.Algebra.Field.Rat
import Mathlib.Algebra.Order.Field.Rat
import Mathlib.Logic.Function.Basic
import Mathlib.Data.Fintype.Defs
import Verif.Py.Dict
/-! # Model of the coordinates of a scene, `visualization/scene.py`

Coordinates along a data axis are numbers in a base unit of that axis; a unit is its size in base units.  Images with a
single row or column have no border (division by zero in numpy) and are not modelled: the division gives 0 here, the
theorems ask for two rows or columns where it matters. -/
namespace SC.Scene

abbrev Str := List Char

/-- The data axis of a display axis, scene.py:58-72: `x` tells whether it is the X-axis (display axis 1). -/
def dataaxis (transposed x : Bool) : Fin 2 :=
  let displayaxis : Fin 2 := if x then 1 else 0
  if transposed then 1 - displayaxis else displayaxis

/-- The data of an item: an image (scene.py:529-543) with the first and last coordinate and the number of pixels along
each axis, or points (scene.py:1180-1190). -/
inductive Item
  | image (lim : Fin 2 → ℚ × ℚ) (n : Fin 2 → Nat)
  | points (c : Fin 2 → List ℚ)

/-- The attributes of a scene that concern coordinates, scene.py:88-104. -/
structure Scene where
  transposed : Bool
  increasing : Fin 2 → Bool
  units : Fin 2 → ℚ
  offset : Fin 2 → ℚ
  scale : Fin 2 → ℚ
  aspect : Option ℚ
  labels : Fin 2 → Str
  items : List Item

/-- Exceptions. -/
inductive Err
  | valueError | attributeError | indexError | typeError | runtimeError
  deriving DecidableEq

/-- Scene.__init__, scene.py:88-104 -/
def fresh (units : Fin 2 → ℚ) (items : List Item) : Scene :=
  ⟨false, fun _ => true, units, fun _ => 0, fun _ => 1, none,
   fun a => if a = 0 then ['D', 'i', 'm', '0'] else ['D', 'i', 'm', '1'], items⟩

/-- datatransform, scene.py:278-280 -/
def datatransform (s : Scene) (a : Fin 2) (x : ℚ) : ℚ := x * s.scale a - s.offset a

/-- `min(l), max(l)`: ValueError for an empty list. -/
def minmax : List ℚ → Except Err (ℚ × ℚ)
  | [] => .error .valueError
  | x :: l => .ok (l.foldl min x, l.foldl max x)

/-- Item.datarange without border, scene.py:728-734, 1196-1198 -/
def itemRange (s : Scene) (a : Fin 2) : Item → Except Err (ℚ × ℚ)
  | .image lim _ => .ok (datatransform s a (lim a).1, datatransform s a (lim a).2)
  | .points c => minmax ((c a).map (datatransform s a))

/-- Item.datalimx and datalimy, scene.py:511-517, 736-742: with half a pixel around an image. -/
def itemLim (s : Scene) (a : Fin 2) : Item → Except Err (ℚ × ℚ)
  | .image lim n =>
    let l := datatransform s a (lim a).1
    let h := datatransform s a (lim a).2
    let d := (h - l) / (2 * ((n a : ℚ) - 1))
    .ok (l - d, h + d)
  | .points c => minmax ((c a).map (datatransform s a))

/-- `[r for item in self for r in f(item)]` -/
def collect (f : Item → Except Err (ℚ × ℚ)) : List Item → Except Err (List ℚ)
  | [] => .ok []
  | i :: r => match f i, collect f r with
    | .ok p, .ok l => .ok (p.1 :: p.2 :: l)
    | .error e, _ => .error e
    | _, .error e => .error e

/-- Scene.datarange, scene.py:229-231 -/
def datarange (s : Scene) (a : Fin 2) : Except Err (ℚ × ℚ) :=
  match collect (itemRange s a) s.items with
  | .ok l => minmax l
  | .error e => .error e

/-- setdatarange, scene.py:233-240; a range of no size divides by zero (0 here). -/
def setdatarange (s : Scene) (a : Fin 2) (ran : ℚ × ℚ) : Except Err Scene :=
  let s := { s with offset := Function.update s.offset a 0, scale := Function.update s.scale a 1 }
  match datarange s a with
  | .error e => .error e
  | .ok org =>
    let scale := (ran.2 - ran.1) / (org.2 - org.1)
    .ok { s with offset := Function.update s.offset a (scale * org.1 - ran.1), scale := Function.update s.scale a scale }

/-- resetdatarange, scene.py:242-244: `[self.q0(0), self.q1(1)]` -/
def resetdatarange (s : Scene) : Scene :=
  { s with offset := fun a => if a = 0 then 0 else 1 * s.units 1, scale := fun _ => 1 }

/-- _flipaxis, scene.py:258-265 -/
def flipaxis (s : Scene) (a : Fin 2) (inc : Option Bool) : Except Err Scene :=
  let toggled := { s with increasing := Function.update s.increasing a (!s.increasing a) }
  match inc with
  | none => .ok toggled
  | some b =>
    if b = s.increasing a then
      match datarange s a with
      | .error e => .error e
      | .ok r => setdatarange s a (r.2, r.1)
    else .ok toggled

/-- flipx and flipy, scene.py:252-256 -/
def flip (s : Scene) (x : Bool) (inc : Option Bool) : Except Err Scene := flipaxis s (dataaxis s.transposed x) inc

/-- increasingx and increasingy, scene.py:246-250 -/
def setIncreasing (s : Scene) (x b : Bool) : Scene :=
  { s with increasing := Function.update s.increasing (dataaxis s.transposed x) b }

/-- origin, scene.py:267-268 -/
def origin (s : Scene) (a : Fin 2) (off : ℚ) : Scene :=
  { s with offset := Function.update s.offset a (off - s.offset a) }

/-- originreset, scene.py:270-272 -/
def originreset (s : Scene) : Scene := origin (origin s 0 0) 1 0

/-- originzero, scene.py:274-276 -/
def originzero (s : Scene) : Except Err Scene :=
  match datarange s 0 with
  | .error e => .error e
  | .ok r =>
    let s := origin s 0 r.1
    match datarange s 1 with
    | .error e => .error e
    | .ok r => .ok (origin s 1 r.1)

/-- displaylim, scene.py:282-286 -/
def displaylim (s : Scene) (a : Fin 2) (lim : List ℚ) : Except Err (ℚ × ℚ) :=
  match minmax lim with
  | .error e => .error e
  | .ok (l, h) => .ok (if s.increasing a then (l, h) else (h, l))

/-- displaylimx and displaylimy, scene.py:288-296 -/
def sceneLim (s : Scene) (x : Bool) : Except Err (ℚ × ℚ) :=
  let a := dataaxis s.transposed x
  match collect (itemLim s a) s.items with
  | .error e => .error e
  | .ok l => displaylim s a l

/-- aspectratio_data, scene.py:315-321; a width of zero divides by zero (0 here). -/
def aspectData (s : Scene) : Except Err ℚ :=
  match sceneLim s false, sceneLim s true with
  | .ok y, .ok x => .ok (|y.2 - y.1| / |x.2 - x.1|)
  | .error e, _ => .error e
  | _, .error e => .error e

/-- aspectcorrect, scene.py:298-302: `none` is no correction. -/
def aspectcorrect (s : Scene) : Except Err (Option ℚ) :=
  match s.aspect with
  | none => .ok none
  | some d => match aspectData s with
    | .ok r => .ok (some (d / r))
    | .error e => .error e

/-- xmagnitude and ymagnitude, scene.py:130-138: the number on the axis. -/
def magnitude (s : Scene) (x : Bool) (v : ℚ) : ℚ := v / s.units (dataaxis s.transposed x)

/-- xunit and yunit, scene.py:140-154 -/
def unit (s : Scene) (x : Bool) : ℚ := s.units (dataaxis s.transposed x)

/-- Their setters. -/
def setUnit (s : Scene) (x : Bool) (u : ℚ) : Scene :=
  { s with units := Function.update s.units (dataaxis s.transposed x) u }

/-- strxunit and stryunit, scene.py:156-162, for the texts of units: both take the X-axis. -/
def strunit (text : ℚ → Str) (s : Scene) (_x : Bool) : Str := text (s.units (dataaxis s.transposed true))

/-- _label, scene.py:172-177: the label with the unit between brackets. -/
def label (text : ℚ → Str) (s : Scene) (x : Bool) : Str :=
  let a := dataaxis s.transposed x
  let u := text (s.units a)
  if u ≠ [] ∧ s.labels a ≠ [] then s.labels a ++ ' ' :: '(' :: u ++ [')'] else s.labels a

/-- transpose, scene.py:207-208 -/
def transpose (s : Scene) (b : Bool) : Scene := { s with transposed := b }

/-- Parameters of scene_modifyaxes that are looked at, scenevis.py:17-32; False and None do the same for incx and incy in
the second branch, not in the first. -/
structure Axes where
  originzero : Bool
  transpose : Bool
  flipx : Bool
  incx : Option Bool
  flipy : Bool
  incy : Option Bool

/-- One axis in scene_modifyaxes, scenevis.py:22-29 -/
def modifyAxis (s : Scene) (x flip' : Bool) (inc : Option Bool) : Except Err Scene :=
  if flip' then flip s x inc
  else if inc = some true then .ok (setIncreasing s x true) else .ok s

/-- scene_modifyaxes without the aspect ratio, scenevis.py:17-32 -/
def modifyaxes (s : Scene) (p : Axes) : Except Err Scene :=
  match (if p.originzero then originzero s else .ok s) with
  | .error e => .error e
  | .ok s =>
    let s := if p.transpose then transpose s true else s
    match modifyAxis s true p.flipx p.incx with
    | .error e => .error e
    | .ok s => modifyAxis s false p.flipy p.incy

/-! ## Scenes and their items -/

/-- An item: the scenes it is registered with, each with the plotted objects by name, and the index of the selected
scene; −1 is the last one.  scene.py:414-521 -/
structure Reg where
  scenes : SC.Py.Dict Nat (SC.Py.Dict Str Nat)
  index : Int

/-- addscene, scene.py:479-481 -/
def addscene (r : Reg) (s : Nat) : Reg :=
  match SC.Py.Dict.get? r.scenes s with
  | some _ => r
  | none => { r with scenes := SC.Py.Dict.set r.scenes s [] }

/-- Python's `list(...)[index]`. -/
def pyget {α : Type} (l : List α) (i : Int) : Option α :=
  if 0 ≤ i then l[i.toNat]? else if 0 ≤ (l.length : Int) + i then l[((l.length : Int) + i).toNat]? else none

/-- Item.scene, scene.py:473-477: RuntimeError without scenes. -/
def activeScene (r : Reg) : Option Nat := pyget (r.scenes.map Prod.fst) r.index

/-- selectscene, scene.py:467-471: RuntimeError when the scene is not there. -/
def selectscene (r : Reg) (s : Nat) : Except Err Reg :=
  match (r.scenes.map Prod.fst).idxOf? s with
  | some i => .ok { r with index := i }
  | none => .error .runtimeError

/-- refreshscene, scene.py:496-506: the item after it, and the objects on which `remove` is called. -/
def refreshscene (r : Reg) (new : SC.Py.Dict Str Nat) : Except Err (Reg × List Nat) :=
  match activeScene r with
  | none => .error .runtimeError
  | some s =>
    let old := (SC.Py.Dict.get? r.scenes s).getD []
    .ok ({ r with scenes := SC.Py.Dict.set r.scenes s new },
      (old.filter fun p => SC.Py.Dict.get? new p.1 != some p.2).map Prod.snd)

end SC.Scene
