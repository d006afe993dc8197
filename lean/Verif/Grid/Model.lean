import Verif.Crop.Model
import Verif.NXdata.Model
import Verif.Xia.Model
import Mathlib.Algebra.Order.AbsoluteValue.Basic
/-! # Model of result groups, regular grids and the tasks on them

`process/nxresult.py`, `process/regulargrid.py`, `process/h5regulargrid.py`, `process/nxregulargrid.py`,
`process/nxcrop.py` (its indices and axes), `process/nxreplace.py`, `process/nxminlog.py` and the choice
of a reference in `process/nxalign.py`.

Arrays and their indexing are those of `Verif/Numpy/Index.lean`; the attributes of an NXdata group are
those of `Verif/NXdata/Model.lean`.  Exceptions are `none`.

Not modelled: HDF5, units and titles of axes (values are rational numbers in one unit), NaN on axes,
the dtype of the output, chunks, unicode digits and underscores in the number of a group, results of a
slice that only fit after broadcasting (they raise here). -/
namespace SC.Grid
open SC.Numpy SC.Py SC.Naming
open SC.Xia (pyInt strInt)

/-! ## names of groups (nxresult.py) -/

/-- `Group`, nxresult.py 46-48. -/
structure Grp where
  name : Str
  number : Int
  category : Int
deriving DecidableEq, Repr

/-- What a group can be made from. -/
inductive GName where
  | num (n : Int)
  | str (s : Str)
  | group (g : Grp)
  | none
  /-- anything else -/
  | other (truthy : Bool)
deriving DecidableEq, Repr

/-- `"{:02d}".format(n)` -/
def fmt02 (n : Int) : Str := if 0 ≤ n then pad 2 n.toNat else '-' :: pad 1 n.natAbs

/-- `s in t` -/
def hasSub (s : Str) : Str → Bool
  | [] => s.isPrefixOf []
  | c :: t => s.isPrefixOf (c :: t) || hasSub s t

/-- `str.isdigit` -/
def isdigit (s : Str) : Bool := !s.isEmpty && s.all Char.isDigit

/-- A blank of `int(text)`. -/
def blank (c : Char) : Bool := c = ' ' || c = '\t' || c = '\n' || c = '\r'

/-- `text.strip()` -/
def strip (s : Str) : Str := ((s.dropWhile blank).reverse.dropWhile blank).reverse

/-- `int(text)`; `none`: ValueError. -/
def intOf (s : Str) : Option Int :=
  match strip s with
  | '-' :: t => if isdigit t then some (-(pyInt t)) else none
  | '+' :: t => if isdigit t then some (pyInt t) else none
  | t => if isdigit t then some (pyInt t) else none

/-- `if s.startswith(p): s = s[len(p):]` -/
def dropPrefix (p s : Str) : Str := if p.isPrefixOf s then s.drop p.length else s

/-- "counters", nxresult.py 11-13. -/
def counters : Grp := ⟨['c', 'o', 'u', 'n', 't', 'e', 'r', 's'], -1, -1⟩

/-- The group of a text, nxresult.py 19-37. -/
def grpOfStr (s : Str) : Option Grp :=
  let s := dropPrefix ['d', 'e', 't', 'e', 'c', 't', 'o', 'r'] (dropPrefix ['x', 'i', 'a'] s)
  if isdigit s then some ⟨['d', 'e', 't', 'e', 'c', 't', 'o', 'r'] ++ fmt02 (pyInt s), pyInt s, 0⟩
  else if ['S'].isPrefixOf s then
    match intOf (s.drop 1) with
    | none => none
    | some n => some ⟨['d', 'e', 't', 'e', 'c', 't', 'o', 'r', 'S'] ++ strInt n, n, 1⟩
  else if [['p', 'a', 'r', 'a', 'm', 'e', 't', 'e', 'r', 's'], ['c', 'o', 'n', 'c', 'e', 'n', 't', 'r', 'a', 't', 'i', 'o', 'n', 's']].any fun p => hasSub p s then some ⟨s, -1, 0⟩
  else if s ≠ [] then some ⟨s, -1, -1⟩
  else some counters

/-- `Group.__init__`, nxresult.py 10-48; `none`: ValueError. -/
def grpOf : GName → Option Grp
  | .num n => some ⟨['d', 'e', 't', 'e', 'c', 't', 'o', 'r'] ++ fmt02 n, n, 0⟩
  | .str s => grpOfStr s
  | .group g => some g
  | .none => some counters
  | .other truthy => if truthy then none else some counters

/-- `xialabel`, nxresult.py 65-72. -/
def xialabel (g : Grp) : Option Str :=
  if g.category = 0 then some (['x', 'i', 'a'] ++ fmt02 g.number)
  else if g.category = 1 then some (['x', 'i', 'a', 'S'] ++ strInt g.number)
  else none

/-! ## grids -/

/-- An axis: its values and the precision of comparisons. -/
structure Ax where
  name : Str
  vals : List Rat
  prec : Rat
deriving DecidableEq, Repr

/-- `Axis.__eq__`, axis.py 205-226: names do not count. -/
def axEq (a b : Ax) : Bool :=
  decide (a.vals.length = b.vals.length) && (a.vals.zip b.vals).all fun xy => decide (|xy.1 - xy.2| ≤ a.prec)

/-- `axes == axs` of two lists, nxresult.py 120. -/
def axesEq (a b : List Ax) : Bool := decide (a.length = b.length) && (a.zip b).all fun xy => axEq xy.1 xy.2

/-- A signal: the name of its NXdata group, its name and its data. -/
structure Sig (α : Type) where
  parent : Str
  name : Str
  data : Arr α

/-- An NXdata group: a link or not, its axes, its signals (the default one first), and its `stackdim()`. -/
structure NX (α : Type) where
  name : Str
  link : Bool
  axes : List Ax
  signals : List (Str × Arr α)
  interp : Option Nat

/-- `_NXdata.stackdim`, nxfs.py 782-789, for a signal of `ndim` dimensions without its own
interpretation (883-890). -/
def interpOf (ndim : Nat) : Option Nat := if ndim = 0 then none else if ndim = 1 then some (ndim - 1) else some 0

/-- The signals of a group, nxfs.py 791-803. -/
def sigs {α : Type} (d : NX α) : List (Sig α) := d.signals.map fun s => ⟨d.name, s.1, s.2⟩

/-- The loop of `regulargriddata`, nxresult.py 107-124. -/
def gridLoop {α : Type} : List (NX α) → List (Str × List (Sig α)) → List Ax → Option Int →
    Option (List (Str × List (Sig α)) × List Ax × Option Int)
  | [], groups, axes, sd => some (groups, axes, sd)
  | d :: ds, groups, axes, sd =>
    if d.link then gridLoop ds groups axes sd
    else
      let sd := if sd.isNone then d.interp.map (fun (n : Nat) => (n : Int)) else sd
      match grpOfStr d.name with
      | none => none
      | some g =>
        if g.name ∈ groups.map Prod.fst then none
        else if axes ≠ [] then
          if axesEq axes d.axes then gridLoop ds (groups ++ [(g.name, sigs d)]) axes sd else none
        else gridLoop ds (groups ++ [(g.name, sigs d)]) d.axes sd

/-- `list.insert(i, x)` -/
def pyInsert {β : Type} (l : List β) (i : Int) (x : β) : List β :=
  let k := if i < 0 then (max (i + l.length) 0).toNat else i.toNat
  if k ≤ l.length then l.insertIdx k x else l ++ [x]

/-- `list.pop(i)`: the rest; `none`: IndexError. -/
def pyPop {β : Type} (l : List β) (i : Int) : Option (List β) := (normIdx l.length i).map fun k => l.eraseIdx k

/-- A regular grid over signals: `axes` holds the axis of signals as `none`. -/
structure Grid (α : Type) where
  signals : List (Sig α)
  axes : List (Option Ax)
  stackdim : Int
  stackDims : List Int

/-- `NXRegularGrid.__init__`, h5regulargrid.py 50-64; `none`: no stack dimension, or an exception. -/
def nxGrid {α : Type} (ds : List (NX α)) (config : Option Int) (stackdim : Option Int) : Option (Grid α) :=
  match gridLoop ds [] [] config with
  | none => none
  | some (groups, axes, prev) =>
    match prev with
    | none => none
    | some p =>
      let sd := stackdim.getD p
      some
        { signals := groups.flatMap Prod.snd
          axes := pyInsert (axes.map some) sd none
          stackdim := sd
          stackDims := [sd, if sd ≤ p then p + 1 else p] }

/-- The size of an axis of a grid of `n` signals. -/
def axSize (n : Nat) : Option Ax → Nat
  | none => n
  | some a => a.vals.length

/-- `shape`, regulargrid.py 19-21. -/
def Grid.shape {α : Type} (g : Grid α) : List Nat := g.axes.map (axSize g.signals.length)

/-- `other_dims`, regulargrid.py 137-139. -/
def otherDims (ndim : Nat) (stackDims : List Int) : List Nat := (List.range ndim).filter fun (i : Nat) => (i : Int) ∉ stackDims

/-- `NXSignalRegularGrid._stack_dims`, h5regulargrid.py 25-29. -/
def signalStackDims (stackdim : Int) (interp : Option Nat) : List Int :=
  let p : Int := (interp.getD 0 : Nat)
  [stackdim, if stackdim ≤ p then p + 1 else p]

/-- `a[i] = d` for an array `d` (numpy; no broadcasting of length-1 dimensions). -/
def setFirst {α : Type} (a : Arr α) (i : Nat) (d : Arr α) : Option (Arr α) :=
  match a.shape with
  | [] => none
  | n :: s => if i < n ∧ d.shape = s then some ⟨a.shape, fun r => if r.headD 0 = i then d.get r.tail else a.get r⟩ else none

/-- The loop of `NXRegularGrid.values`, h5regulargrid.py 194-198. -/
def valuesLoop {α : Type} : List (Arr α) → Nat → Arr α → Option (Arr α)
  | [], _, ret => some ret
  | d :: ds, i, ret =>
    match setFirst ret i d with
    | none => none
    | some ret => valuesLoop ds (i + 1) ret

/-- `NXRegularGrid.values`, h5regulargrid.py 192-200. -/
def Grid.values {α : Type} (g : Grid α) (zero : α) : Option (Arr α) :=
  valuesLoop (g.signals.map Sig.data) 0 ⟨g.shape, fun _ => zero⟩

/-- `signal_axes`, nxregulargrid.py 187-191. -/
def Grid.signalAxes {α : Type} (g : Grid α) : Option (List (Option Ax)) := pyPop g.axes g.stackdim

/-- `signalin_shape`, nxregulargrid.py 177-181. -/
def Grid.signalShape {α : Type} (g : Grid α) : Option (List Nat) := pyPop g.shape g.stackdim

/-- `path.endswith(reference)` for the path "…/parent/name". -/
def endsWith (s : Sig α) (reference : Str) : Bool := reference.isSuffixOf ('/' :: s.parent ++ '/' :: s.name)

/-- `reference_signal_index`, nxregulargrid.py 46-59; `reference = []`: no reference; `none`: ValueError. -/
def referenceIndex {α : Type} (g : Grid α) (reference : Str) : Option Nat :=
  if reference ≠ [] then (nonzeroFrom 0 (g.signals.map fun s => endsWith s reference)).getLast?
  else some 0

/-- The parameter `refimageindex` of the align task. -/
inductive RefImage where
  | text (s : Str)
  | int (i : Int)
  | none
  | fraction (x : Rat)
deriving DecidableEq, Repr

/-- `round(x)` of Python: the nearest integer, the even one in the middle. -/
def pyRound (x : Rat) : Int :=
  let f := x.floor
  if x - f < 1 / 2 then f else if 1 / 2 < x - f then f + 1 else if f % 2 = 0 then f else f + 1

/-- `_prepare_reference`, nxalign.py 113-133, for a stack of `n` images; the outer `none`: an exception;
the inner one: pair-wise. -/
def refImage (n : Nat) : RefImage → Option (Option Int)
  | .text s =>
    if s = ['f', 'i', 'r', 's', 't'] then some (some 0)
    else if s = ['l', 'a', 's', 't'] then some (some (-1))
    else if s = ['m', 'i', 'd', 'd', 'l', 'e'] then some (some ((n / 2 : Nat) : Int))
    else none
  | .int i => some (some i)
  | .none => some none
  | .fraction x => some (some (pyRound (x * n)))

/-! ## tasks on a grid (nxregulargrid.py) -/

/-- A task.  `process signal index data` is `_process_data` (`self.indexin` and the variables of the
signal may be used). -/
structure Task (α : Type) where
  sliced : Bool
  stackdim : Nat
  skip : Str → Str → Bool
  process : Sig α → List Item → Arr α → Option (Arr α)
  /-- a crop task -/
  crop : Bool
  /-- `self.roi` of a crop task -/
  roi : Option (List (Int × Int))

/-- `self.indexin` for signals of `n` dimensions, nxregulargrid.py 116-117 and nxcrop.py 28-30. -/
def indexin {α : Type} (t : Task α) (n : Nat) : List Item :=
  if t.crop then
    match t.roi with
    | some roi => Crop.indexin roi
    | none => List.replicate n (.slice Slice.full)
  else List.replicate n (.slice Slice.full)

/-- The cropped shape, nxcrop.py 29; `none`: a negative size (creating the data set raises). -/
def natShape (l : List Int) : Option (List Nat) := if l.all fun x => decide (0 ≤ x) then some (l.map Int.toNat) else none

/-- `signalout_shape`, nxregulargrid.py 183-185 and nxcrop.py 33-35; `none`: there is no ROI
(AttributeError). -/
def shapeOut {α : Type} (t : Task α) (shape : List Nat) : Option (List Nat) :=
  if t.crop then
    match t.roi with
    | some roi => natShape (Crop.croppedShape roi)
    | none => none
  else some shape

/-- `ax[a:b]` -/
def axSlice (ax : Ax) (a b : Int) : Option (List Rat) :=
  ((Slice.mk (some a) (some b) none).positions ax.vals.length).map fun ps => ps.map fun (p : Nat) => ax.vals.getD p 0

/-- One axis of the output, nxcrop.py 41-44. -/
def cropAxis (ax : Ax) (ab : Int × Int) : Option Ax :=
  if (ax.vals.length : Int) ≠ ab.2 - ab.1 then (axSlice ax ab.1 ab.2).map fun v => { ax with vals := v } else some ax

/-- `_process_axes`, nxregulargrid.py 137-138 and nxcrop.py 37-45. -/
def outAxes {α : Type} (t : Task α) (axes : List Ax) : Option (List Ax) :=
  if t.crop then
    match t.roi with
    | none => some axes
    | some roi => (axes.zip roi).mapM fun x => cropAxis x.1 x.2
  else some axes

/-- `_create_axes`, nxregulargrid.py 140-151: the positioners after adding the axes, by name. -/
def createAxes : List Ax → List Ax → List Ax
  | [], pos => pos
  | ax :: axes, pos => createAxes axes (if ax.name ∈ pos.map Ax.name then pos else pos ++ [ax])

/-- The sizes of the named axes of the positioners. -/
def axesShape (pos : List Ax) (names : List Str) : Option (List Nat) :=
  names.mapM fun n => (pos.find? fun a => a.name = n).map fun a => a.vals.length

/-- The loop over the slices, nxregulargrid.py 101-105. -/
def slicesLoop {α : Type} (f : List Item → Arr α → Option (Arr α)) (a : Arr α) (index : List Item) (sd : Nat) :
    List Nat → Arr α → Option (Arr α)
  | [], out => some out
  | i :: is, out =>
    match npGet a (index.set sd (.int i)) with
    | none => none
    | some x =>
      match f (index.set sd (.int i)) x with
      | none => none
      | some y =>
        if y.shape = out.shape.eraseIdx sd then slicesLoop f a index sd is (Crop.writeSlice out sd i y) else none

/-- The new data of a signal, nxregulargrid.py 91-110; `shape` is `signalin_shape`, `zero` fills a new
data set. -/
def newData {α : Type} (t : Task α) (zero : α) (shape : List Nat) (s : Sig α) : Option (Arr α) :=
  let index := indexin t shape.length
  if t.sliced then
    match shapeOut t shape with
    | none => none
    | some so =>
      if t.stackdim < index.length then
        slicesLoop (t.process s) s.data index t.stackdim (List.range (shape.getD t.stackdim 0)) ⟨so, fun _ => zero⟩
      else none
  else
    match npGet s.data index with
    | none => none
    | some x => t.process s index x

/-- An NXdata group of the output. -/
structure Out (α : Type) where
  name : Str
  attrs : NXdata.St
  data : List (Str × Arr α)

/-- The dimensions that a new signal must have, nxfs.py 822-825: those of the axes, else those of the
default signal; `[]`: anything. -/
def wantShape {α : Type} (axShape : List Nat) (o : Out α) : List Nat :=
  if axShape ≠ [] then axShape
  else
    match o.attrs.signal with
    | none => []
    | some s => ((o.data.find? fun x => x.1 = s).map fun x => x.2.shape).getD []

/-- `add_signal` in a group that has its axes, nxfs.py 805-880. -/
def addTo {α : Type} (axShape : List Nat) (o : Out α) (name : Str) (y : Arr α) : Option (Out α) :=
  if wantShape axShape o ≠ [] ∧ y.shape ≠ wantShape axShape o then none
  else (NXdata.addSignal o.attrs name true).map fun st => { o with attrs := st, data := o.data ++ [(name, y)] }

/-- A new group: `add_signal`, then `set_axes`, which compares the dimensions, nxfs.py 945-966. -/
def newGroup {α : Type} (axShape : List Nat) (parent name : Str) (y : Arr α) : Option (Out α) :=
  match addTo [] ⟨parent, NXdata.fresh [], []⟩ name y with
  | none => none
  | some o => if y.shape ≠ [] ∧ y.shape ≠ axShape then none else some o

/-- One signal, nxregulargrid.py 81-113. -/
def stepSignal {α : Type} (t : Task α) (zero : α) (shape axShape : List Nat) (s : Sig α) :
    List (Out α) → Option (List (Out α))
  | [] =>
    match newData t zero shape s with
    | none => none
    | some y => (newGroup axShape s.parent s.name y).map fun o => [o]
  | o :: os =>
    if o.name = s.parent then
      match newData t zero shape s with
      | none => none
      | some y => (addTo axShape o s.name y).map fun o => o :: os
    else (stepSignal t zero shape axShape s os).map fun os => o :: os

/-- The loop over the signals, nxregulargrid.py 81-113. -/
def signalsLoop {α : Type} (t : Task α) (zero : α) (shape axShape : List Nat) : List (Sig α) → List (Out α) → Option (List (Out α))
  | [], outs => some outs
  | s :: ss, outs =>
    if t.skip s.parent s.name then signalsLoop t zero shape axShape ss outs
    else
      match stepSignal t zero shape axShape s outs with
      | none => none
      | some outs => signalsLoop t zero shape axShape ss outs

/-- The names of the signals of an input group. -/
def prevNames {α : Type} (signals : List (Sig α)) (parent : Str) : List Str :=
  (signals.filter fun s => s.parent = parent).map Sig.name

/-- `_sort`, nxregulargrid.py 36-44. -/
def sortOut {α : Type} (signals : List (Sig α)) (o : Out α) : Option (Out α) :=
  (NXdata.sortSignals o.attrs (some (prevNames signals o.name))).map fun st => { o with attrs := st }

/-- `_execute` after the grid is made, nxregulargrid.py 32-34: the groups, and the positioners. -/
def execute {α : Type} (t : Task α) (zero : α) (g : Grid α) : Option (List (Out α) × List Ax) :=
  match g.signalAxes with
  | none => none
  | some gaxes =>
    match gaxes.mapM id, g.signalShape with
    | some axes, some shape =>
      match outAxes t axes with
      | none => none
      | some new =>
        let pos := createAxes new []
        match axesShape pos (new.map Ax.name) with
        | none => none
        | some axShape =>
          match signalsLoop t zero shape axShape g.signals [] with
          | none => none
          | some outs => (outs.mapM (sortOut g.signals)).map fun outs => (outs, pos)
    | _, _ => none

/-! ## what tasks do to data -/

/-- A function on every element. -/
def mapArr {α : Type} (f : α → α) (a : Arr α) : Arr α := ⟨a.shape, fun r => f (a.get r)⟩

/-- `_process_data` of most tasks: nothing (nxregulargrid.py 153-154), or a function of every element. -/
def pointwise {α : Type} (f : α → α) : Sig α → List Item → Arr α → Option (Arr α) := fun _ _ x => some (mapArr f x)

/-- A value is replaced, nxreplace.py 10-17: `old` is the object `np.nan` or a value. -/
def replace1 (old : Crop.NanVal) (new : Crop.Px) (x : Crop.Px) : Crop.Px := if Crop.isBad old x then new else x

/-- A pixelwise expression of the signal and of other signals of the grid, nxexpression.py 34-41: the
other signals are read at `self.indexin`. -/
def combine {α : Type} (f : α → List α → α) (others : Sig α → List (Arr α)) :
    Sig α → List Item → Arr α → Option (Arr α) := fun s index x =>
  ((others s).mapM fun a => npGet a index).map fun l => ⟨x.shape, fun r => f (x.get r) (l.map fun a => a.get r)⟩

end SC.Grid
