import Verif.Numpy.Index
/-! # Model of src/spectrocrunch/utils/indexing.py

`none` stands for "raises".  Index entries are `SC.Numpy.Item`; a Python `list` is `ilist`
(or `blist` when `instance.isboolsequence` holds, utils/instance.py:276-280); `range` objects
count as `ilist`.  Calls such as `np.empty(shape)[index].shape` go through `SC.Numpy.npShape`,
as they do in the code. -/
namespace SC.Indexing
open SC.Py SC.Numpy

/-- The object between the brackets: a tuple or anything else. -/
inductive Idx where
  | tuple : List Item → Idx
  | one : Item → Idx
deriving DecidableEq, Repr

/-- `slice(None)`. -/
def full : Item := .slice Slice.full

/-- isadvanced on one entry (indexing.py:8-19; instance.islistgen, instance.py:272-273). -/
def isAdv : Item → Bool
  | .ilist _ => true
  | .blist _ => true
  | _ => false

/-- `isinstance(index, numbers.Number)`; Python bools are numbers. -/
def isNum : Item → Bool
  | .int _ => true
  | .bool _ => true
  | _ => false

/-- lengthadvanced on one entry (indexing.py:44-51). -/
def lenAdv1 : Item → Nat
  | .ilist l => l.length
  | .blist l => (l.filter id).length
  | _ => 0

/-- lengthadvanced on a tuple (indexing.py:32-43). -/
def lenAdv (is : List Item) (shape : List Nat) : Option Nat :=
  let tmp := ((is.filter (· != .newaxis)).zip shape).map (fun x => lenAdv1 x.1)
  match tmp.filter (· != 0) with
  | [] => some 0
  | t :: ts => if ts.all (· == t) then some t else none

/-- positiveaxis (indexing.py:616-629). -/
def positiveaxis (axis : Int) (ndim : Nat) : Option Nat :=
  let a := if axis < 0 then axis + ndim else axis
  if a < 0 ∨ a ≥ ndim then none else some a.toNat

/-- expand on a tuple (indexing.py:641-649): an `Ellipsis` counts as an entry in `nindex`. -/
def expandTuple (is : List Item) (ndim : Nat) : Option (List Item) :=
  let nindex := (is.filter (· != .newaxis)).length
  if nindex > ndim then none
  else
    match is.findIdx? (· == .ellipsis) with
    | some i => some (is.take i ++ List.replicate (ndim - nindex + 1) full ++ is.drop (i + 1))
    | none => some (is ++ List.replicate (ndim - nindex) full)

/-- expand (indexing.py:632-661). -/
def expand (index : Idx) (ndim : Nat) : Option Idx :=
  match index with
  | .tuple is => (expandTuple is ndim).map .tuple
  | .one .ellipsis => some (.tuple (List.replicate ndim full))
  | .one .newaxis => some (.tuple (.newaxis :: List.replicate ndim full))
  | .one i =>
    if ndim > 1 then some (.tuple (i :: List.replicate (ndim - 1) full)) else some (.one i)

/-- `np.cumsum([i is not np.newaxis for i in index])` starting from `c`. -/
def cumNonNew : Nat → List Item → List Nat
  | _, [] => []
  | c, i :: is =>
    let c' := if i = .newaxis then c else c + 1
    c' :: cumNonNew c' is

/-- axisindex (indexing.py:664-675). -/
def axisindex (is : List Item) (axis : Int) (ndim : Nat) : Option Nat :=
  (positiveaxis axis ndim).bind fun a => (cumNonNew 0 is).findIdx? (· == a + 1)

/-- fulldim (indexing.py:678-687). -/
def fulldim (is : List Item) (ndim : Nat) : Nat :=
  ndim + (is.filter (· == .newaxis)).length

/-- The loop of replace (indexing.py:703-705). -/
def replaceLoop (is : List Item) (ndim : Nat) : List (Int × Item) → Option (List Item)
  | [] => some is
  | (a, r) :: rest =>
    (axisindex is a ndim).bind fun k => replaceLoop (is.set k r) ndim rest

/-- replace (indexing.py:690-707) for an index whose expansion is a tuple. -/
def replace (index : Idx) (ndim : Nat) (axes : List Int) (rs : List Item) : Option (List Item) :=
  match expand index ndim with
  | some (.tuple is) => replaceLoop is ndim (axes.zip rs)
  | _ => none

/-- replacefull (indexing.py:710-720). -/
def replacefull (index : Idx) (ndim : Nat) (axes : List Int) : Option (List Item) :=
  replace index ndim axes (List.replicate axes.length full)

/-- move_axis (indexing.py:796-811). -/
def moveAxis (ndim i1 i2 : Nat) : Option (List Nat) :=
  if i1 = i2 then none else some (((List.range ndim).eraseIdx i1).insertIdx i2 i1)

/-- op_transpose / op_index (indexing.py:738-763). -/
inductive Op where
  | transpose : List Nat → Op
  | index : List Item → Op
deriving DecidableEq, Repr

/-- `op(data)` -/
def Op.apply {α : Type} (a : Arr α) : Op → Option (Arr α)
  | .transpose axes => Numpy.transpose a axes
  | .index is => npGet a is

/-- operators.__call__ (indexing.py:790-793). -/
def applyOps {α : Type} (a : Arr α) : List Op → Option (Arr α)
  | [] => some a
  | o :: os => (o.apply a).bind fun b => applyOps b os

/-- `if axes is not None: ops.append(op_transpose(axes))` -/
def moveOps (ndim i1 i2 : Nat) : List Op :=
  match moveAxis ndim i1 i2 with
  | none => []
  | some axes => [.transpose axes]

/-- `s.index(v)` when `v in s`. -/
def index? (s : List Nat) (v : Nat) : Option Nat := s.findIdx? (· == v)

/-- First component of replace_dimchanging (indexing.py:135-145). -/
def dimChanging : Item → Item
  | .ilist _ => .ilist [0, 0]
  | .blist _ => .ilist [0, 0]
  | .int _ => .int 0
  | .bool _ => .int 0
  | .newaxis => .newaxis
  | _ => full

/-- Second return value of extract_dimnonchanging (indexing.py:148-179): destination axis of the
advanced dimension, `some none` for Python `None`. -/
def iadvOf (is : List Item) : Option (Option Nat) :=
  if is.length = 0 then some none
  else (npShape (List.replicate is.length 1) (is.map dimChanging)).map (index? · 2)

/-- replace_nonnewaxis (indexing.py:182-192), `none` for the dropped entries. -/
def nonNewaxis : Item → Option Item
  | .ilist _ => some (.ilist [0, 0])
  | .blist _ => some (.ilist [0, 0])
  | .int _ => some (.int 0)
  | .bool _ => some (.int 0)
  | .newaxis => none
  | _ => some full

/-- extract_newaxis (indexing.py:195-242). -/
def extractNewaxis (is : List Item) : Option (List Item × List Op) :=
  if is.any (· == .newaxis) then
    let withNew := is.map (fun i => (nonNewaxis i).getD .newaxis)
    let without := is.filterMap nonNewaxis
    let s := List.replicate without.length 3
    (npShape s withNew).bind fun s1 =>
    let s1b := s1.filter (· != 1)
    (if s.length = 0 then some [] else npShape s without).bind fun s2 =>
    let index := is.filter (· != .newaxis)
    (match index? s2 2 with
     | some p2 => (index? s1b 2).map fun p1 => moveOps s2.length p2 p1
     | none => some []).bind fun ops =>
    some (index, ops ++ [Op.index (s1.map fun i => if i = 1 then Item.newaxis else full)])
  else some (is, [])

/-- replace_trimindex (indexing.py:338-346). -/
def trimIndex : Item → Item
  | .ilist _ => .ilist [0, 0]
  | .blist _ => .ilist [0, 0]
  | .int _ => .int 0
  | .bool _ => .int 0
  | _ => full

/-- Result of extract_axis. -/
structure AxisSplit where
  indexrest : List Item
  shaperest : Option (List Nat)
  indexaxis : Item
  shapeaxis : Option Nat
  /-- stack axis after indexing, `none` when squeezed -/
  axis : Option Nat
  ops : List Op

/-- The transposition of extract_axis (indexing.py:396-411): `s1` is the shape of the probe with
the stack axis, `axis` the position of that axis in it. -/
def axisOps (ndim : Nat) (indexrest : List Item) (s1 : List Nat) (axis : Option Nat) :
    Option (List Op) :=
  match index? s1 2 with
  | none => some []
  | some q1 =>
    (npShape (List.replicate (ndim - 1) 1) (indexrest.map trimIndex)).bind fun s2 =>
    match index? s2 2 with
    | none => some []
    | some _ =>
      let s2' := match axis with
        | some k => s2.insertIdx k 3
        | none => s2
      (index? s2' 2).map fun q2 => moveOps s1.length q2 q1

/-- extract_axis (indexing.py:349-413). -/
def extractAxis (is : List Item) (axis : Int) (shapefull : Option (List Nat)) :
    Option AxisSplit :=
  let ndim := is.length
  (positiveaxis axis ndim).bind fun axis =>
  (is[axis]?).bind fun indexaxis =>
  let indexrest := is.eraseIdx axis
  (match shapefull with
   | none => some (none, none)
   | some s => (s[axis]?).map fun n => (some n, some (s.eraseIdx axis))).bind fun sh =>
  (iadvOf is).bind fun iadv =>
  if isAdv indexaxis then
    some ⟨indexrest, sh.2, indexaxis, sh.1, iadv, []⟩
  else
    (npShape ((List.replicate ndim 1).set axis 3) (is.map trimIndex)).bind fun s1 =>
    let axis' := index? s1 3
    (axisOps ndim indexrest s1 axis').bind fun ops =>
    some ⟨indexrest, sh.2, indexaxis, sh.1, axis', ops⟩

/-- nonchanging on one entry (indexing.py:560-581). -/
def nonchanging1 (shape : Option Nat) : Item → Bool
  | .slice s => s == Slice.full || s == ⟨some 0, none, none⟩ || s == ⟨none, none, some 1⟩
  | .ellipsis => true
  | .ilist l =>
    match shape with
    | none => false
    | some n => l == (List.range n).map (fun (k : Nat) => (k : Int))
  | .blist l =>
    match shape with
    | none => false
    | some n => if l = [] then n == 0 else l.all id
  | _ => false

/-- itertools.compress (listtools.py:34-45). -/
def compress {β : Type} : List β → List Bool → List β
  | [], _ => []
  | _, [] => []
  | x :: xs, b :: bs => if b then x :: compress xs bs else compress xs bs

/-- `lst[i]` -/
def pyGet {β : Type} (l : List β) (i : Int) : Option β := (normIdx l.length i).bind (l[·]?)

/-- `lst[slice]` -/
def pySlice {β : Type} (l : List β) (s : Slice) : Option (List β) :=
  (s.positions l.length).map fun ps => ps.filterMap (l[·]?)

/-- Selection of the generator arguments (indexing.py:921-931); listadvanced (listtools.py:60-72).
The flag is `bargsingleton`. -/
def selectArgs {β : Type} (args : List β) (shapeaxis : Option Nat) (i : Item) :
    Option (List β × Bool) :=
  if nonchanging1 shapeaxis i then some (args, false)
  else
    match i with
    | .ilist l => (l.mapM (pyGet args)).map fun a => (a, false)
    | .blist l => some (compress args l, false)
    | .int k => (pyGet args k).map fun a => ([a], true)
    | .bool b => (pyGet args (if b then 1 else 0)).map fun a => ([a], true)
    | .slice s => (pySlice args s).map fun a => (a, false)
    | _ => none

/-- `tpl[i] = ind[j]` of decompose_listindexing (indexing.py:879-882). -/
def listAt (j : Nat) : Item → Option Item
  | .ilist l => (l[j]?).map .int
  | .blist l => (l[j]?).map .bool
  | i => some i

/-- decompose_listindexing (indexing.py:859-886).  Lines 870-874 only act when the whole index is
a sequence of bools and their result is not used. -/
def decompose (is : List Item) (n : Nat) : Option (List (List Item)) :=
  (List.range n).mapM fun j => is.mapM (listAt j)

/-- replace_axesorder (indexing.py:252-262). -/
def axesOrderItem : Item → Item
  | .ilist _ => .ilist []
  | .blist _ => .ilist []
  | .int _ => .int 0
  | .bool _ => .int 0
  | .newaxis => .newaxis
  | _ => full

/-- Origin of a result dimension. -/
inductive Ax where
  | adv : List Nat → Ax
  | new : Int → Ax
  | dim : Nat → Ax
deriving DecidableEq, Repr

/-- The labelling loop (indexing.py:292-300). -/
def labelAxes (ilist : List Nat) : Int → List Nat → List Ax
  | _, [] => []
  | j, n :: ns =>
    if n = 0 then .adv ilist :: labelAxes ilist j ns
    else if n = 1 then .new j :: labelAxes ilist (j - 1) ns
    else .dim (n - 2) :: labelAxes ilist j ns

/-- axesorder_afterindexing (indexing.py:265-302) on an index whose expansion is `is`. -/
def axesorder (is : List Item) (ndim : Nat) : Option (List Ax × List Item) :=
  let indexnonew := is.filter (· != .newaxis)
  let ilist := (List.range indexnonew.length).filter fun i => (indexnonew[i]?).elim false isAdv
  (npShape ((List.range ndim).map (· + 2)) (is.map axesOrderItem)).map fun s =>
    (labelAxes ilist (-1) s, indexnonew)

/-- One entry of the predicted shape (indexing.py:324-333). -/
def shapeEntry (shape : List Nat) (indexnonew : List Item) : Ax → Option Nat
  | .new _ => some 1
  | .adv _ => lenAdv indexnonew shape
  | .dim k =>
    match indexnonew[k]?, shape[k]? with
    | some (.slice s), some n => (s.positions n).map List.length
    | some _, some n => some n
    | _, _ => none

/-- shape_afterindexing (indexing.py:305-335); the index is expanded again at 279. -/
def shapeAfter (shape : Option (List Nat)) (is : List Item) (ndim : Nat) : Option (List Nat) :=
  let shape := shape.getD (List.replicate ndim 1)
  (expandTuple is shape.length).bind fun is =>
  (axesorder is shape.length).bind fun p => p.1.mapM (shapeEntry shape p.2)

/-- The evaluated planes `generator(arg)[index]` (indexing.py:933-946), with the arguments the
generator was called on. -/
def planes {α β : Type} (gen : β → Arr α) (sp : AxisSplit) (args : List β) :
    Option (List (Arr α)) :=
  if isAdv sp.indexaxis then
    let na := lenAdv1 sp.indexaxis
    sp.shaperest.bind fun sr =>
    (lenAdv sp.indexrest sr).bind fun nb =>
    if nb ≠ 0 ∧ nb ≠ na then none
    else
      (decompose sp.indexrest na).bind fun il =>
      (args.zip il).mapM fun x => npGet (gen x.1) x.2
  else args.mapM fun a => npGet (gen a) sp.indexrest

/-- Stacking and restoring the axes (indexing.py:949-956). -/
def finish {α : Type} [Inhabited α] (data : List (Arr α)) (single : Bool) (axis : Option Nat)
    (ops : List Op) (emptyShape : Option (List Nat)) : Option (Arr α) :=
  match data with
  | [] => emptyShape.map fun s => ⟨s, fun _ => default⟩
  | [d] =>
    if single then applyOps d ops
    else axis.bind fun k => (stack [d] k).bind fun st => applyOps st ops
  | ds => axis.bind fun k => (stack ds k).bind fun st => applyOps st ops

/-- getitem (indexing.py:889-958) with the prepare_getitem part inlined (814-841).  An expansion
that is not a tuple makes `for ind in index` / `zip(*...)` raise. -/
def getitem {α β : Type} [Inhabited α] (gen : β → Arr α) (args : List β) (index : Idx)
    (ndim : Nat) (shapefull : Option (List Nat)) (axis : Int) : Option (Arr α) :=
  match expand index ndim with
  | some (.tuple is) =>
    (extractNewaxis is).bind fun nw =>
    (extractAxis nw.1 axis shapefull).bind fun sp =>
    (selectArgs args sp.shapeaxis sp.indexaxis).bind fun sel =>
    (planes gen sp sel.1).bind fun data =>
    finish data sel.2 sp.axis (sp.ops ++ nw.2) (shapeAfter shapefull is ndim)
  | _ => none

/-- The arguments `generator` is called on by `getitem` (indexing.py:919-946): `zip(arglist,
indexlist)` stops at the shorter one when the stack axis is indexed by a list. -/
def evaluated {β : Type} (args : List β) (index : Idx) (ndim : Nat)
    (shapefull : Option (List Nat)) (axis : Int) : Option (List β) :=
  match expand index ndim with
  | some (.tuple is) =>
    (extractNewaxis is).bind fun nw =>
    (extractAxis nw.1 axis shapefull).bind fun sp =>
    (selectArgs args sp.shapeaxis sp.indexaxis).map fun sel =>
      if isAdv sp.indexaxis then sel.1.take (lenAdv1 sp.indexaxis) else sel.1
  | _ => none

end SC.Indexing
