import Verif.Merge.Model
import Verif.Py.Dict
import Mathlib.Algebra.Order.Ring.Rat
/-! # Model of the tasks that stack and tile the results of scans

`process/nxmerge.py`, `process/nxstack.py`, `process/nxtile.py` and the walk through the groups in
`process/h5merge.py` (`merge_h5groups`); the data sets themselves are merged as in C26.

Exceptions are `none`.  Numbers in scan commands are digits (`int` accepts more).  Names are lists of
characters.

Simplified: a link in one of the other scans, at a place where the first scan has a data set or a
group, raises (the code follows it).  The destination group is new, so that nothing is skipped.  A
positioner is a number (or missing).

Not modelled: the HDF5 files, attributes other than the names of axes, values and types of scalars. -/
namespace SC.MergeTask
open SC.Py SC.Merge

/-- Names and texts. -/
abbrev Name := List Char

/-! ## nxmerge.py -/

/-- `NXentry`: a scan with a title and positions of motors. -/
structure Entry where
  title : Name
  positioners : Dict Name Rat

/-- Dependencies of a task: the path of an NXentry, another path (NXprocess), another task. -/
inductive Dep where
  | entry (e : Entry)
  | path
  | task (deps : List Dep)

mutual
/-- `_iter_nxentry_dependencies`, nxmerge.py 42-54. -/
def entries : Dep → List Entry
  | .entry e => [e]
  | .path => []
  | .task deps => entriesAll deps
/-- All dependencies of a task. -/
def entriesAll : List Dep → List Entry
  | [] => []
  | d :: l => entries d ++ entriesAll l
end

/-- `_stack_sources`, nxmerge.py 15-23: the groups of results with the same name, per output. -/
def stackSources {α : Type} (outputs : List (List (Name × α))) : Dict Name (List α) :=
  outputs.foldl (fun groups out => out.foldl (fun groups d => groups.set d.1 (((groups.get? d.1).getD []) ++ [d.2])) groups) []

/-- `cmd.split(" ")` -/
def splitSpace : Name → List Name
  | [] => [[]]
  | c :: l =>
    match splitSpace l with
    | [] => [[c]]
    | w :: ws => if c = ' ' then [] :: w :: ws else (c :: w) :: ws

/-- `int(text)`. -/
def intOf (s : Name) : Option Nat :=
  if s ≠ [] ∧ s.all (fun c => 48 ≤ c.toNat && c.toNat ≤ 57) = true then some (s.foldl (fun n c => 10 * n + (c.toNat - 48)) 0) else none

/-- `int(parts[i])`. -/
def part (parts : List Name) (i : Nat) : Option Nat := (parts[i]?).bind intOf

def kFscan2d : Name := ['f', 's', 'c', 'a', 'n', '2', 'd']
def kL2scan : Name := ['l', '2', 's', 'c', 'a', 'n']

/-- `_shape_parser`, nxmerge.py 29-42: the numbers of points, fast axis first; `some none`: None. -/
def shapeParser (cmd : Name) : Option (Option Shape) :=
  let parts := splitSpace cmd
  if parts.head? = some kFscan2d then
    match part parts 8, part parts 4 with
    | some f, some s => some (some [f, s])
    | _, _ => none
  else if parts.head? = some kL2scan then
    match part parts 4, part parts 8 with
    | some f, some s => some (some [f, s + 1])
    | _, _ => none
  else
    match part parts 4, part parts 8 with
    | some f, some s => some (some [f + 1, s + 1])
    | _, _ => some none

/-- `_scan_shape`, nxmerge.py 25-27: the first scan decides; `some none`: no scan or no shape. -/
def scanShape (parser : Name → Option (Option Shape)) (es : List Entry) : Option (Option Shape) :=
  match es with
  | [] => some none
  | e :: _ => parser e.title

/-! ## Groups of HDF5 objects -/

/-- The content of a group: data sets (shape, text or not), soft links, groups. -/
inductive Node where
  | dset (shape : Shape) (isstr : Bool)
  | soft (path : Name)
  | group (items : List (Name × Node))

/-- A merged group: virtual data sets, the scalars of all sources, the text of one source. -/
inductive Out where
  | vds (layout : Shape) (ms : List Mapping)
  | scalars (n : Nat)
  | text (source : Nat)
  | soft (path : Name)
  | group (items : List (Name × Out))

/-- How data sets are merged. -/
structure Cfg where
  map : ShapeMap
  /-- a mosaic with this shape -/
  tile : Option Shape
  nostack : Bool
  nscandim : Nat
  /-- the name of the scan of the destination -/
  dest : Name

/-- stack_h5datasets without stack dimension, h5merge.py 115-130: an empty index takes everything. -/
def singlePlan (map : ShapeMap) (nscandim : Nat) (shape : Shape) : Option (Shape × List Mapping) :=
  let layout := (map.get (shape.take nscandim)).reverse ++ shape.drop nscandim
  match layoutSlicing shape layout.reverse with
  | none => none
  | some (src, dst) =>
    match (if src = [] then some shape else selectSource shape src) with
    | none => none
    | some sel =>
      match checkMapping layout ⟨sel, if dst = [] then fromZero layout else fromZero dst.reverse⟩ with
      | none => none
      | some m => some (layout, [m])

def kEndTime : Name := ['e', 'n', 'd', '_', 't', 'i', 'm', 'e']

/-- stack_h5datasets and tile_h5datasets, h5merge.py 91-215: `ds` are the data sets of the sources. -/
def mergeDset (c : Cfg) (name : Name) (ds : List (Shape × Bool)) : Option Out :=
  let shapes := ds.map Prod.fst
  match c.tile with
  | some t => (tilePlan c.map t c.nscandim shapes).map fun r => .vds r.1 r.2
  | none =>
    match maxShape shapes with
    | none => none
    | some [] =>
      match ds with
      | (_, true) :: _ => some (.text (if name = kEndTime then ds.length - 1 else 0))
      | _ => some (.scalars ds.length)
    | some (_ :: _) =>
      match c.nostack, shapes with
      | true, [s] => (singlePlan c.map c.nscandim s).map fun r => .vds r.1 r.2
      | _, _ => (stackPlan c.map c.nscandim shapes).map fun r => .vds r.1 r.2

/-- Splitting at "/". -/
def splitSlash : Name → List Name
  | [] => [[]]
  | c :: l =>
    match splitSlash l with
    | [] => [[c]]
    | w :: ws => if c = '/' then [] :: w :: ws else (c :: w) :: ws

/-- `"/".join(parts)` -/
def joinSlash : List Name → Name
  | [] => []
  | [w] => w
  | w :: ws => w ++ '/' :: joinSlash ws

/-- A soft link, h5merge.py 246-253: the scan of an absolute link is replaced. -/
def relink (dest : Name) (path : Name) : Name :=
  if path.head? = some '/' then ('/' :: dest) ++ '/' :: joinSlash ((splitSlash path).drop 2) else path

/-- `s[k]`. -/
def child (k : Name) : Node → Option Node
  | .group items => Dict.get? items k
  | _ => none

/-- Shape and kind of a data set. -/
def asDset : Node → Option (Shape × Bool)
  | .dset s b => some (s, b)
  | _ => none

/-- It is a soft link. -/
def isSoft : Node → Bool
  | .soft _ => true
  | _ => false

mutual
/-- An item of `merge_h5groups`, h5merge.py 236-291: `x` in the first source and `rest` in the others. -/
def mergeNode (c : Cfg) (name : Name) : Node → List Node → Option Out
  | .soft p, _ => some (.soft (relink c.dest p))
  | .dset s b, rest =>
    match allSome asDset rest with
    | none => none
    | some l => mergeDset c name ((s, b) :: l)
  | .group items, rest => (mergeItems c items rest).map .group
/-- The items of a group. -/
def mergeItems (c : Cfg) : List (Name × Node) → List Node → Option (List (Name × Out))
  | [], _ => some []
  | (k, x) :: l, rest =>
    match (if isSoft x then some [] else allSome (child k) rest) with
    | none => none
    | some xs =>
      match mergeNode c k x xs, mergeItems c l rest with
      | some o, some r => some ((k, o) :: r)
      | _, _ => none
end

/-- `merge_h5groups` of the groups of all sources. -/
def mergeGroups (c : Cfg) (sources : List Node) : Option Out :=
  match sources with
  | [] => none
  | x :: rest => mergeNode c [] x rest

/-! ## nxstack.py and nxtile.py -/

/-- A group of results (NXdata): the shape of its signal and its content. -/
structure Data where
  shape : Shape
  node : Node

/-- Values of an axis. -/
inductive Axis where
  | positions (l : List (Option Rat))
  | arange (n : Nat)
deriving DecidableEq

/-- A merged group of results; the mappings in `out` refer to the groups in `sources`. -/
structure Merged where
  axes : List (Name × Axis)
  sources : List Data
  out : Out

def kParameters : Name := ['p','a','r','a','m','e','t','e','r','s']

/-- `"dim" + str(i)` for the two dimensions of a scan (any number of digits is not needed). -/
def dimName (i : Nat) : Name := ['d', 'i', 'm'] ++ Nat.toDigits 10 i

/-- The axes of the scan, nxstack.py 45-46 and nxtile.py 32-33. -/
def dimAxes (ns : List Nat) : List (Name × Axis) := ns.zipIdx.map fun x => (dimName (x.2 + 1), .arange x.1)

/-- `_get_stack_axis`, nxstack.py 67-76; a position that is missing is NaN. -/
def stackAxis (name : Name) (es : List Entry) : List (Option Rat) := es.map fun e => e.positioners.get? name

/-- `[lst[i] for i in idx]` -/
def pick {α : Type} (idx : List Nat) (l : List α) : Option (List α) := allSome (fun (i : Nat) => l[i]?) idx

/-- The groups in the order of the positions, nxstack.py 34-37. -/
def reorder {α : Type} (idx : List Nat) : List (Name × List α) → Option (List (Name × List α))
  | [] => some []
  | (k, l) :: r =>
    match pick idx l, reorder idx r with
    | some l', some r' => some ((k, l') :: r')
    | _, _ => none

/-- The shape of the scans, nxstack.py 23-25. -/
def scanShapeOf (parser : Name → Option (Option Shape)) (es : List Entry) (groups : Dict Name (List Data)) : Option Shape :=
  match scanShape parser es with
  | none => none
  | some (some s) => some s
  | some none =>
    match groups.get? kParameters with
    | some (d :: _) => some d.shape
    | _ => none

/-- `shape_map[source.shape] = scan_shape` -/
def addShapes (shape : Shape) (sources : List Data) (map : ShapeMap) : ShapeMap :=
  sources.foldl (fun m d => (.tuple d.shape, shape) :: m) map

/-- The loop over the groups, nxstack.py 40-65. -/
def stackLoop (shape : Shape) (positioner : Bool) (axes0 : List (Name × Axis)) (dest : Name) :
    List (Name × List Data) → ShapeMap → Option (List (Name × Merged))
  | [], _ => some []
  | (k, l) :: r, map =>
    let map' := addShapes shape l map
    match mergeGroups ⟨map', none, decide (l.length = 1) && !positioner, 2, dest⟩ (l.map Data.node), stackLoop shape positioner axes0 dest r map' with
    | some o, some q => some ((k, ⟨axes0 ++ dimAxes shape.reverse, l, o⟩) :: q)
    | _, _ => none

/-- All positions are numbers: `not numpy.isnan(stack_axis).any()`. -/
def allNumbers (l : List (Option Rat)) : Option (List Rat) := allSome id l

/-- `_execute`, nxstack.py 18-65, for dependencies `deps` with outputs `outputs`; `argsort` is
`numpy.argsort`. -/
def stackTask (argsort : List Rat → List Nat) (parser : Name → Option (Option Shape)) (positioner : Option Name) (dest : Name)
    (deps : List Dep) (outputs : List (List (Name × Data))) : Option (List (Name × Merged)) :=
  let groups := stackSources outputs
  match scanShapeOf parser (entriesAll deps) groups with
  | none => none
  | some shape =>
    match positioner with
    | none => stackLoop shape false [] dest groups []
    | some name =>
      let axis := stackAxis name (entriesAll deps)
      match allNumbers axis with
      | none => stackLoop shape true [(name, .positions axis)] dest groups []
      | some ps =>
        match reorder (argsort ps) groups, pick (argsort ps) axis with
        | some groups', some axis' => stackLoop shape true [(name, .positions axis')] dest groups' []
        | _, _ => none

/-- The loop over the groups, nxtile.py 28-51. -/
def tileLoop (shape tile : Shape) (dest : Name) : List (Name × List Data) → ShapeMap → Option (List (Name × Merged))
  | [], _ => some []
  | (k, l) :: r, map =>
    let map' := addShapes shape l map
    match mergeGroups ⟨map', some tile, false, 2, dest⟩ (l.map Data.node), tileLoop shape tile dest r map' with
    | some o, some q => some ((k, ⟨dimAxes (List.zipWith (· * ·) shape.reverse tile.reverse), l, o⟩) :: q)
    | _, _ => none

/-- `_execute`, nxtile.py 15-51. -/
def tileTask (parser : Name → Option (Option Shape)) (tile : Shape) (dest : Name) (deps : List Dep)
    (outputs : List (List (Name × Data))) : Option (List (Name × Merged)) :=
  let groups := stackSources outputs
  match scanShapeOf parser (entriesAll deps) groups with
  | none => none
  | some shape => tileLoop shape tile dest groups []

end SC.MergeTask
