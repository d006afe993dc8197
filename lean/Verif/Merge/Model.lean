import Verif.Numpy.Index
import Mathlib.Algebra.BigOperators.Group.List.Basic
/-! # Model of merging HDF5 datasets (`process/h5merge.py`)

Shapes are lists of natural numbers.  `none` is an exception.  A virtual dataset is modelled as a list
of mappings; a mapping takes the first elements of each dimension of a source and puts them in C-order
in a block of the layout, which is what HDF5 does with two selections of equal size.

Not modelled: links, attributes, scalar datasets, dtypes, the HDF5 files. -/
namespace SC.Merge
open SC.Numpy

/-- Shapes. -/
abbrev Shape := List Nat

/-- `lcm`, math/utils.py 74-78; numpy integers divided by zero give zero. -/
def lcmList (l : List Nat) : Nat := l.foldl (fun acc i => acc * i / Nat.gcd acc i) 1

/-- The least element; sizes.min(), h5merge.py 40. -/
def minList : List Nat → Nat
  | [] => 0
  | [x] => x
  | x :: y :: l => min x (minList (y :: l))

/-- match_shapes, h5merge.py 32-51 -/
def matchShapes (shapes : List Shape) (keep : Bool) : Option (List Shape) :=
  match shapes with
  | [] => none
  | s0 :: _ =>
    if (shapes.map List.prod).all (fun (n : Nat) => decide (n = s0.prod)) then
      some (if keep then shapes else shapes.map fun _ => [])
    else
      let chunks := shapes.map fun s => s.dropLast.prod
      let chunk := lcmList chunks
      let n := minList (shapes.map List.prod) / chunk
      if n = 0 then none
      else some (shapes.map fun s =>
        if s = s.dropLast ++ [n * chunk / s.dropLast.prod] then [] else s.dropLast ++ [n * chunk / s.dropLast.prod])

/-- layout_slicing, h5merge.py 54-60: the stops of the slices, which start at zero. -/
def layoutSlicing (source layout : Shape) : Option (Shape × Shape) :=
  match matchShapes [source, layout] false with
  | some [a, b] => some (a, b)
  | _ => none

/-- max_shape, h5merge.py 63-64; shapes of different length do not form an array. -/
def maxShape : List Shape → Option Shape
  | [] => none
  | [s] => some s
  | s :: l =>
    match maxShape l with
    | none => none
    | some m => if s.length = m.length then some (List.zipWith max s m) else none

/-- The product of two numpy vectors, broadcasting included. -/
def mulVec (a b : List Nat) : Option (List Nat) :=
  if a.length = b.length then some (List.zipWith (· * ·) a b)
  else match a, b with
    | [x], _ => some (b.map (x * ·))
    | _, [y] => some (a.map (· * y))
    | _, _ => none

/-- unravel_index with order "F": the first index varies fastest. -/
def unravelF : Shape → Nat → List Nat
  | [], _ => []
  | n :: s, i => i % n :: unravelF s (i / n)

/-- unravel_index -/
def unravel (fortran : Bool) (s : Shape) (i : Nat) : List Nat :=
  if fortran then unravelF s i else (unravelF s.reverse i).reverse

/-- A block: start and stop of each dimension. -/
abbrev Block := List (Nat × Nat)

/-- The block of one dataset, h5merge.py 81-84 -/
def tileBlock : List Nat → Shape → Shape → Block
  | i :: is, m :: ms, n :: ns => (i * m, i * m + n) :: tileBlock is ms ns
  | _, _, _ => []

/-- tile_indices, h5merge.py 67-88; unravel_index raises when there are more datasets than tiles. -/
def tileIndices (tile : Shape) (shapes : List Shape) (fortran : Bool) : Option (Shape × List Block) :=
  match maxShape shapes with
  | none => none
  | some m =>
    match mulVec m tile with
    | none => none
    | some layout =>
      if shapes.length ≤ tile.prod then
        some (layout, (List.range shapes.length).map fun (i : Nat) => tileBlock (unravel fortran tile i) m (shapes.getD i []))
      else none

/-- `shape_map`: a dictionary whose keys are tuples, or by mistake a number. -/
inductive Key where
  | tuple (s : Shape)
  | int (n : Nat)
deriving DecidableEq, Repr

/-- The dictionary `shape_map` of match_shapes, h5merge.py. -/
abbrev ShapeMap := List (Key × Shape)

/-- `shape_map.get(scan_shape, scan_shape)` -/
def ShapeMap.get (m : ShapeMap) (s : Shape) : Shape :=
  match m.lookup (.tuple s) with
  | some t => t
  | none => s

/-- The size of a block. -/
def blockShape (b : Block) : Shape := b.map fun ab => ab.2 - ab.1

/-- Slices that start at zero. -/
def fromZero (s : Shape) : Block := s.map fun n => (0, n)

/-- A mapping of a virtual dataset: the first elements of the source, per dimension, and their block. -/
structure Mapping where
  sel : Shape
  block : Block
deriving DecidableEq, Repr

/-- h5py and HDF5 accept a mapping when the selections have the right rank and the same size. -/
def checkMapping (layout : Shape) (m : Mapping) : Option Mapping :=
  if m.block.length = layout.length ∧ (blockShape m.block).prod = m.sel.prod then some m else none

/-- `vsource[vsource_idx]`: too many indices raise, fewer mean whole dimensions; slices are clipped. -/
def selectSource (shape : Shape) (idx : Shape) : Option Shape :=
  if idx.length ≤ shape.length then some (List.zipWith min idx shape ++ shape.drop idx.length) else none

/-- One source of tile_h5datasets, h5merge.py 198-214. -/
def tileMapping (nscandim : Nat) (layout : Shape) (block : Block) (shape reduced : Shape) : Option Mapping :=
  let det := shape.drop nscandim
  match (if reduced ++ det ≠ shape then selectSource shape (reduced ++ det ++ det) else some shape) with
  | none => none
  | some sel => checkMapping layout ⟨sel, block ++ fromZero det⟩

/-- `mapM` for exceptions. -/
def allSome {α β : Type} (f : α → Option β) : List α → Option (List β)
  | [] => some []
  | x :: l =>
    match f x, allSome f l with
    | some y, some r => some (y :: r)
    | _, _ => none

/-- The reduced scan shape and the reshaped scan shape of a source, h5merge.py 175-186. -/
def scanShapes (map : ShapeMap) (nscandim : Nat) (shape : Shape) : Option (Shape × Shape) :=
  match matchShapes [shape.take nscandim, map.get (shape.take nscandim)] true with
  | some [a, b] => some (a, b.reverse)
  | _ => none

/-- tile_h5datasets, h5merge.py 162-215 -/
def tilePlan (map : ShapeMap) (tile : Shape) (nscandim : Nat) (shapes : List Shape) : Option (Shape × List Mapping) :=
  match allSome (scanShapes map nscandim) shapes with
  | none => none
  | some rs =>
    match tileIndices tile.reverse (rs.map Prod.snd) false, maxShape (shapes.map (·.drop nscandim)) with
    | some (layout, blocks), some det =>
      match allSome (fun (i : Nat) => tileMapping nscandim (layout ++ det) (blocks.getD i []) (shapes.getD i []) (rs.getD i ([], [])).1)
          (List.range shapes.length) with
      | none => none
      | some ms => some (layout ++ det, ms)
    | _, _ => none

/-- One source of stack_h5datasets, h5merge.py 134-149: an empty index takes everything. -/
def stackMapping (layout : Shape) (i : Nat) (shape : Shape) : Option Mapping :=
  match layoutSlicing shape layout.tail.reverse with
  | none => none
  | some (src, dst) =>
    match (if src = [] then some shape else selectSource shape src) with
    | none => none
    | some sel => checkMapping layout ⟨sel, (i, i + 1) :: (if dst = [] then fromZero layout.tail else fromZero dst.reverse)⟩

/-- stack_h5datasets with a stack dimension, h5merge.py 91-150. -/
def stackPlan (map : ShapeMap) (nscandim : Nat) (shapes : List Shape) : Option (Shape × List Mapping) :=
  match maxShape shapes with
  | none => none
  | some m =>
    let layout := shapes.length :: ((map.get (m.take nscandim)).reverse ++ m.drop nscandim)
    match allSome (fun (i : Nat) => stackMapping layout i (shapes.getD i [])) (List.range shapes.length) with
    | none => none
    | some ms => some (layout, ms)

/-- MergedBlissMesh.shape_map, h5merge.py 335-344: the key is a number. -/
def blissShapeMap (fast slow : Nat) : ShapeMap := [(.int (fast * slow), [fast, slow])]

/-! ## Reading a virtual dataset -/

/-- The position of an index tuple in C-order. -/
def ravelC : Shape → List Nat → Nat
  | _ :: s, i :: is => i * s.prod + ravelC s is
  | _, _ => 0

/-- The index tuple at a position in C-order. -/
def unravelC (s : Shape) (i : Nat) : List Nat := unravel false s i

/-- The point is in the block. -/
def inBlock : Block → List Nat → Bool
  | [], [] => true
  | (a, b) :: bs, p :: ps => decide (a ≤ p) && decide (p < b) && inBlock bs ps
  | _, _ => false

/-- The point relative to the block. -/
def relative : Block → List Nat → List Nat
  | (a, _) :: bs, p :: ps => (p - a) :: relative bs ps
  | _, _ => []

/-- The element of the merged dataset: which source and which of its elements; `none`: the fill value. -/
def readAt : List Mapping → Nat → List Nat → Option (Nat × List Nat)
  | [], _, _ => none
  | m :: ms, i, p =>
    if inBlock m.block p then some (i, unravelC m.sel (ravelC (blockShape m.block) (relative m.block p)))
    else readAt ms (i + 1) p

end SC.Merge
