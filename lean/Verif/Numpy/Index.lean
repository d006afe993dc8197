import Verif.Py.Basic
/-! # numpy arrays and numpy indexing (trusted specification)

Not part of /repo.  This is the meaning of `a[index]`, `np.stack` and `np.transpose` used both as
the specification of the lazy indexing of /repo and as the primitive it calls.

An array is a shape plus a function on index tuples; only in-bounds tuples matter (`Arr.Equiv`).

Rules (numpy user guide, "Advanced indexing", "Combining advanced and basic indexing"):
* an integer list or boolean list is an *advanced* index; when at least one is present, integer
  indices count as advanced too;
* all advanced indices are broadcast together to one dimension (only 1-d lists here);
* that dimension replaces the advanced indices when they are adjacent, otherwise it comes first;
* `np.newaxis` inserts a dimension of length 1; a scalar `bool` is a 0-d mask (an advanced index
  consuming no dimension, of length 1 or 0). -/
namespace SC.Numpy
open SC.Py

structure Arr (α : Type) where
  shape : List Nat
  get : List Nat → α

/-- `idx` addresses an element of an array of shape `shape`. -/
def InB : List Nat → List Nat → Prop
  | [], [] => True
  | i :: r, n :: s => i < n ∧ InB r s
  | _, _ => False

/-- Same shape and same elements. -/
def Arr.Equiv {α : Type} (a b : Arr α) : Prop :=
  a.shape = b.shape ∧ ∀ r, InB r a.shape → a.get r = b.get r

/-- One entry of an index tuple. -/
inductive Item where
  | int : Int → Item
  | slice : Slice → Item
  | newaxis : Item
  | ellipsis : Item
  | ilist : List Int → Item
  | blist : List Bool → Item
  /-- a scalar Python bool -/
  | bool : Bool → Item
deriving DecidableEq, Repr

/-- An index entry after checking it against the length of its dimension. -/
inductive Res where
  /-- integer index -/
  | pick : Nat → Res
  /-- advanced index: selected positions -/
  | many : List Nat → Res
  /-- slice: selected positions -/
  | span : List Nat → Res
  | new : Res
  /-- scalar bool -/
  | flag : Bool → Res
deriving DecidableEq, Repr

/-- Positions of `True`. -/
def nonzeroFrom (k : Nat) : List Bool → List Nat
  | [] => []
  | b :: bs => if b then k :: nonzeroFrom (k + 1) bs else nonzeroFrom (k + 1) bs

/-- Check one entry against its dimension (`none`: `IndexError`). -/
def resolve1 (n : Nat) : Item → Option Res
  | .int i => (normIdx n i).map .pick
  | .slice s => (s.positions n).map .span
  | .ilist l => (l.mapM (normIdx n)).map .many
  | .blist l => if l.length = n ∨ l = [] then some (.many (nonzeroFrom 0 l)) else none
  | .newaxis => none
  | .ellipsis => none
  | .bool _ => none

/-- Check a full index tuple (one consuming entry per dimension). -/
def resolve : List Item → List Nat → Option (List Res)
  | [], [] => some []
  | [], _ :: _ => none
  | .newaxis :: is, s => (resolve is s).map (.new :: ·)
  | .bool b :: is, s => (resolve is s).map (.flag b :: ·)
  | _ :: _, [] => none
  | i :: is, n :: s =>
    match resolve1 n i, resolve is s with
    | some r, some rs => some (r :: rs)
    | _, _ => none

/-- Entries that become a result dimension of their own. -/
def Res.isDim : Res → Bool
  | .span _ => true
  | .new => true
  | _ => false

/-- Entries that are list-like: their presence switches on advanced indexing. -/
def Res.isMany : Res → Bool
  | .many _ => true
  | .flag _ => true
  | _ => false

def Res.len? : Res → Option Nat
  | .many l => some l.length
  | .flag b => some (if b then 1 else 0)
  | _ => none

def Res.dimLen? : Res → Option Nat
  | .span l => some l.length
  | .new => some 1
  | _ => none

/-- Broadcast 1-d lengths. -/
def bcast : List Nat → Option Nat
  | [] => some 1
  | l :: ls =>
    match bcast ls with
    | none => none
    | some m => if l = m then some m else if l = 1 then some m else if m = 1 then some l else none

/-- Position of the advanced dimension in the result. -/
def advPos (rs : List Res) : Nat :=
  let lead := rs.takeWhile Res.isDim
  let rest := rs.dropWhile Res.isDim
  let tail := rest.dropWhile (fun r => !r.isDim)
  if tail.all Res.isDim then lead.length else 0

/-- Source tuple of a result tuple: `j` is the coordinate along the advanced dimension, `r` the
coordinates along the other result dimensions. -/
def walk : List Res → Nat → List Nat → List Nat
  | [], _, _ => []
  | .pick k :: rs, j, r => k :: walk rs j r
  | .many ks :: rs, j, r => ks.getD (if ks.length = 1 then 0 else j) 0 :: walk rs j r
  | .span ks :: rs, j, r => ks.getD (r.headD 0) 0 :: walk rs j r.tail
  | .new :: rs, j, r => walk rs j r.tail
  | .flag _ :: rs, j, r => walk rs j r

/-- `a[rs]` for a checked index (`none`: advanced indices do not broadcast). -/
def indexRes {α : Type} (a : Arr α) (rs : List Res) : Option (Arr α) :=
  if rs.any Res.isMany then
    (bcast (rs.filterMap Res.len?)).map fun m =>
      { shape := (rs.filterMap Res.dimLen?).insertIdx (advPos rs) m
        get := fun r => a.get (walk rs (r.getD (advPos rs) 0) (r.eraseIdx (advPos rs))) }
  else
    some { shape := rs.filterMap Res.dimLen?, get := fun r => a.get (walk rs 0 r) }

/-- Number of dimensions an entry consumes. -/
def Item.consumes : Item → Bool
  | .newaxis => false
  | .ellipsis => false
  | .bool _ => false
  | _ => true

def countConsuming (is : List Item) : Nat := (is.filter Item.consumes).length

/-- Replace the ellipsis by (or append) the missing full slices. -/
def npExpand (is : List Item) (ndim : Nat) : Option (List Item) :=
  let n := countConsuming is
  if n > ndim then none
  else
    let fill := List.replicate (ndim - n) (Item.slice Slice.full)
    match is.findIdx? (· == .ellipsis) with
    | none => some (is ++ fill)
    | some k =>
      let post := is.drop (k + 1)
      if post.any (· == .ellipsis) then none
      else some (is.take k ++ fill ++ post)

/-- `a[tuple(is)]` -/
def npGet {α : Type} (a : Arr α) (is : List Item) : Option (Arr α) :=
  (npExpand is a.shape.length).bind fun is' =>
    (resolve is' a.shape).bind fun rs => indexRes a rs

/-- `np.empty(shape)[tuple(is)].shape` -/
def npShape (shape : List Nat) (is : List Item) : Option (List Nat) :=
  (npGet (α := Unit) ⟨shape, fun _ => ()⟩ is).map Arr.shape

/-- `np.stack(ps, axis)` -/
def stack {α : Type} (ps : List (Arr α)) (axis : Nat) : Option (Arr α) :=
  match ps with
  | [] => none
  | p :: _ =>
    if ps.all (fun q => q.shape == p.shape) ∧ axis ≤ p.shape.length then
      some { shape := p.shape.insertIdx axis ps.length
             get := fun r => ((ps[r.getD axis 0]?).getD p).get (r.eraseIdx axis) }
    else none

/-- `np.transpose(a, axes)` -/
def transpose {α : Type} (a : Arr α) (axes : List Nat) : Option (Arr α) :=
  if axes.isPerm (List.range a.shape.length) then
    some { shape := axes.map (fun k => a.shape.getD k 0)
           get := fun r => a.get ((List.range axes.length).map (fun i => r.getD (axes.idxOf i) 0)) }
  else none

end SC.Numpy
