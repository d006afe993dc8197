import Verif.Overlay.Model
import Verif.Diode.Median
/-! # Model of `math/statistics.py` and `utils/arraytricks.py` -/
namespace SC.Outlier

/-- `l[0:k]`. -/
def slice0 (l : List Nat) (k : Int) : List Nat :=
  if 0 ≤ k then l.take k.toNat else l.take (l.length - (-k).toNat)

/-- Deviations from the median, statistics.py:18. -/
def deviations (x : List Rat) (m : Rat) : List Rat := x.map fun v => |v - m|

/-- The factor of the median absolute deviation, statistics.py:27-30. -/
def factor (normal : Bool) : Rat := if normal then 14826 / 10000 else 1

/-- `outlierdetection`, statistics.py:8-36, for one dimension. Without values the deviations and the result are empty (the array of
line 15 is not returned). Sorting is stable here; numpy's is not. -/
def outliers (x : List Rat) (nsigma : Rat) (normal : Bool) (noutliers : Int) : List Bool :=
  match Diode.median x with
  | .error _ => []
  | .ok m =>
    let diff := deviations x m
    if noutliers ≠ 0 then
      let chosen := slice0 (Overlay.argsort (diff.map fun d => -d)) noutliers
      (List.range x.length).map fun i => chosen.contains i
    else
      match Diode.median diff with
      | .error _ => []
      | .ok m2 =>
        let mad := factor normal * m2
        if mad = 0 then x.map fun _ => false
        else diff.map fun d => decide (d / mad > nsigma)

end SC.Outlier

namespace SC.Tile

/-- Memory; addresses are in items instead of bytes. -/
abbrev Mem (α : Type) := Int → α

/-- A two dimensional array in memory: shape and strides, from address zero. -/
structure View where
  n0 : Nat
  n1 : Nat
  s0 : Int
  s1 : Int

def View.T (v : View) : View := ⟨v.n1, v.n0, v.s1, v.s0⟩

/-- The address of an element. -/
def View.addr (v : View) (i j : Nat) : Int := i * v.s0 + j * v.s1

structure Src (α : Type) where
  n0 : Nat
  n1 : Nat
  at_ : Nat → Nat → α

def Src.T {α : Type} (s : Src α) : Src α := ⟨s.n1, s.n0, fun i j => s.at_ j i⟩

/-- One assignment after the other. -/
def write {α : Type} (mem : Mem α) (ws : List (Int × α)) : Mem α :=
  ws.foldl (fun m w a => if a = w.1 then w.2 else m a) mem

/-- `as_strided` with shape `(reps, n0, n1)` and assignment of the source to all of it, arraytricks.py:43-50. -/
def tileRows {α : Type} (mem : Mem α) (s : Src α) (d : View) (reps : Nat) : Option (Mem α) :=
  if s.n0 * reps ≠ d.n0 ∨ s.n1 ≠ d.n1 then none
  else some (write mem ((List.range reps).flatMap fun (k : Nat) => (List.range s.n0).flatMap fun (i : Nat) =>
    (List.range d.n1).map fun (j : Nat) => ((k : Int) * (s.n0 * d.s0) + (i : Int) * d.s0 + (j : Int) * d.s1, s.at_ i j)))

/-- `as_strided` with shape `(reps, reps, n0, n1)` and assignment on its diagonal, arraytricks.py:20-37. -/
def tileDiag {α : Type} (mem : Mem α) (s : Src α) (d : View) (reps : Nat) : Option (Mem α) :=
  if s.n0 * reps ≠ d.n0 ∨ s.n1 * reps ≠ d.n1 then none
  else some (write mem ((List.range reps).flatMap fun (k : Nat) => (List.range s.n0).flatMap fun (i : Nat) =>
    (List.range s.n1).map fun (j : Nat) =>
      ((k : Int) * (s.n0 * d.s0) + (k : Int) * (s.n1 * d.s1) + (i : Int) * d.s0 + (j : Int) * d.s1, s.at_ i j)))

/-- `tile`, arraytricks.py:8-50, for two dimensions. -/
def tile {α : Type} (mem : Mem α) (s : Src α) (d : View) (reps dirs : Nat) : Option (Mem α) :=
  if dirs = 2 then tileDiag mem s d reps
  else if dirs = 0 then tileRows mem s d reps
  else tileRows mem s.T d.T reps

end SC.Tile
