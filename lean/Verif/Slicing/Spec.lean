import Verif.Indexing.Spec
/-! # C04: specification -/
namespace SC.Slicing
open SC.Py SC.Numpy

/-- Element `r` of an array of shape `shape` is among those selected by `idx`: one index entry per
dimension, each selecting the coordinate. -/
def Selects : List Item → List Nat → List Nat → Bool
  | [], [], [] => true
  | i :: is, n :: s, p :: r =>
    ((SC.Indexing.selectedPositions n i).elim false fun ps => ps.contains p) && Selects is s r
  | _, _, _ => false

/-- Number of elements selected by `idx`. -/
def blockSize : List Item → List Nat → Nat
  | i :: is, n :: s => ((SC.Indexing.selectedPositions n i).elim 0 List.length) * blockSize is s
  | _, _ => 1

end SC.Slicing
