import Verif.Indexing.Model
/-! # C01-C03: small specifications used by the property theorems

The meaning of an index is that of numpy (`Verif/Numpy/Index.lean`). -/
namespace SC.Indexing
open SC.Py SC.Numpy

/-- The index as a tuple: numpy treats `a[i]` as `a[(i,)]`. -/
def Idx.items : Idx → List Item
  | .tuple is => is
  | .one i => [i]

/-- Every list in the index selects `m` elements. -/
def ListsOfLength (m : Nat) (is : List Item) : Prop :=
  (∀ l, Item.ilist l ∈ is → l.length = m) ∧ (∀ l, Item.blist l ∈ is → (l.filter id).length = m)

/-- Index entries in front of which no dimension is spent: the entry of dimension `k` and those of
the other dimensions. -/
def dimEntry (is : List Item) (k : Nat) : Option Item := (is.filter (· != .newaxis))[k]?
def otherEntries (is : List Item) (k : Nat) : List Item := (is.filter (· != .newaxis)).eraseIdx k

/-- Forms of index the code accepts: a tuple with at most `nd` entries (an ellipsis counts as an
entry) or, for at least two dimensions, anything else. -/
def Supported (index : Idx) (nd : Nat) : Prop :=
  match index with
  | .tuple is => (is.filter (· != .newaxis)).length ≤ nd
  | .one i => 2 ≤ nd ∨ i = .ellipsis ∨ i = .newaxis

/-- Positions along a dimension of length `n` selected by one index entry. -/
def selectedPositions (n : Nat) : Item → Option (List Nat)
  | .int i => (normIdx n i).map ([·])
  | .slice s => s.positions n
  | .ilist l => l.mapM (normIdx n)
  | .blist l => some ((List.range l.length).filter fun p => l[p]? == some true)
  | _ => none

end SC.Indexing
