import Verif.CrossSection.Model
/-! # C42: specification

A tree of weighted cross sections: a leaf is a cross section, a node has named and weighted
children. -/
namespace SC.CrossSection

variable {K : Type} [Field K] [LinearOrder K] [IsStrictOrderedRing K]

mutual
inductive Tree (K : Type) where
  | leaf (v : K)
  | node (l : Branches K)
inductive Branches (K : Type) where
  | nil
  | cons (name : String) (w : K) (t : Tree K) (l : Branches K)
end

mutual
/-- The weighted sum. -/
def Tree.value : Tree K → K
  | .leaf v => v
  | .node l => l.value
def Branches.value : Branches K → K
  | .nil => 0
  | .cons _ w t l => w * t.value + l.value
end

mutual
/-- All ways from the top to a leaf: the names and the weights on the way, and the leaf. -/
def Tree.paths : Tree K → List (List String × List K × K)
  | .leaf v => [([], [], v)]
  | .node l => l.paths
def Branches.paths : Branches K → List (List String × List K × K)
  | .nil => []
  | .cons n w t l => t.paths.map (fun p => (n :: p.1, w :: p.2.1, p.2.2)) ++ l.paths
end

/-- The contributions of the leaves: product of the weights on the path times the leaf, labelled
with the last name on the path (none for a tree that is a leaf). -/
def Tree.contributions (t : Tree K) : List (Option String × K) :=
  t.paths.map fun p => (p.1.getLast?, p.2.1.prod * p.2.2)

mutual
/-- number of levels -/
def Tree.depth : Tree K → Nat
  | .leaf _ => 0
  | .node l => l.depth + 1
def Branches.depth : Branches K → Nat
  | .nil => 0
  | .cons _ _ t l => max t.depth l.depth
end

mutual
/-- The tree as the Python code stores it. -/
def Tree.toCS : Tree K → CS K
  | .leaf v => .num v
  | .node l => .dict l.toItems
def Branches.toItems : Branches K → CSItems K
  | .nil => .nil
  | .cons n w t l => .cons n (.pair w t.toCS) l.toItems
end

end SC.CrossSection
