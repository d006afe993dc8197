import Verif.ParamTree.Model
import Mathlib.Logic.Relation
/-! # C17: specification -/
namespace SC.ParamTree
open SC.Py

variable {K V : Type} [DecidableEq K] [DecidableEq V]

/-- `p` is the parent of `c`. -/
def IsParent (s : Forest K V) (p c : Nat) : Prop := s.parent c = some p

/-- `j` is `i` or somewhere below `i`. -/
def Below (s : Forest K V) (j i : Nat) : Prop := Relation.ReflTransGen (fun c p => IsParent s p c) j i

/-- A well-formed forest: links go both ways, without repetition and without cycles. -/
structure WF (s : Forest K V) : Prop where
  closed : ∀ i p, s.parent i = some p → i < s.size ∧ p < s.size
  links : ∀ p c, c ∈ s.children p ↔ s.parent c = some p
  nodup : ∀ p, (s.children p).Nodup
  acyclic : WellFounded (IsParent s)

/-- Node `i` sees value `v` for key `k`: the value of the nearest node, itself or above, that
defines the key. -/
inductive Sees (s : Forest K V) : Nat → K → V → Prop
  | own {i k v} : Dict.get? (s.data i) k = some v → Sees s i k v
  | inherited {i p k v} : Dict.get? (s.data i) k = none → s.parent i = some p → Sees s p k v → Sees s i k v

end SC.ParamTree
