import Verif.Py.Dict
/-! # C17: parameters that are mappings (SubNode)

Model of reading `node[q][k]` where `node[q]` is a mapping, `pipelines/parameters.py` 499-626.
A node is a list of levels: the node itself, its parent, its grandparent, ...  One level of nesting
of mappings is modelled. -/
namespace SC.ParamTree.SubNode
open SC.Py

variable {K V : Type} [DecidableEq K] [DecidableEq V]

/-- A parameter value: atomic, or a mapping (SubNode, parameters.py:508-533). -/
inductive Val (K V : Type) where
  | atom : V → Val K V
  | sub : Dict K V → Val K V
deriving DecidableEq

/-- A level of a mapping used as value. -/
abbrev Level (K V : Type) := Dict K (Val K V)

/-- The exceptions. -/
inductive Err where
  | keyError | runtimeError
deriving DecidableEq

/-- `_getitem_subnode(q)` on a node, parameters.py:219-233: creates an empty mapping when missing. -/
def getitemSubnode (l : Level K V) (q : K) : Except Err (Dict K V × Level K V) :=
  match Dict.get? l q with
  | none => .ok ([], Dict.set l q (.sub []))
  | some (.sub d) => .ok (d, l)
  | some (.atom _) => .error .runtimeError

/-- The rest of the search, parameters.py:124-131 through 541-545 and 612-618: `subkeys` is an
iterator (`reversed`, parameters.py:590) that has already been consumed, so the levels above the
parent are searched in the node itself instead of in its mapping `q`. -/
def searchAbove (k : K) : List (Level K V) → Option (Val K V)
  | [] => none
  | l :: ls => match Dict.get? l k with
    | some v => some v
    | none => searchAbove k ls

/-- `node[q][k]` for a node that has its own mapping `own` at `q`; `above` are the levels of its
ancestors.  Returns the value and the ancestors' levels afterwards. -/
def getSub (own : Dict K V) (above : List (Level K V)) (q k : K) :
    Except Err (Val K V × List (Level K V)) :=
  match Dict.get? own k with
  | some v => .ok (.atom v, above)
  | none =>
    match above with
    | [] => .error .keyError
    | p :: gs =>
      match getitemSubnode p q with
      | .error e => .error e
      | .ok (d, p') =>
        match Dict.get? d k with
        | some v => .ok (.atom v, p' :: gs)
        | none =>
          match searchAbove k gs with
          | some v => .ok (v, p' :: gs)
          | none => .error .keyError

/-- **C17.**  A value of the node's own mapping wins, and one of the parent's mapping is
inherited. -/
theorem getSub_own (own : Dict K V) (above : List (Level K V)) (q k : K) (v : V)
    (h : Dict.get? own k = some v) : getSub own above q k = .ok (.atom v, above) := by
  simp [getSub, h]

theorem getSub_parent_partial (own d : Dict K V) (p : Level K V) (gs : List (Level K V)) (q k : K) (v : V)
    (h : Dict.get? own k = none) (hp : Dict.get? p q = some (.sub d)) (hd : Dict.get? d k = some v) :
    getSub own (p :: gs) q k = .ok (.atom v, p :: gs) := by
  simp [getSub, h, getitemSubnode, hp, hd]

/-- **C17 (deviation).**  A value in the grandparent's mapping is not inherited: the result does
not depend on that mapping, but on the grandparent's top-level parameter of the same name. -/
theorem getSub_grandparent (own d : Dict K V) (p g : Level K V) (gs : List (Level K V)) (q k : K) (w : Val K V)
    (h : Dict.get? own k = none) (hp : Dict.get? p q = some (.sub d)) (hd : Dict.get? d k = none)
    (hg : Dict.get? g k = some w) :
    getSub own (p :: g :: gs) q k = .ok (w, p :: g :: gs) := by
  simp [getSub, h, getitemSubnode, hp, hd, searchAbove, hg]

/-- **C17 (deviation).**  Reading changes an ancestor: a parent without the mapping gets an empty
one. -/
theorem getSub_mutates (own : Dict K V) (p g : Level K V) (gs : List (Level K V)) (q k : K) (w : Val K V)
    (h : Dict.get? own k = none) (hp : Dict.get? p q = none) (hg : Dict.get? g k = some w) :
    getSub own (p :: g :: gs) q k = .ok (w, Dict.set p q (.sub []) :: g :: gs) ∧
    Dict.get? (Dict.set p q (.sub [] : Val K V)) q = some (.sub []) := by
  constructor
  · simp [getSub, h, getitemSubnode, hp, Dict.get?, searchAbove, hg]
  · simp [Dict.get?_set]

-- the grandparent's mapping 1 defines key 5 as 100; the mapping of the node does not see it
example : getSub ([] : Dict Nat Nat) [[(1, .sub [])], [(1, .sub [(5, 100)])]] 1 5 = .error .keyError := by decide
-- ... and sees an unrelated top-level parameter instead
example : getSub ([] : Dict Nat Nat) [[(1, .sub [])], [(1, .sub [(5, 100)]), (5, .atom 7)]] 1 5 =
    .ok (.atom 7, [[(1, .sub [])], [(1, .sub [(5, 100)]), (5, .atom 7)]]) := by decide
example : Dict.get? ([(1, .sub [(5, 3)])] : Level Nat Nat) 1 = some (.sub [(5, 3)]) := by decide

end SC.ParamTree.SubNode
