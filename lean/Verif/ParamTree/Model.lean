import Verif.Py.Dict
import Verif.ListTools.Model
/-! # Model of `pipelines/parameters.py` (Node)

A forest of nodes with identities `0, 1, ...`.  Simplified: parameter values are atomic (mappings
stored as SubNode are modelled separately in `ParamTree/SubNode.lean`); `hashing.hashequal` is
equality; the bookkeeping of changed keys is not modelled.  Loops over parents and children get
fuel `size`; `Props` shows that this is never reached. -/
namespace SC.ParamTree
open SC.Py

variable {K V : Type} [DecidableEq K] [DecidableEq V]

/-- The attributes of a Node, parameters.py:389-399. -/
structure Rec (K V : Type) where
  parent : Option Nat
  children : List Nat
  data : Dict K V

/-- Nodes with their parents, children and own parameters (parameters.py Node). -/
structure Forest (K V : Type) where
  size : Nat
  node : Nat → Rec K V

/-- No nodes. -/
def Forest.empty : Forest K V := ⟨0, fun _ => ⟨none, [], []⟩⟩

/-- The parent of a node. -/
def Forest.parent (s : Forest K V) (i : Nat) : Option Nat := (s.node i).parent
/-- The children of a node. -/
def Forest.children (s : Forest K V) (i : Nat) : List Nat := (s.node i).children
/-- The own parameters of a node. -/
def Forest.data (s : Forest K V) (i : Nat) : Dict K V := (s.node i).data

/-- Change one node. -/
def Forest.upd (s : Forest K V) (i : Nat) (f : Rec K V → Rec K V) : Forest K V :=
  { s with node := fun j => if j = i then f (s.node i) else s.node j }

/-- The loop of iter_up, parameters.py 133-140; the first argument bounds the number of steps. -/
def up (s : Forest K V) : Nat → Nat → List Nat
  | 0, _ => []
  | f + 1, i => i :: match s.parent i with | none => [] | some p => up s f p

/-- iter_up, parameters.py:133-140. -/
def iterUp (s : Forest K V) (i : Nat) : List Nat := up s s.size i

/-- The loop of iter_down, parameters.py; the first argument bounds the depth. -/
def down (s : Forest K V) : Nat → Nat → List Nat
  | 0, _ => []
  | f + 1, i => i :: (s.children i).flatMap (down s f)

/-- iter_down, parameters.py:142-147. -/
def iterDown (s : Forest K V) (i : Nat) : List Nat := down s s.size i

/-- `_getitem` and `__getitem__`, parameters.py:155-166 (`_maps`, 124-131; `none`: KeyError). -/
def getitem (s : Forest K V) (i : Nat) (k : K) : Option V :=
  (iterUp s i).findSome? fun j => Dict.get? (s.data j) k

/-- `__contains__`, parameters.py:292-293. -/
def contains (s : Forest K V) (i : Nat) (k : K) : Bool :=
  (iterUp s i).any fun j => decide (k ∈ Dict.keys (s.data j))

/-- `iter`, parameters.py:260-272. -/
def iterKeys (s : Forest K V) (i : Nat) : List K :=
  ListTools.uniqueEverseen id [] ((iterUp s i).flatMap fun j => Dict.keys (s.data j))

/-- `__setitem__` and `_setitem`, parameters.py:193-209. -/
def setitem (s : Forest K V) (i : Nat) (k : K) (v : V) : Forest K V :=
  if getitem s i k = some v then s
  else s.upd i fun r => { r with data := Dict.set r.data k v }

/-- delete_local, parameters.py:235-241. -/
def deleteLocal (s : Forest K V) (k : K) (i : Nat) : Forest K V :=
  s.upd i fun r => { r with data := Dict.del r.data k }

/-- `__delitem__` and delete_recursive, parameters.py:243-252. -/
def delitem (s : Forest K V) (i : Nat) (k : K) : Forest K V :=
  (iterDown s i).foldl (fun s j => deleteLocal s k j) s

/-- delete_recursive with `local=False`. -/
def deleteChildren (s : Forest K V) (i : Nat) (k : K) : Forest K V :=
  (iterDown s i).tail.foldl (fun s j => deleteLocal s k j) s

/-- update_recursive, parameters.py:93-98; `d` is a dict. -/
def updateRecursive (s : Forest K V) (i : Nat) (d : Dict K V) : Forest K V :=
  (Dict.keys d).foldl (fun s k => deleteChildren s i k)
    (d.foldl (fun s p => setitem s i p.1 p.2) s)

/-- `_newparent`, parameters.py:441-451. -/
def newparent (s : Forest K V) (i : Nat) (node : Option Nat) : Forest K V :=
  let s1 := match s.parent i with
    | none => s
    | some p => s.upd p fun r => { r with children := r.children.filter fun c => !decide (c = i) }
  let s2 := s1.upd i fun r => { r with parent := node }
  match node with
  | none => s2
  | some n => s2.upd n fun r => { r with children := r.children ++ [i] }

/-- The parent setter, parameters.py:428-439. -/
def setParent (s : Forest K V) (i : Nat) (node : Option Nat) : Forest K V :=
  if node = some i ∨ node = s.parent i then s
  else
    match node with
    | none => newparent s i none
    | some n =>
      let s1 := if n ∈ iterDown s i then newparent s n (s.parent i) else s
      newparent s1 i (some n)

/-- `Node(parent)`, parameters.py:389-399: the new state; the new node is `s.size`. -/
def newNode (s : Forest K V) (parent : Option Nat) : Forest K V :=
  let s1 : Forest K V := ⟨s.size + 1, fun j => if j = s.size then ⟨none, [], []⟩ else s.node j⟩
  setParent s1 s.size parent

/-- branch, parameters.py:453-455. -/
def branch (s : Forest K V) (i : Nat) : Forest K V := newNode s (some i)

/-- remove, parameters.py:485-496. -/
def remove (s : Forest K V) (i : Nat) (single : Bool := true) : Forest K V :=
  let s1 :=
    if single then
      let s0 := if s.parent i = none then setParent (newNode s none) i (some s.size) else s
      (s0.children i).foldl (fun t c => setParent t c (s0.parent i)) s0
    else s
  setParent s1 i none

/-- The node to insert, parameters.py:462-463. -/
def withNode (s : Forest K V) : Option Nat → Forest K V × Nat
  | none => (newNode s none, s.size)
  | some n => (s, n)

/-- insert_before, parameters.py:457-469: the new state and the inserted node. -/
def insertBefore (s : Forest K V) (i : Nat) (node : Option Nat) (single : Bool := false) :
    Forest K V × Option Nat :=
  if node = s.parent i ∨ node = some i then (s, node)
  else
    let s1 := (withNode s node).1
    let n := (withNode s node).2
    let s2 := if single then remove s1 n else s1
    let keep := s2.parent i
    let s3 := setParent s2 i (some n)
    let s4 := if s3.parent n = none then setParent s3 n keep else s3
    (s4, some n)

/-- insert_after, parameters.py:471-483 (`none`: AttributeError for the default argument). -/
def insertAfter (s : Forest K V) (i : Nat) (node : Option Nat) (single : Bool := false) :
    Option (Forest K V × Nat) :=
  match node with
  | none => none
  | some n =>
    if s.parent n = some i ∨ n = i then some (s, n)
    else
      let s2 := if single then remove s n else s
      let s3 := (s2.children i).foldl (fun t c => setParent t c (some n)) s2
      some (setParent s3 n (some i), n)

/-- One operation of a program using a tree; node arguments that do not exist are ignored. -/
inductive Op (K V : Type) where
  | new : Option Nat → Op K V
  | set : Nat → K → V → Op K V
  | del : Nat → K → Op K V
  | delLocal : Nat → K → Op K V
  | updRec : Nat → Dict K V → Op K V
  | parent : Nat → Option Nat → Op K V
  | remove : Nat → Bool → Op K V
  | before : Nat → Option Nat → Bool → Op K V
  | after : Nat → Nat → Bool → Op K V

/-- The operation concerns existing nodes. -/
def Op.valid (s : Forest K V) : Op K V → Bool
  | .new p => p.all (· < s.size)
  | .set i _ _ => i < s.size
  | .del i _ => i < s.size
  | .delLocal i _ => i < s.size
  | .updRec i _ => i < s.size
  | .parent i p => i < s.size && p.all (· < s.size)
  | .remove i _ => i < s.size
  | .before i p _ => i < s.size && p.all (· < s.size)
  | .after i n _ => i < s.size && n < s.size

/-- One operation. -/
def step (s : Forest K V) (op : Op K V) : Forest K V :=
  if op.valid s then
    match op with
    | .new p => newNode s p
    | .set i k v => setitem s i k v
    | .del i k => delitem s i k
    | .delLocal i k => deleteLocal s k i
    | .updRec i d => updateRecursive s i d
    | .parent i p => setParent s i p
    | .remove i b => remove s i b
    | .before i p b => (insertBefore s i p b).1
    | .after i n b => ((insertAfter s i (some n) b).map Prod.fst).getD s
  else s

/-- A history of operations. -/
def run (ops : List (Op K V)) : Forest K V := ops.foldl step Forest.empty

end SC.ParamTree
