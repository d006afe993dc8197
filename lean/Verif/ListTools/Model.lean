import Verif.Py.Basic
import Verif.Common.Sort
/-! # Model of `utils/listtools.py` -/

namespace SC.ListTools
open SC.Py

/-- Python exceptions raised by the modelled functions. -/
inductive Err where
  | indexError
  | valueError
deriving DecidableEq, Repr

/-- A Python value as seen by `flatten`: something that is iterable and not a string
(`node`), or anything else (`leaf`).  Strings are leaves (listtools.py 17). -/
inductive Nested (α : Type) where
  | leaf : α → Nested α
  | node : List (Nested α) → Nested α

mutual
/-- `flatten`, listtools.py 9-27 (generator read to its end).  The `except TypeError` branch
(0-d arrays) is the `leaf` case. -/
def flatten {α : Type} : Nested α → List α
  | .leaf a => [a]
  | .node ts => flattenAll ts
/-- The `for el in it: for el2 in flatten(el)` loops, listtools.py 23-25. -/
def flattenAll {α : Type} : List (Nested α) → List α
  | [] => []
  | t :: ts => flatten t ++ flattenAll ts
end

/-- `itertools.compress` -/
def compress {α : Type} : List α → List Bool → List α
  | a :: as, b :: bs => if b then a :: compress as bs else compress as bs
  | _, _ => []

/-- `listadvanced_bool`, listtools.py 34-45. -/
def listadvancedBool {α : Type} (lst : List α) (barr : List Bool) (bnot : Bool := false) : List α :=
  compress lst (if bnot then barr.map not else barr)

/-- `listadvanced_int`, listtools.py 48-57. -/
def listadvancedInt {α : Type} (lst : List α) : List Int → Except Err (List α)
  | [] => .ok []
  | i :: is =>
    match (normIdx lst.length i).bind (fun k => lst[k]?) with
    | none => .error .indexError
    | some a => (listadvancedInt lst is).map (a :: ·)

/-- An index sequence is a sequence of bools or of ints. -/
inductive Index where
  | bools : List Bool → Index
  | ints : List Int → Index

/-- `listadvanced`, listtools.py 60-72. -/
def listadvanced {α : Type} (lst : List α) : Index → Except Err (List α)
  | .bools b => .ok (listadvancedBool lst b)
  | .ints i => listadvancedInt lst i

/-- `enumerate(lst)` starting at `k`. -/
def enumFrom {α : Type} (k : Nat) : List α → List (Nat × α)
  | [] => []
  | a :: as => (k, a) :: enumFrom (k + 1) as

/-- `where`, listtools.py 75-84. -/
def whereIdx {α : Type} (lst : List α) (f : α → Bool) : List Nat :=
  ((enumFrom 0 lst).filter (fun p => f p.2)).map (·.1)

/-- `sort2lists`, listtools.py 87-98.  `zip(*[])` is empty, so for empty input the
result is the empty tuple (`none`): unpacking it into two lists raises. -/
def sort2lists {κ β : Type} [LinearOrder κ] (l1 : List κ) (l2 : List β) : Option (List κ × List β) :=
  match Common.stableSort Prod.fst (l1.zip l2) with
  | [] => none
  | s => some (s.map (·.1), s.map (·.2))

/-- A `collections.Counter`: insertion-ordered association list. -/
abbrev Counter (κ β : Type) := List (κ × β)

/-- `cntr[x]` (0 for missing keys). -/
def Counter.get {κ β : Type} [DecidableEq κ] [Zero β] : Counter κ β → κ → β
  | [], _ => 0
  | (k, v) :: c, x => if k = x then v else Counter.get c x

/-- `cntr[x] = v`: overwrite in place, new keys go to the end. -/
def Counter.set {κ β : Type} [DecidableEq κ] : Counter κ β → κ → β → Counter κ β
  | [], x, v => [(x, v)]
  | (k, w) :: c, x, v => if k = x then (k, v) :: c else (k, w) :: Counter.set c x v

/-- `x in cntr` -/
def Counter.mem {κ β : Type} [DecidableEq κ] (c : Counter κ β) (x : κ) : Bool :=
  c.any (fun p => decide (p.1 = x))

/-- `[x1 for x1, x2 in zip(list1, list2) if cntr_add(x1, x2)]`, listtools.py 113-118: the kept
keys and the final counter. -/
def addLoop {κ β : Type} [DecidableEq κ] [Zero β] [Add β] :
    Counter κ β → List (κ × β) → List κ × Counter κ β
  | c, [] => ([], c)
  | c, (x, y) :: l =>
    let b := !(c.mem x)
    let r := addLoop (c.set x (c.get x + y)) l
    (if b then x :: r.1 else r.1, r.2)

/-- `unique2lists(list1, list2, add=True)`, listtools.py 110-120. -/
def unique2listsAdd {κ β : Type} [DecidableEq κ] [Zero β] [Add β] (l1 : List κ) (l2 : List β) :
    List κ × List β :=
  let r := addLoop [] (l1.zip l2)
  (r.1, r.1.map r.2.get)

/-- The comprehension with the `seen` set, listtools.py 127-129. -/
def firstLoop {κ β : Type} [DecidableEq κ] : List κ → List (κ × β) → List (κ × β)
  | _, [] => []
  | seen, (x, y) :: l =>
    if x ∈ seen then firstLoop seen l else (x, y) :: firstLoop (x :: seen) l

/-- `unique2lists(list1, list2, add=False)`, listtools.py 121-133.  With nothing to unpack Python
raises `ValueError`. -/
def unique2listsFirst {κ β : Type} [DecidableEq κ] (l1 : List κ) (l2 : List β) :
    Except Err (List κ × List β) :=
  match firstLoop [] (l1.zip l2) with
  | [] => .error .valueError
  | s => .ok (s.map (·.1), s.map (·.2))

/-- `sumrepeats`, listtools.py 136-148 (`Counter.update` computes `count + self.get(elem, 0)`). -/
def sumrepeats {κ β : Type} [DecidableEq κ] [Zero β] [Add β] (labels : List κ) (counts : List β) :
    List κ × List β :=
  let c := (labels.zip counts).foldl (fun (c : Counter κ β) p => c.set p.1 (p.2 + c.get p.1)) []
  (c.map (·.1), c.map (·.2))

/-- `swap`, listtools.py 151-154.  The right hand side is evaluated first, then the two
assignments are done left to right. -/
def swap {α : Type} (lst : List α) (i j : Int) : Except Err (List α) :=
  if i ≠ j then
    match normIdx lst.length i, normIdx lst.length j with
    | some a, some b =>
      match lst[a]?, lst[b]? with
      | some x, some y => .ok ((lst.set a y).set b x)
      | _, _ => .error .indexError
    | _, _ => .error .indexError
  else .ok lst

/-- `itertools.islice(itertools.cycle(lst), n, n + len(lst))`: element `k` of the infinite
repetition is `lst[k % len]`. -/
def cycleSlice {α : Type} (lst : List α) (n : Nat) : List α :=
  (List.range lst.length).filterMap (fun k => lst[(n + k) % lst.length]?)

/-- `roll`, listtools.py 157-161. -/
def roll {α : Type} (lst : List α) (n : Int) : List α :=
  if n ≠ 0 then cycleSlice lst n.natAbs else lst

/-- `lst.insert(j, x)`: negative `j` counts from the end, out of range is clamped. -/
def insertPy {α : Type} (lst : List α) (j : Int) (x : α) : List α :=
  let j := if j < 0 then max 0 (j + lst.length) else min j lst.length
  lst.insertIdx j.toNat x

/-- `move`, listtools.py 164-167. -/
def move {α : Type} (lst : List α) (i j : Int) : Except Err (List α) :=
  if i ≠ j then
    match normIdx lst.length i with
    | none => .error .indexError
    | some a =>
      match lst[a]? with
      | none => .error .indexError
      | some x => .ok (insertPy (lst.eraseIdx a) j x)
  else .ok lst

/-- `unique_everseen` with a key function, listtools.py 193-208 (without key: `key = id`;
the two branches of the code do the same in that case). -/
def uniqueEverseen {α κ : Type} [DecidableEq κ] (key : α → κ) : List κ → List α → List α
  | _, [] => []
  | seen, a :: as =>
    if key a ∈ seen then uniqueEverseen key seen as
    else a :: uniqueEverseen key (key a :: seen) as

end SC.ListTools
