import Mathlib.Data.List.Basic
/-! # Model of the search for XANES scans in a spec file

`spec.extractxanesinfo`, `spec.extractxanesginfo` and `spec.extractxanes` of `io/spec.py`. -/
namespace SC.Xanes

/-- Texts. -/
abbrev Str := List Char

/-- Exceptions. -/
inductive Err where
  | valueError | indexError
deriving DecidableEq

/-- A scan of the file: the number before the point of its key, command, number of data lines. -/
structure Key where
  number : Nat
  command : Str
  lines : Nat

/-- An element of the list: scan number and repeats. -/
structure Item where
  number : Nat
  repeats : Nat
deriving DecidableEq

/-- `s.split(" ")` -/
def split : Str → List Str
  | [] => [[]]
  | c :: s => match split s with
    | [] => [[c]]
    | w :: r => if c = ' ' then [] :: w :: r else (c :: w) :: r

/-- Digits to a number, from a start value. -/
def digits : Nat → Str → Option Nat
  | n, [] => some n
  | n, c :: s => if c.isDigit then digits (10 * n + (c.toNat - '0'.toNat)) s else none

/-- `int(s)` of a text without sign, blanks and underscores (simplified: those raise here). -/
def int (s : Str) : Except Err Nat := if s.isEmpty then .error .valueError else match digits 0 s with
  | none => .error .valueError
  | some n => .ok n

/-- `int(cmd.split(" ")[2])` -/
def repeatsOf (cmd : Str) : Except Err Nat := match (split cmd)[2]? with
  | none => .error .indexError
  | some w => int w

def tLine : Str := ['z', 'a', 'p', 'l', 'i', 'n', 'e', ' ', 'm', 'o', 'n', 'o', ' ']
def tSum : Str := ['z', 'a', 'p', 'e', 'n', 'e', 'r', 'g', 'y', ' ', 'S', 'U', 'M', ' ']
def tSum2 : Str := ['z', 'a', 'p', 'e', 'n', 'e', 'r', 'g', 'y', ' ', 'S', 'U', 'M', '2', ' ']

/-- The limits on the scan numbers, spec.py:1003-1010. -/
def chosen (skip : List Nat) (nrmin nrmax : Option Nat) (k : Key) : Bool :=
  !(match nrmin with | none => false | some a => decide (k.number < a)) &&
  !(match nrmax with | none => false | some b => decide (b < k.number)) &&
  !skip.contains k.number

/-- One scan, spec.py:1012-1034. -/
def infoStep (ret : List Item) (k : Key) : Except Err (List Item) :=
  if tLine.isPrefixOf k.command then
    if k.lines = 0 then .ok ret else .ok (ret ++ [⟨k.number, 1⟩])
  else if tSum.isPrefixOf k.command then
    if k.lines = 0 then .ok ret
    else match repeatsOf k.command with
      | .error e => .error e
      | .ok n => .ok (ret ++ [⟨k.number, n⟩])
  else if tSum2.isPrefixOf k.command then
    if k.lines = 0 then .ok ret
    else match repeatsOf k.command with
      | .error e => .error e
      | .ok n => if ret.isEmpty then .error .indexError else .ok (ret.dropLast ++ [⟨k.number, n⟩])
  else .ok ret

/-- The loop over the scans, spec.py:1001-1034. -/
def infoLoop (skip : List Nat) (nrmin nrmax : Option Nat) : List Key → List Item → Except Err (List Item)
  | [], ret => .ok ret
  | k :: r, ret =>
    if chosen skip nrmin nrmax k then
      match infoStep ret k with
      | .error e => .error e
      | .ok ret => infoLoop skip nrmin nrmax r ret
    else infoLoop skip nrmin nrmax r ret

/-- extractxanesinfo, spec.py:993-1036. -/
def extractInfo (skip : List Nat) (nrmin nrmax : Option Nat) (ks : List Key) : Except Err (List Item) :=
  infoLoop skip nrmin nrmax ks []

/-- The first of the scans without repeats before `i`, spec.py:1093-1096. -/
def runStart (data : List Item) : Nat → Nat
  | 0 => 0
  | i + 1 => if (data[i]?.map Item.repeats) = some 1 then runStart data i else i + 1

/-- The flags. -/
structure Flags where
  keepsum : Bool
  sumingroups : Bool
  keepindividual : Bool

/-- `range(a, b)` -/
def rangeFrom (a b : Nat) : List Nat := (List.range (b - a)).map (a + ·)

/-- The scan numbers of places. -/
def numbers (data : List Item) (l : List Nat) : List Nat := l.filterMap fun k => data[k]?.map Item.number

/-- One element of the loop over the groups, spec.py:1086-1111: `bproc` and the groups so far. -/
def groupStep (data : List Item) (f : Flags) (st : List Bool × List (List Nat)) (i : Nat) : List Bool × List (List Nat) :=
  if st.1.getD i false = false then st
  else
    let n := (data[i]?.map Item.repeats).getD 0
    if 1 < n then
      let rng := rangeFrom (max (runStart data i) (i - n)) i
      let add := numbers data (rng.filter fun k => st.1.getD k false)
      let bproc := rng.foldl (fun b k => b.set k f.keepindividual) st.1
      let st' := if f.keepsum then
          if f.sumingroups then (bproc.set i f.keepindividual, add ++ numbers data [i]) else (bproc, add)
        else (bproc.set i false, add)
      (st'.1, if st'.2.isEmpty then st.2 else st.2 ++ [st'.2])
    else st

/-- extractxanesginfo on the list of scans, spec.py:1081-1118. -/
def groups (f : Flags) (data : List Item) : List (List Nat) :=
  let st := (List.range data.length).foldl (groupStep data f) (List.replicate data.length true, [])
  st.2 ++ ((List.range data.length).filter fun i => st.1.getD i false).map fun i => numbers data [i]

/-- extractxanesginfo, spec.py:1069-1118. -/
def extractGroups (f : Flags) (skip : List Nat) (nrmin nrmax : Option Nat) (ks : List Key) : Except Err (List (List Nat)) :=
  match extractInfo skip nrmin nrmax ks with
  | .error e => .error e
  | .ok d => .ok (groups f d)

/-- What extractxanes stores of a scan. -/
structure Entry (β γ : Type) where
  repeats : Nat
  data : β
  time : γ
  labels : List Str

def tLine' : Str := ['z', 'a', 'p', 'l', 'i', 'n', 'e', ' ', 'm', 'o', 'n', 'o']
def tSum' : Str := ['z', 'a', 'p', 'e', 'n', 'e', 'r', 'g', 'y', ' ', 'S', 'U', 'M']
def tZapline : Str := ['z', 'a', 'p', 'l', 'i', 'n', 'e']
def tZapenergy : Str := ['z', 'a', 'p', 'e', 'n', 'e', 'r', 'g', 'y']

/-- `dict[k] = v` on a dictionary with scan numbers as keys. -/
def put {α : Type} (l : List (Nat × α)) (k : Nat) (v : α) : List (Nat × α) := match l with
  | [] => [(k, v)]
  | (k', v') :: r => if k' = k then (k, v) :: r else (k', v') :: put r k v

/-- `dict.get(k)` -/
def look {α : Type} (l : List (Nat × α)) (k : Nat) : Option α := match l with
  | [] => none
  | (k', v') :: r => if k' = k then some v' else look r k

/-- The parts of a spec file used by extractxanes: the scan of a key, the command parser (name of the
scan and exposure time, spec.py:1045 and 1056), the columns of a scan (getdata2), and
`"{}.{}".format(label, scannumber)`. Simplified: they do not fail, except that the key may be missing. -/
structure File (β γ : Type) where
  key : Nat → Option Key
  parse : Str → Str × γ
  columns : Nat → List Str → β
  label : Str → Nat → Str

/-- One scan of extractxanes, spec.py:1042-1065. -/
def xanesStep {β γ : Type} (f : File β γ) (labels : List Str) (ret : List (Nat × Entry β γ)) (n : Nat) :
    Except Err (List (Nat × Entry β γ)) :=
  match f.key n with
  | none => .error .indexError
  | some k =>
    if tLine'.isPrefixOf k.command then
      if (f.parse k.command).1 ≠ tZapline ∨ k.lines = 0 then .ok ret
      else .ok (put ret n ⟨1, f.columns n labels, (f.parse k.command).2, labels.map fun s => f.label s n⟩)
    else if tSum'.isPrefixOf k.command then
      if (f.parse k.command).1 ≠ tZapenergy ∨ k.lines = 0 then .ok ret
      else match repeatsOf k.command with
        | .error e => .error e
        | .ok r => .ok (put ret n ⟨r, f.columns n labels, (f.parse k.command).2, labels.map fun s => f.label s n⟩)
    else .ok ret

/-- extractxanes, spec.py:1038-1067. -/
def extractXanes {β γ : Type} (f : File β γ) (labels : List Str) :
    List Nat → List (Nat × Entry β γ) → Except Err (List (Nat × Entry β γ))
  | [], ret => .ok ret
  | n :: r, ret => match xanesStep f labels ret n with
    | .error e => .error e
    | .ok ret => extractXanes f labels r ret

end SC.Xanes
