import Verif.Common.Sort
import Mathlib.Data.List.Lex
import Mathlib.Data.Char
/-! # Model of the signals of an NXdata group (`io/nxfs.py`, class `_NXdata`)

Kept: the attributes `signal` and `auxiliary_signals` and the names of the datasets in the group.

Not modelled: shapes (a refused shape raises before anything changes), titles, units,
interpretation, axes, links that cannot be made, empty names (refused by add_signal). -/
namespace SC.NXdata
open SC.Common

/-- Texts. -/
abbrev Str := List Char

/-- The attributes of the group (`none`: missing) and the datasets in it. -/
structure St where
  signal : Option Str
  aux : Option (List Str)
  dsets : List Str
deriving DecidableEq, Repr

/-- The operations on an NXdata group (nxfs.py _NXdata). -/
inductive Op where
  /-- `add_signal`; `create`: with data, a shape or a link, else an existing dataset is taken -/
  | add (name : Str) (create : Bool)
  | default (name : Str)
  | remove (name : Str)
  /-- `sort_signals`; `other`: the names of the signals of another group -/
  | sort (other : Option (List Str))
deriving DecidableEq, Repr

/-- The names of `signals`, nxfs.py 791-803 (the first is None when there is no default signal). -/
def names (st : St) : List Str := st.signal.toList ++ st.aux.getD []

/-- The attributes after add_signal, nxfs.py 866-877. -/
def addAttrs (st : St) (name : Str) : St :=
  let signals := st.aux.getD [] ++ st.signal.toList
  { st with aux := if signals = [] then st.aux else some signals, signal := some name }

/-- add_signal, nxfs.py 805-880; `none`: an exception, nothing changes.  Creating a dataset that
exists and taking one that does not exist raise (see C22). -/
def addSignal (st : St) (name : Str) (create : Bool) : Option St :=
  if create then
    if name ∈ st.dsets then none else some (addAttrs { st with dsets := st.dsets ++ [name] } name)
  else
    if name ∈ st.dsets then some (addAttrs st name) else none

/-- default_signal, nxfs.py 891-910: the new state and the result. -/
def defaultSignal (st : St) (name : Str) : St × Bool :=
  if st.signal = some name then (st, true)
  else
    let signals := st.signal.toList ++ st.aux.getD []
    if name ∉ signals then (st, false)
    else
      let aux := signals.filter (fun s => !decide (s = name))
      ({ st with aux := if aux = [] then st.aux else some aux, signal := some name }, true)

/-- remove_signal, nxfs.py 912-927; `none`: an exception (it does not happen, see the properties). -/
def removeSignal (st : St) (name : Str) : Option St :=
  let st := { st with dsets := st.dsets.filter (fun s => !decide (s = name)) }
  match st.aux with
  | none => some st
  | some l =>
    match st.signal with
    | none => none
    | some s =>
      if s = name then
        match l.getLast? with
        | none => none
        | some last =>
          some { st with aux := if l.dropLast = [] then none else some l.dropLast, signal := some last }
      else
        let aux := l.filter (fun s => !decide (s = name))
        some { st with aux := if aux = [] then none else some aux }

/-- The attributes are set to a list of signals, nxfs.py 938-941. -/
def setSignals (st : St) : List Str → St
  | [] => st
  | s :: aux => { st with aux := if aux = [] then st.aux else some aux, signal := some s }

/-- sort_signals, nxfs.py 929-943; `none`: there is no default signal. -/
def sortSignals (st : St) (other : Option (List Str)) : Option St :=
  match st.signal with
  | none => none
  | some _ =>
    let signals := stableSort id (names st)
    match other with
    | none => some (setSignals st signals)
    | some o => if stableSort id o = signals then some (setSignals st o) else some st

/-- One operation; after an exception the group is as before. -/
def step (st : St) : Op → St
  | .add name create => (addSignal st name create).getD st
  | .default name => (defaultSignal st name).1
  | .remove name => (removeSignal st name).getD st
  | .sort other => (sortSignals st other).getD st

/-- A history. -/
def run (st : St) (ops : List Op) : St := ops.foldl step st

/-- A new group; it may hold datasets that are not signals. -/
def fresh (dsets : List Str) : St := ⟨none, none, dsets⟩

/-- set_default, process/nxutils.py 1-11: the groups, and the position of the selected one; `none`: an
exception. -/
def setDefaultLoop : Option Str → Option Nat → Nat → List St → Option (List St × Option Nat)
  | _, sel, _, [] => some ([], sel)
  | none, _, i, d :: ds =>
    match d.signal with
    | none => none
    | some s =>
      match setDefaultLoop (some s) (some i) (i + 1) ds with
      | none => none
      | some (l, sel) => some (d :: l, sel)
  | some s, sel, i, d :: ds =>
    let r := defaultSignal d s
    match setDefaultLoop (some s) (if r.2 then some i else sel) (i + 1) ds with
    | none => none
    | some (l, sel) => some (r.1 :: l, sel)

/-- set_default, process/nxutils.py 1-11. -/
def setDefault (default : Option Str) (groups : List St) : Option (List St × Option Nat) :=
  setDefaultLoop default none 0 groups

end SC.NXdata
