import Verif.Process.Lookup
/-! # Model of running a task with an NXprocess as output (`process/nxprocess.py`, `process/basetask.py`)

A run is a sequence of steps; the process may be killed before any of them, signals may arrive
between them and other programs may add or delete nodes between them.  Steps that open the HDF5 file
once are atomic.

Simplifications: the body of the task is a list of writes, into the temporary process or into the
temporary directory; it may raise before each of them.  Dependencies are done.  The output entry
exists.  Removing a node does not fail.  Handling of a signal is not interrupted by another signal
(see C20 for the handlers themselves).  The random name is neither the name of an existing
directory (the code does not look) nor does it match the output name or an existing process
(`choose`, enabled only for such names; the other case is `leftover_reused` in the properties).
Others do not touch the node with the temporary name while the task uses it. -/
namespace SC.Process
open SC.Py
open SC.Hashing (Bytes)
open SC.Naming (Str Name Outcome freshLoop matchName)

/-- A write of the body. -/
inductive Op (D : Type) where
  | h5 (d : D)
  | file (d : D)

/-- The data of the writes into the temporary process ... -/
def h5Data {D : Type} (l : List (Op D)) : List D :=
  l.filterMap fun o => match o with
    | .h5 d => some d
    | .file _ => none
/-- ... and into the temporary directory. -/
def fileData {D : Type} (l : List (Op D)) : List D :=
  l.filterMap fun o => match o with
    | .h5 _ => none
    | .file d => some d

/-- The task: its name, the checksum of its parameters and dependencies, the name of the output
entry, its body. -/
structure Cfg (D : Type) where
  base : Str
  csum : Bytes
  entry : Str
  body : List (Op D)

/-- A node of the output entry: an NXprocess with its stored checksum (`none`: not yet there) and
its results, or something else. -/
inductive Cell (D : Type) where
  | proc (sum : Option Bytes) (data : List D)
  | other
deriving DecidableEq

/-- Where a run is. -/
inductive Pc where
  /-- before `run` -/
  | start
  /-- in `_atomic_context_enter`; `false`: a signal was handled -/
  | entering (alive : Bool)
  /-- in the body, after `k` writes; temporary name `r` -/
  | body (r : Str) (k : Nat)
  /-- in the body after a signal during the setup: the process exists but nobody will remove or
  rename it -/
  | dead (r : Str) (k : Nat)
  /-- in the body after a signal: the temporary process is removed -/
  | zombie (r : Str)
  /-- in `_rename_temp_output`: before asking for the output name, before toRename, before moving
  the directory -/
  | naming (r : Str)
  | toRename (r nm : Str)
  | moving (r nm : Str)
  /-- before `set_default` -/
  | default
  /-- in `_remove_temp_output`: before removing the process, the directory -/
  | failing (r : Str)
  | failingDir (r : Str)
  /-- `run` has returned, or raised -/
  | finished
  | raised
deriving DecidableEq

/-- The file, the directory it is in, and the task.  `cache`: `__exists`; `locked`: the output name
when locked. -/
structure St (D : Type) where
  procs : Dict Str (Cell D)
  dirs : Dict (List Str) (List D)
  pc : Pc
  cache : Bool
  locked : Option Str

variable {D : Type}

/-- `str(Name(base))`, nxprocess.py 47: the pattern for the output name. -/
def Cfg.pattern (cfg : Cfg D) : Str := ((Name.new cfg.base).str).getD []

/-- Is this node the result of a task with checksum `c` (find_nxprocess)? -/
def Cell.hasSum (c : Bytes) : Cell D → Bool
  | .proc (some s) _ => decide (s = c)
  | .proc none _ => false
  | .other => false

/-- `entry.find_nxprocess(name=…, parameters=…, dependencies=…)`, nxprocess.py 55-60. -/
def findOutput (cfg : Cfg D) (procs : Dict Str (Cell D)) : Option Str :=
  (procs.find? fun x => matchName cfg.pattern x.1 && x.2.hasSum cfg.csum).map Prod.fst

/-- `Task.outputname`, nxprocess.py 41-66. -/
def outputName (cfg : Cfg D) (procs : Dict Str (Cell D)) (locked : Option Str) : Str :=
  match locked with
  | some n => n
  | none =>
    match findOutput cfg procs with
    | some n => n
    | none =>
      match freshLoop (Dict.keys procs) (procs.length + 1) (Name.new cfg.base) with
      | .found _ s => s
      | _ => []

/-- `self.output.exists` -/
def outputExists (cfg : Cfg D) (procs : Dict Str (Cell D)) (locked : Option Str) : Bool :=
  (Dict.get? procs (outputName cfg procs locked)).isSome

/-- The directory of the output, nxprocess.py 90-93; `move` without `rename` into an existing
directory puts the source inside (fs.py 368-381). -/
def destination (cfg : Cfg D) (dirs : Dict (List Str) (List D)) (r nm : Str) : List Str :=
  if (Dict.get? dirs [cfg.entry ++ '_' :: nm]).isSome then [cfg.entry ++ '_' :: nm, r]
  else [cfg.entry ++ '_' :: nm]

/-- One write of the body: into the process `r` or the directory `r`. -/
def write (st : St D) (r : Str) : Op D → St D
  | .h5 d =>
    match Dict.get? st.procs r with
    | some (.proc s l) => { st with procs := Dict.set st.procs r (.proc s (l ++ [d])) }
    | _ => st
  | .file d => { st with dirs := Dict.set st.dirs [r] ((Dict.get? st.dirs [r]).getD [] ++ [d]) }

/-- _remove_temp_output, nxprocess.py 110-114 -/
def removeTemp (st : St D) (r : Str) : St D :=
  { st with procs := Dict.del st.procs r, dirs := Dict.del st.dirs [r] }

/-- What can happen next. -/
inductive Label (D : Type) where
  /-- the next step of the run; the body writes, or ends -/
  | go
  /-- the random name of the temporary process -/
  | choose (r : Str)
  /-- ... whose creation raises after the group exists -/
  | chooseFails (r : Str)
  /-- the body, or `set_default`, raises -/
  | raises
  /-- a termination signal -/
  | signal
  /-- the body goes on after a signal: it creates a group again, or ends -/
  | zombieWrites
  /-- somebody else adds or deletes a node -/
  | add (n : Str) (x : Cell D)
  | delete (n : Str)
  /-- the program is killed and started again -/
  | kill
  /-- a new run, of the same task object or of a new one -/
  | again (same : Bool)

/-- May this random name be chosen?  (It consists of letters and digits.) -/
def Fits (cfg : Cfg D) (st : St D) (r : Str) : Bool :=
  !matchName cfg.pattern r && !r.contains '_' && (Dict.get? st.procs r).isNone && (Dict.get? st.dirs [r]).isNone

/-- The name of the temporary process, while the task may remove it. -/
def Pc.temp : Pc → Option Str
  | .body r _ => some r
  | .dead r _ => some r
  | .naming r => some r
  | .toRename r _ => some r
  | .moving r _ => some r
  | .failing r => some r
  | .failingDir r => some r
  | _ => none

/-- The next step of the run, without choices. -/
def go (cfg : Cfg D) (st : St D) : Option (St D) :=
  match st.pc with
  -- run, basetask.py 55-67, exists, 100-105
  | .start =>
    if st.cache || outputExists cfg st.procs st.locked then
      some { st with cache := true, pc := .finished }
    else some { st with pc := .entering true }
  | .entering _ => none
  -- _execute
  | .body r k =>
    match cfg.body[k]? with
    | some o => some { write st r o with pc := .body r (k + 1) }
    | none => some { st with pc := .naming r }
  | .dead r k =>
    match cfg.body[k]? with
    | some o => some { write st r o with pc := .dead r (k + 1) }
    | none => some { st with pc := .finished }
  | .zombie _ => some { st with pc := .finished }
  -- _rename_temp_output, nxprocess.py 116-134
  | .naming r => some { st with pc := .toRename r (outputName cfg st.procs st.locked) }
  | .toRename r nm =>
    match Dict.get? st.procs nm, Dict.get? st.procs r with
    | none, some x =>
      some { st with procs := Dict.set (Dict.del st.procs r) nm x, locked := some nm, pc := .moving r nm }
    | none, none => some { st with pc := .raised }
    | some _, _ =>
      if outputExists cfg st.procs st.locked then some { removeTemp st r with pc := .default }
      else some { st with pc := .naming r }
  | .moving r nm =>
    match Dict.get? st.dirs [r] with
    | none => some { st with pc := .default }
    | some l =>
      some { st with dirs := Dict.set (Dict.del st.dirs [r]) (destination cfg st.dirs r nm) l, pc := .default }
  | .default => some { st with pc := .finished }
  -- _remove_temp_output, nxprocess.py 110-114
  | .failing r => some { st with procs := Dict.del st.procs r, pc := .failingDir r }
  | .failingDir r => some { st with dirs := Dict.del st.dirs [r], pc := .finished }
  | .finished => none
  | .raised => none

/-- One step; `none`: it cannot happen. -/
def step (cfg : Cfg D) (st : St D) : Label D → Option (St D)
  | .go => go cfg st
  -- _atomic_context_enter, nxprocess.py 25-38, with `nxprocess`, see C19
  | .choose r =>
    match st.pc with
    | .entering alive =>
      if Fits cfg st r then
        some { st with procs := Dict.set st.procs r (.proc (some cfg.csum) []),
                       pc := if alive then .body r 0 else .dead r 0 }
      else none
    | _ => none
  | .chooseFails r =>
    match st.pc with
    | .entering _ =>
      if Fits cfg st r then
        some { st with procs := Dict.set st.procs r (.proc none []), pc := .raised }
      else none
    | _ => none
  | .raises =>
    match st.pc with
    | .entering _ => some { st with pc := .raised }
    | .body r _ => some { st with pc := .failing r }
    | .dead _ _ => some { st with pc := .raised }
    | .zombie _ => some { st with pc := .raised }
    | .default => some { st with pc := .raised }
    | _ => none
  -- HandleTermination._newhandler: the tear-down with an exception
  | .signal =>
    match st.pc with
    | .entering true => some { st with pc := .entering false }
    | .body r _ => some { removeTemp st r with pc := .zombie r }
    | .naming r => some { removeTemp st r with pc := .raised }
    | .toRename r _ => some { removeTemp st r with pc := .raised }
    | .moving r _ => some { removeTemp st r with pc := .raised }
    | .failing r => some { removeTemp st r with pc := .raised }
    | .failingDir r => some { removeTemp st r with pc := .raised }
    | .default => some st
    | _ => none
  | .zombieWrites =>
    match st.pc with
    | .zombie r =>
      if (Dict.get? st.procs r).isNone then some { st with procs := Dict.set st.procs r .other } else none
    | _ => none
  | .add n x =>
    if (Dict.get? st.procs n).isNone && decide (st.pc.temp ≠ some n) then
      some { st with procs := Dict.set st.procs n x }
    else none
  | .delete n =>
    if st.pc.temp ≠ some n then some { st with procs := Dict.del st.procs n } else none
  | .kill => some { st with pc := .start, cache := false, locked := none }
  | .again same =>
    match st.pc with
    | .finished => some { st with pc := .start, cache := same && st.cache,
                                  locked := if same then st.locked else none }
    | .raised => some { st with pc := .start, cache := same && st.cache,
                                locked := if same then st.locked else none }
    | _ => none

/-- A sequence of steps. -/
def steps (cfg : Cfg D) : St D → List (Label D) → Option (St D)
  | st, [] => some st
  | st, l :: ls =>
    match step cfg st l with
    | none => none
    | some st' => steps cfg st' ls

end SC.Process
