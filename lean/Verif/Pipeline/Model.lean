import Mathlib.Data.List.Basic
/-! # Model of pipelines (`pipelines/run.py`, `process/basetask.py`, `pipelines/fluoxas.py`,
`pipelines/id21_ffxas.py`)

Tasks are numbered; what a task does is any function of the world `S`. -/

namespace SC.Pipeline

/-- Texts. -/
abbrev Str := List Char

/-- A dependency: a task or a path (basetask.py 91-100). -/
inductive Dep where
  | task (i : Nat)
  | path (p : Nat)
deriving DecidableEq, Repr

/-- The tasks.  The output of a task is looked up in the world each time (nxprocess.py 41-66). -/
structure Env (S : Type) where
  deps : Nat → List Dep
  /-- `task.output.exists` -/
  out : Nat → S → Bool
  /-- `path.exists` -/
  path : Nat → S → Bool
  /-- `_ensure_outputdeviceparent` (basetask.py 238-243); `none`: it raises -/
  prepare : Nat → S → Option S
  /-- the block of `_atomic_context` (basetask.py 64-65), exceptions are handled (82) -/
  exec : Nat → S → S

/-- The world, the attributes `__exists` of the tasks and the tasks executed so far. -/
structure St (S : Type) where
  world : S
  cached : Nat → Bool
  log : List Nat

variable {S : Type} (E : Env S)

/-- `exists` and `done` (basetask.py 106-115). -/
def done (i : Nat) (st : St S) : Bool × St S :=
  if st.cached i then (true, st)
  else if E.out i st.world then (true, { st with cached := fun j => if j = i then true else st.cached j })
  else (false, st)

/-- `dependencies_done` (basetask.py 91-100) -/
def depsDone : List Dep → St S → Bool × St S
  | [], st => (true, st)
  | .task i :: l, st =>
    match done E i st with
    | (true, st) => depsDone l st
    | (false, st) => (false, st)
  | .path p :: l, st => if E.path p st.world then depsDone l st else (false, st)

/-- `run` (basetask.py 55-67); the first part is false when it raises. -/
def run (i : Nat) (st : St S) : Bool × St S :=
  match depsDone E (E.deps i) st with
  | (false, st) => (true, st)
  | (true, st) =>
    match E.prepare i st.world with
    | none => (false, st)
    | some w =>
      match done E i { st with world := w } with
      | (true, st) => (true, st)
      | (false, st) => (true, { st with world := E.exec i st.world, log := st.log ++ [i] })

/-- How `run_sequential` ends. -/
inductive Res where
  | returned (b : Bool)
  | raised
deriving DecidableEq, Repr

/-- `run_sequential` (run.py 8-20) -/
def runSequential : List Nat → St S → Res × St S
  | [], st => (.returned true, st)
  | i :: l, st =>
    match run E i st with
    | (false, st) => (.raised, st)
    | (true, st) =>
      match done E i st with
      | (true, st) => runSequential l st
      | (false, st) => (.returned false, st)

/-- `[task for task in tasks if not task.done]` (fluoxasjobs.py 181, ffxasjobs.py 48) -/
def unfinished : List Nat → St S → List Nat × St S
  | [], st => ([], st)
  | i :: l, st =>
    match done E i st with
    | (true, st) => unfinished l st
    | (false, st) => let r := unfinished l st; (i :: r.1, r.2)

/-- `processdata_exec` (fluoxasjobs.py 177-184 without EDF export, ffxasjobs.py 45-51): `none` when
`run_sequential` raises, otherwise the tasks in the message of the exception, if any. -/
def process (l : List Nat) (st : St S) : Option (List Nat) × St S :=
  match runSequential E l st with
  | (.raised, st) => (none, st)
  | (.returned true, st) => (some [], st)
  | (.returned false, st) => let r := unfinished E l st; (some r.1, r.2)

/-! ## The pipelines -/

/-- The methods of the tasks (fluoxas.py, id21_ffxas.py). -/
inductive Method where
  | xrfgeometry | pymca | expression | resample | align | replace | crop | fullfield
deriving DecidableEq, Repr

/-- A created task: which tasks of the list it depends on, its name and `_outputparent`. -/
structure Spec where
  method : Method
  dep : Option Nat
  name : Str
  outputparent : Option Str
deriving DecidableEq, Repr

/-- What the user may give for each step. -/
structure Given where
  name : Option Str
  outputparent : Option Str
deriving DecidableEq, Repr

/-- The parameters that decide which tasks there are (fluoxas.py 109-246). -/
structure Fluoxas where
  common : Option Str
  geometry : Option (Option Str)
  pymca : Option Str
  prenormalize : Option Given
  resample : Option Given
  align : Option Given
  postnormalize : Option Given
  replacenan : Option Given
  crop : Option Given
deriving DecidableEq, Repr

/-- `ensure_parameter` (fluoxas.py 13-16) -/
def ensure : Option Str → Option Str → Option Str
  | some p, _ => some p
  | none, default => default

/-- `create_task` and `Task.__init__` (basetask.py 31-47): a task needs a dependency or an
`outputparent`; the task is appended to the list. -/
def create (t : Spec) (l : List Spec) : Option (List Spec) :=
  if t.dep.isNone && t.outputparent.isNone then none else some (l ++ [t])

/-- The name of the normalization task. -/
def sNormalize : Str := ['n', 'o', 'r', 'm', 'a', 'l', 'i', 'z', 'e']

/-- The text of a method. -/
def Method.str : Method → Str
  | .xrfgeometry => ['x', 'r', 'f', 'g', 'e', 'o', 'm', 'e', 't', 'r', 'y']
  | .pymca => ['p', 'y', 'm', 'c', 'a']
  | .expression => ['p', 'o', 's', 't'] ++ sNormalize
  | .resample => ['r', 'e', 's', 'a', 'm', 'p', 'l', 'e']
  | .align => ['a', 'l', 'i', 'g', 'n']
  | .replace => ['r', 'e', 'p', 'l', 'a', 'c', 'e']
  | .crop => ['c', 'r', 'o', 'p']
  | .fullfield => ['f', 'u', 'l', 'l', 'f', 'i', 'e', 'l', 'd']

/-- A step that continues with its own output: the new list and `task`. -/
def step (common : Option Str) (m : Method) (g : Option Given) (x : List Spec × Nat) : Option (List Spec × Nat) :=
  match g with
  | none => some x
  | some g =>
    (create ⟨m, some x.2, g.name.getD m.str, ensure g.outputparent common⟩ x.1).map
      fun l => (l, x.1.length)

/-- A step whose output is not used by the next ones (`tmp`). -/
def leaf (common : Option Str) (m : Method) (g : Option Given) (x : List Spec × Nat) : Option (List Spec × Nat) :=
  (step common m g x).map fun y => (y.1, x.2)

/-- `tasks` (fluoxas.py 109-246). -/
def fluoxas (c : Fluoxas) : Option (List Spec) :=
  (match c.geometry with
    | none => some (([], none) : List Spec × Option Nat)
    | some p => (create ⟨.xrfgeometry, none, Method.xrfgeometry.str, p⟩ []).map fun l => (l, some 0)).bind fun x =>
  ((create ⟨.pymca, x.2, Method.pymca.str, ensure c.pymca c.common⟩ x.1).map
    fun l => (l, x.1.length)).bind fun (x : List Spec × Nat) =>
  -- `**commonparams` instead of `**params`: fluoxas.py 158-165
  (match c.prenormalize with
    | none => some x
    | some _ => (create ⟨.expression, some x.2, sNormalize, none⟩ x.1).map fun l => (l, x.1.length)).bind fun (x : List Spec × Nat) =>
  (step c.common .resample c.resample x).bind fun (x : List Spec × Nat) =>
  (step c.common .align c.align x).bind fun (x : List Spec × Nat) =>
  (step c.common .expression c.postnormalize x).bind fun (x : List Spec × Nat) =>
  (leaf c.common .replace c.replacenan x).bind fun (x : List Spec × Nat) =>
  (leaf c.common .crop c.crop x).map fun (x : List Spec × Nat) => x.1

/-- The parameters of id21_ffxas.py 7-140. -/
structure Ffxas where
  normalize : Option Bool
  normalizeonload : Option Bool
  align : Bool
  crop : Bool
deriving DecidableEq, Repr

/-- `ffparams["normalize"]`, `ffparams["keepflat"]` (id21_ffxas.py 14-15, 60-61) -/
def Ffxas.onload (c : Ffxas) : Bool := c.normalize.getD true && c.normalizeonload.getD true
/-- `ffparams["keepflat"]` (id21_ffxas.py 60-61). -/
def Ffxas.keepflat (c : Ffxas) : Bool := c.normalize.getD true && !c.normalizeonload.getD true

/-- The name of a process. -/
def processName (s : Str) : Str := ['p', 'r', 'o', 'c', 'e', 's', 's', ':'] ++ s

/-- `tasks` (id21_ffxas.py 71-140); `parent` is the entry of lines 24-25. -/
def ffxas (parent : Str) (c : Ffxas) : List Spec :=
  let l : List Spec := [⟨.fullfield, none, processName Method.fullfield.str, some parent⟩]
  let add (m : Method) (name : Str) (b : Bool) (x : List Spec × Nat) : List Spec × Nat :=
    if b then (x.1 ++ [⟨m, some x.2, processName name, none⟩], x.1.length) else x
  let x := add .expression sNormalize (c.normalize.getD false && !c.onload) (l, 0)
  let x := add .align Method.align.str c.align x
  (add .crop ['r', 'o', 'i'] c.crop x).1

end SC.Pipeline
