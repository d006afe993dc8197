import Verif.Py.Dict
import Verif.Naming.Model
import Verif.Hashing.Model
/-! # Model of finding and creating an NXprocess (`io/nxfs.py`, `io/target.py`)

A file is a dictionary of NXentry groups in the order in which HDF5 iterates over them, an entry a
dictionary of nodes.  Only what decides about processes is kept of a node.

Not modelled: names that are empty or contain `/`, nodes of the root that are not an NXentry,
processes inside other groups of an entry, other users of the file. -/
namespace SC.Process
open SC.Py
open SC.Hashing (Bytes Val calchash mergehash)
open SC.Naming (Str Name Outcome freshLoop matchName)

/-- What is kept of an NXprocess: the attribute `checksum` of its configuration (`none`: missing),
the checksums of the linked dependencies in order, the parameters as they are read back (`none`: no
configuration), the sequence index of the process. -/
structure Proc where
  stored : Option Bytes
  deps : List Bytes
  config : Option Val
  index : Nat

/-- A node of an entry. -/
inductive Node where
  | proc (p : Proc)
  /-- another class, or a dataset -/
  | other

/-- An NXentry. -/
abbrev Entry := Dict Str Node
/-- An HDF5 file. -/
abbrev File := Dict Str Entry

/-- A dependency of a request: its checksum, the checksum of a link to it (nxfs.py 647-658, fs.py
769-775) and its sequence index (`none`: not a process). -/
structure Dep where
  own : Bytes
  linked : Bytes
  index : Option Nat

/-- target.calc_checksum, target.py 103-114 (`none`: an exception).  `h`: the hash of the parameters. -/
def calcChecksum (md5 : Bytes → Bytes) (deps : List Bytes) (h : Bytes) : Option Bytes :=
  mergehash md5 (deps ++ [h])

/-- `calc_checksum(dependencies, parameters)` of a request. -/
def requestChecksum (md5 : Bytes → Bytes) (deps : List Dep) (params : Val) : Option Bytes :=
  (calchash md5 0 params).bind (calcChecksum md5 (deps.map Dep.own))

/-- _NXprocess.checksum, nxfs.py 647-658 (outer `none`: an exception; inner `none`: the value None,
for a process without configuration and dependencies, see confighash, nxfs.py 667-672). -/
def Proc.checksum (md5 : Bytes → Bytes) (p : Proc) : Option (Option Bytes) :=
  match p.stored with
  | some c => some (some c)
  | none =>
    match p.config with
    | some v => ((calchash md5 0 v).bind (calcChecksum md5 p.deps)).map some
    | none =>
      if p.deps = [] then some none
      else (calchash md5 0 (.seq "tuple".toList (p.deps.map .str ++ [.none]))).map some

/-- The processes of an entry, in order. -/
def procsOf (e : Str) (entry : Entry) : List (Str × Str × Proc) :=
  entry.filterMap fun x =>
    match x.2 with
    | .proc p => some (e, x.1, p)
    | .other => none

/-- iter_nxprocess, nxfs.py 216-237: the entry above the path, if it exists and not all entries are
asked for, else all entries. -/
def iterProcs (file : File) (here : Option Str) (all : Bool) : List (Str × Str × Proc) :=
  match if all then none else here.bind fun e => (Dict.get? file e).map fun x => (e, x) with
  | some (e, entry) => procsOf e entry
  | none => file.flatMap fun x => procsOf x.1 x.2

/-- Does the name of a process match (nxfs.py 431-436)?  An empty name matches everything. -/
def nameMatch (name s : Str) : Bool := if name = [] then true else matchName name s

/-- The loop of find_nxprocess, nxfs.py 439-443 (outer `none`: an exception). -/
def findLoop (md5 : Bytes → Bytes) (name : Str) (c : Bytes) :
    List (Str × Str × Proc) → Option (Option (Str × Str))
  | [] => some none
  | (e, n, p) :: l =>
    if nameMatch name n then
      match p.checksum md5 with
      | none => none
      | some x => if x = some c then some (some (e, n)) else findLoop md5 name c l
    else findLoop md5 name c l

/-- find_nxprocess, nxfs.py 416-443. -/
def findProcess (md5 : Bytes → Bytes) (file : File) (here : Option Str) (name : Str)
    (params : Val) (deps : List Dep) (all : Bool) : Option (Option (Str × Str)) :=
  (requestChecksum md5 deps params).bind fun c => findLoop md5 name c (iterProcs file here all)

/-- next_nxentry_name, nxfs.py 312-339, without argument; `fuel` rounds of the search. -/
def nextEntryName (file : File) (fuel : Nat) : Outcome :=
  match (Dict.keys file).getLast? with
  | none => .found (Name.new "entry0001".toList) "entry0001".toList
  | some last => freshLoop (Dict.keys file) fuel (Name.new last)

/-- A new NXentry holds `start_time` (nxfs.py 347-348). -/
def newEntry : Entry := [("start_time".toList, .other)]

/-- What a request does. -/
inductive Result where
  /-- the process exists or is created: the file, the entry and the name -/
  | ok (file : File) (entry name : Str)
  /-- `fs.AlreadyExists`, with the file left behind -/
  | already (file : File)
  /-- another exception -/
  | raised
  /-- the search for a name goes on -/
  | running

/-- nxentry, nxfs.py 281-300, without argument.  `here`: the part of the path below the root. -/
def nxentry (file : File) (here : Option Str) (fuel : Nat) : Outcome :=
  match here with
  | some e => .found (Name.new e) e
  | none => nextEntryName file fuel

/-- _NXprocess.sequence_index, nxfs.py 674-688. -/
def sequenceIndex (deps : List Dep) : Nat :=
  (deps.filterMap Dep.index).foldl max 0 + 1

/-- set_config, nxfs.py 632-645.  `rt`: the parameters written with `jsonpickle` and read back. -/
def newProc (md5 : Bytes → Bytes) (rt : Val → Val) (params : Val) (deps : List Dep) : Option Proc :=
  match (⟨none, deps.map Dep.linked, some (rt params), sequenceIndex deps⟩ : Proc).checksum md5 with
  | none => none
  | some c => some ⟨c, deps.map Dep.linked, some (rt params), sequenceIndex deps⟩

/-- The name of the new process in an entry, nxfs.py 398-407. -/
inductive Place where
  | at (name : Str)
  | already
  | raised
  | running

/-- Where a process with a given name goes, or that its name must be incremented. -/
def place (entry : Entry) (name : Str) (noincrement : Bool) (fuel : Nat) : Place :=
  match Dict.get? entry name with
  | none => .at name
  | some node =>
    match noincrement, node with
    | true, _ => .already
    | false, .other => .already
    | false, .proc _ =>
      match freshLoop (Dict.keys entry) fuel (Name.new name) with
      | .found _ s => .at s
      | .raised => .raised
      | .running => .running

/-- The entry with the given name, created when missing. -/
def getEntry (file : File) (e : Str) : Entry := (Dict.get? file e).getD newEntry

/-- nxprocess, nxfs.py 363-414.  An exception of `set_config` after the process is created is not
distinguished from one before. -/
def nxprocess (md5 : Bytes → Bytes) (rt : Val → Val) (file : File) (here : Option Str) (name : Str)
    (params : Val) (deps : List Dep) (all noincrement : Bool) (fuel : Nat) : Result :=
  match findProcess md5 file here name params deps all with
  | none => .raised
  | some (some (e, n)) => .ok file e n
  | some none =>
    match nxentry file here fuel with
    | .raised => .raised
    | .running => .running
    | .found _ e =>
      match place (getEntry file e) name noincrement fuel with
      | .already => .already (Dict.set file e (getEntry file e))
      | .raised => .raised
      | .running => .running
      | .at n =>
        match newProc md5 rt params deps with
        | none => .raised
        | some p => .ok (Dict.set file e (Dict.set (getEntry file e) n (.proc p))) e n

end SC.Process
