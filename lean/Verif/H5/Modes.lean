import Verif.H5.Retry
/-! # Open modes of HDF5 files and nodes: model

io/h5fs.py 296-442: `h5Device.__init__`, `h5Device._openparams_defaults`, `Path._openparams_defaults` and
`Path._fopen`, with `Path.__init__` and `Path._openparams_defaults` of io/localfs.py 25-83 and `File.open`
of io/fs.py 87-104.

An HDF5 file maps paths to groups and datasets; there are no links, attributes or data types. Locking and
retries are in `Verif.H5.Retry`. A handle without write access refuses to delete (`KeyError`) and to create
(`ValueError`). `create_dataset` is a parameter that may refuse the arguments. -/
namespace SC.H5.Modes

/-- Paths of nodes in a file. -/
abbrev Path := List String

/-- The kinds of nodes. -/
inductive Kind (D : Type) where
  | group
  | dataset (d : D)
deriving DecidableEq, Repr

/-- Content of an HDF5 file. -/
abbrev File (D : Type) := Path → Option (Kind D)

variable {D : Type}

/-- A new file. -/
def emptyFile : File D := fun p => if p = [] then some .group else none

/-- The exceptions. -/
inductive Err where
  | missing
  | alreadyExists
  | notAFile
  | notADirectory
  | missingParent
  /-- `ValueError`, `TypeError`, `AttributeError`, `KeyError` or `IOError` -/
  | other
deriving DecidableEq, Repr

/-- Is the mode accepted by `h5Device.__init__` (296-314) and then by `localfs.Path.__init__` (25-41)? -/
def deviceInit (m : Mode) : Bool :=
  (m ∈ [Mode.r, .rp, .w, .x, .wm, .a]) && (m ∈ [Mode.r, .rp, .w, .x, .a])

/-- `localfs.Path._openparams_defaults`, lines 63-83. -/
def localDefaults (dflt mode : Mode) : Mode :=
  if dflt = .r then dflt
  else if dflt = .rp ∧ mode ∉ [Mode.r, .rp] then dflt
  else if dflt = .x ∧ mode ∉ [Mode.w] then dflt
  else if dflt = .w ∧ mode ∉ [Mode.r, .w] then dflt
  else if dflt = .a ∧ mode ∉ [Mode.r, .rp, .a] then dflt
  else mode

/-- `h5Device._openparams_defaults`, lines 326-347, after the call of `super`. -/
def h5Defaults (dflt mode : Mode) : Mode :=
  if dflt = .r then dflt
  else if dflt = .rp ∧ mode ∉ [Mode.r, .rp] then dflt
  else if dflt ∈ [Mode.x, .wm] ∧ mode ∉ [Mode.r, .x, .wm] then dflt
  else if dflt = .w ∧ mode ∉ [Mode.r, .w, .a] then dflt
  else if dflt = .a ∧ mode ∉ [Mode.r, .a] then dflt
  else mode

/-- The mode passed to `h5py.File` when the device is opened with `mode` (`none`: not given). -/
def deviceMode (dflt : Mode) (mode : Option Mode) : Mode :=
  h5Defaults dflt (localDefaults dflt (mode.getD dflt))

/-- `Path._openparams_defaults`, lines 391-404: mode for the node, and mode requested from the device. -/
def pathDefaults (dflt : Mode) (mode : Option Mode) : Mode × Mode :=
  (mode.getD dflt, if dflt = .w then .a else mode.getD dflt)

/-- `h5py.File(name, mode)`: content after opening, and whether it is writable. -/
def h5pyFile (mode : Mode) (file : Option (File D)) : Except Err (File D × Bool) :=
  match mode, file with
  | .r, none => .error .missing
  | .r, some f => .ok (f, false)
  | .rp, none => .error .missing
  | .rp, some f => .ok (f, true)
  | .w, _ => .ok (emptyFile, true)
  | .x, none => .ok (emptyFile, true)
  | .x, some _ => .error .other
  | .wm, none => .ok (emptyFile, true)
  | .wm, some _ => .error .other
  | .a, none => .ok (emptyFile, true)
  | .a, some f => .ok (f, true)

/-- `del f[path]` -/
def delete (f : File D) (p : Path) : File D := fun q => if p <+: q then none else f q

/-- Create or replace a node. -/
def put (f : File D) (p : Path) (k : Kind D) : File D := fun q => if q = p then some k else f q

/-- Lines 434-441. `params`: the arguments of `create_dataset` if there are any; the dataset they give. -/
def createNode (f : File D) (writable : Bool) (path : Path) (nodemode : Mode) (params : Option (Option D)) :
    File D × Except Err (Kind D) :=
  if nodemode = .r ∨ nodemode = .rp then (f, .error .missing)
  else match f path.dropLast with
    | none => (f, .error .missingParent)
    | some (.dataset _) => (f, .error .other)
    | some .group =>
      match params with
      | some (some d) =>
        if writable then (put f path (.dataset d), .ok (.dataset d)) else (f, .error .other)
      | _ => (f, .error .other)

/-- `Path._fopen`, lines 406-442, once the file is open: content afterwards and the node. -/
def fopen (f : File D) (writable : Bool) (path : Path) (nodemode : Mode) (params : Option (Option D)) :
    File D × Except Err (Kind D) :=
  match f path with
  | some k =>
    if nodemode = .wm ∨ nodemode = .x then (f, .error .alreadyExists)
    else if nodemode = .w then
      match params, k with
      | some _, .group => (f, .error .notAFile)
      | none, .dataset _ => (f, .error .notADirectory)
      | _, _ => createNode (if writable then delete f path else f) writable path nodemode params
    else if params.isSome then (f, .error .alreadyExists)
    else (f, .ok k)
  | none => createNode f writable path nodemode params

/-- A device: the file on disk and, when it is open, whether it is open for writing. -/
structure Dev (D : Type) where
  file : Option (File D)
  handle : Option Bool

/-- `device.open(mode=…)`: an open handle is used as it is. -/
def h5open (dflt : Mode) (dev : Dev D) (mode : Option Mode) : Except Err (File D × Bool) :=
  match dev.handle, dev.file with
  | some w, some f => .ok (f, w)
  | some _, none => .error .other
  | none, file => h5pyFile (deviceMode dflt mode) file

/-- `with path.open(mode=…, **params)`: file afterwards and the node. -/
def openNode (dflt : Mode) (dev : Dev D) (path : Path) (mode : Option Mode) (params : Option (Option D)) :
    Option (File D) × Except Err (Kind D) :=
  match h5open dflt dev (some (pathDefaults dflt mode).2) with
  | .error e => (dev.file, .error e)
  | .ok (f, w) =>
    let r := fopen f w path (pathDefaults dflt mode).1 params
    (some r.1, r.2)

end SC.H5.Modes
