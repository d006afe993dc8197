import Mathlib.Data.List.Infix
/-! # Model of `io/localfs.py` with `io/fs.py`: a tree of directories, files and links

Paths are absolute and normalized: the names from the root on (`SC.Paths` has the texts). The state is the list
of all entries; only the last name of a path is followed when it is a link: a path that goes through a link to a
directory is not modelled. Each function returns its result and the state, since an exception does not undo what
was done before. Not modelled: handles and modes, permissions, hard links, several devices (`EXDEV`),
`dereference=True`, concurrent changes. -/
namespace SC.LocalFs

variable {N C : Type} [DecidableEq N]

/-- An entry: a link has the text `../..` (`up` times) followed by names, relative to its directory. -/
inductive Node (N C : Type) where
  | dir
  | file (c : C)
  | link (up : Nat) (down : List N)

abbrev FS (N C : Type) := List (List N × Node N C)

/-- Exceptions: AlreadyExists, NotADirectory, MissingParentDirectory, DirectoryIsNotEmpty (fs.py:17-73), OSError,
TypeError, RecursionError; `unmodelled` is what is not modelled. -/
inductive Err where
  | already | notADir | missingParent | notEmpty | os | type | recursion | unmodelled
deriving DecidableEq

/-- The entry with a path; the root is always a directory. -/
def get (fs : FS N C) (p : List N) : Option (Node N C) :=
  if p = [] then some .dir else (fs.find? fun e => decide (e.1 = p)).map fun e => e.2

/-- One entry more. -/
def put (fs : FS N C) (p : List N) (n : Node N C) : FS N C := (p, n) :: fs.filter fun e => !decide (e.1 = p)

/-- `os.remove`, `os.rmdir` -/
def erase (fs : FS N C) (p : List N) : FS N C := fs.filter fun e => !decide (e.1 = p)

/-- `shutil.rmtree` -/
def rmtree (fs : FS N C) (p : List N) : FS N C := fs.filter fun e => !p.isPrefixOf e.1

/-- `self.abspath(os.readlink(self.path))`, fs.py:466-467 and localfs.py:249. -/
def target (p : List N) (up : Nat) (down : List N) : List N := p.dropLast.take (p.dropLast.length - up) ++ down

/-- What `os.stat` sees: links are followed 40 times at most. -/
def follow (fs : FS N C) : Nat → List N → Option (Node N C)
  | 0, _ => none
  | n + 1, p => match get fs p with
    | some (.link u d) => follow fs n (target p u d)
    | x => x

def stat (fs : FS N C) (p : List N) : Option (Node N C) := follow fs 41 p

/-- `exists`, localfs.py:104-106. -/
def exists' (fs : FS N C) (p : List N) : Bool := (stat fs p).isSome

/-- `isdir`, localfs.py:112-114. -/
def isdir (fs : FS N C) (p : List N) : Bool := match stat fs p with
  | some .dir => true
  | _ => false

/-- `isfile`, localfs.py:116-118. -/
def isfile (fs : FS N C) (p : List N) : Bool := match stat fs p with
  | some (.file _) => true
  | _ => false

/-- `islink`, localfs.py:120-122. -/
def islink (fs : FS N C) (p : List N) : Bool := match get fs p with
  | some (.link _ _) => true
  | _ => false

/-- `os.makedirs`: `done` is a directory. FileExistsError is `already`. -/
def makedirs : FS N C → List N → List N → Except Err Unit × FS N C
  | fs, _, [] => (.ok (), fs)
  | fs, done, n :: ns => match get fs (done ++ [n]) with
    | some .dir => makedirs fs (done ++ [n]) ns
    | none => makedirs (put fs (done ++ [n]) .dir) (done ++ [n]) ns
    | some (.file _) => (.error (if ns = [] then .already else .os), fs)
    | some (.link _ _) => (.error (if ns = [] then .already else .unmodelled), fs)

/-- mkdir with _mkdir_prepare, localfs.py:137-151 and fs.py:391-399. -/
def mkdir (fs : FS N C) (p : List N) (recursive force : Bool) : Except Err Unit × FS N C :=
  if exists' fs p then
    if !force then (.error .already, fs)
    else if isfile fs p then (.error .notADir, fs)
    else (.ok (), fs)
  else if recursive then
    match makedirs fs [] p with
    | (.error .already, fs) => (.ok (), fs)
    | r => r
  else if !exists' fs p.dropLast then (.error .missingParent, fs)
  else match get fs p.dropLast with
    | some .dir => match get fs p with
      | none => (.ok (), put fs p .dir)
      | some _ => (.error .os, fs)
    | some (.file _) => (.error .os, fs)
    | _ => (.error .unmodelled, fs)

/-- The directory has entries. -/
def hasChildren (fs : FS N C) (p : List N) : Bool := fs.any fun e => decide (e.1 ≠ [] ∧ e.1.dropLast = p)

/-- remove, localfs.py:184-203; the first argument is how many calls are possible. -/
def remove : Nat → FS N C → List N → Bool → Except Err Unit × FS N C
  | 0, fs, _, _ => (.error .recursion, fs)
  | n + 1, fs, p, recursive => match get fs p with
    | some (.link u d) =>
      if recursive then match remove n fs (target p u d) true with
        | (.error e, fs) => (.error e, fs)
        | (.ok _, fs) => match get fs p with
          | none => (.error .os, fs)
          | some _ => (.ok (), erase fs p)
      else (.ok (), erase fs p)
    | some .dir =>
      if recursive then (.ok (), rmtree fs p)
      else if hasChildren fs p then (.error .notEmpty, fs)
      else (.ok (), erase fs p)
    | some (.file _) => (.ok (), erase fs p)
    | none => (.ok (), fs)

/-- `dest[self.name]` when the destination is a directory, fs.py:370-372. -/
def destination (fs : FS N C) (src dest : List N) (rename : Bool) : List N :=
  if isdir fs dest && !rename then dest ++ src.drop (src.length - 1) else dest

/-- _copy_move_prepare, fs.py:368-381. -/
def prepare (lim : Nat) (fs : FS N C) (src dest : List N) (force rename : Bool) : Except Err (List N) × FS N C :=
  let dest := destination fs src dest rename
  let s : Except Err Unit × FS N C :=
    if exists' fs dest then
      if force then remove lim fs dest true else (.error .already, fs)
    else (.ok (), fs)
  match s with
  | (.error e, fs) => (.error e, fs)
  | (.ok _, fs) =>
    if exists' fs dest.dropLast then (.ok dest, fs)
    else match mkdir fs dest.dropLast true true with
      | (.error e, fs) => (.error e, fs)
      | (.ok _, fs) => (.ok dest, fs)

/-- The paths below `src` as paths below `dst`. -/
def rekey (src dst : List N) (e : List N × Node N C) : List N × Node N C := (dst ++ e.1.drop src.length, e.2)

/-- `os.rename`; a destination that is there is replaced only when it is a broken link (prepare removes
everything else). -/
def osRename (fs : FS N C) (src dst : List N) : Except Err Unit × FS N C := match get fs src with
  | none => (.error .os, fs)
  | some node =>
    if src.isPrefixOf dst then (.error .os, fs)
    else match get fs dst.dropLast with
      | some .dir =>
        let go (fs : FS N C) : FS N C := fs.map fun e => if src.isPrefixOf e.1 then rekey src dst e else e
        match get fs dst, node with
        | none, _ => (.ok (), go fs)
        | some (.link _ _), .dir => (.error .os, fs)
        | some (.link _ _), _ => (.ok (), go (erase fs dst))
        | some _, _ => (.error .os, fs)
      | some (.file _) => (.error .os, fs)
      | some (.link _ _) => (.error .unmodelled, fs)
      | none => (.error .os, fs)

/-- move, localfs.py:159-168. -/
def move (lim : Nat) (fs : FS N C) (src dest : List N) (force rename : Bool) : Except Err (List N) × FS N C :=
  match prepare lim fs src dest force rename with
  | (.error e, fs) => (.error e, fs)
  | (.ok dest, fs) => match osRename fs src dest with
    | (.error e, fs) => (.error e, fs)
    | (.ok _, fs) => (.ok dest, fs)

/-- copy with `dereference=False`, localfs.py:170-182. A link that is not followed raises TypeError: the method
`self.linkdest` is given instead of its result. Copying a directory into itself is not modelled. -/
def copy (lim : Nat) (fs : FS N C) (src dest : List N) (force fol : Bool) : Except Err (List N) × FS N C :=
  match prepare lim fs src dest force false with
  | (.error e, fs) => (.error e, fs)
  | (.ok dest, fs) =>
    if islink fs src && !fol then (.error .type, fs)
    else match get fs src with
      | some (.link _ _) => match stat fs src with
        | some (.file c) => match get fs dest.dropLast, get fs dest with
          | some .dir, none => (.ok dest, put fs dest (.file c))
          | some (.file _), _ => (.error .os, fs)
          | _, _ => (.error .unmodelled, fs)
        | some .dir => (.error .unmodelled, fs)
        | _ => (.error .os, fs)
      | some (.file c) => match get fs dest.dropLast, get fs dest with
        | some .dir, none => (.ok dest, put fs dest (.file c))
        | some (.file _), _ => (.error .os, fs)
        | _, _ => (.error .unmodelled, fs)
      | some .dir =>
        if src.isPrefixOf dest then (.error .unmodelled, fs)
        else match get fs dest.dropLast, get fs dest with
          | some .dir, none => (.ok dest, fs ++ (fs.filter fun e => src.isPrefixOf e.1).map (rekey src dest))
          | some .dir, some _ => (.error .os, fs)
          | some (.file _), _ => (.error .os, fs)
          | _, _ => (.error .unmodelled, fs)
      | none => (.error .os, fs)

/-- The length of the common beginning. -/
def common : List N → List N → Nat
  | a :: l, b :: m => if a = b then common l m + 1 else 0
  | _, _ => 0

/-- link with `soft=True` and an absolute destination, localfs.py:237-245; relpath is that of `os.path`. -/
def link (fs : FS N C) (p dest : List N) : Except Err Unit × FS N C := match get fs p.dropLast, get fs p with
  | some .dir, none =>
    let k := common p.dropLast dest
    (.ok (), put fs p (.link (p.dropLast.length - k) (dest.drop k)))
  | some (.link _ _), _ => (.error .unmodelled, fs)
  | _, _ => (.error .os, fs)

/-- linkdest, localfs.py:247-254. -/
def linkdest (fs : FS N C) (p : List N) : Option (List N) := match get fs p with
  | some (.link u d) => some (target p u d)
  | _ => none

/-- write of a file with mode `w`, localfs.py:260-263. -/
def write (fs : FS N C) (p : List N) (c : C) : Except Err Unit × FS N C := match get fs p.dropLast, get fs p with
  | some .dir, none => (.ok (), put fs p (.file c))
  | some .dir, some (.file _) => (.ok (), put fs p (.file c))
  | some (.link _ _), _ => (.error .unmodelled, fs)
  | _, some (.link _ _) => (.error .unmodelled, fs)
  | _, _ => (.error .os, fs)

/-- renameremove, fs.py:721-727. -/
def renameremove (lim : Nat) (fs : FS N C) (p dest : List N) (force : Bool) : Except Err (List N) × FS N C :=
  match move lim fs p dest force true with
  | (.error .already, fs) => match remove lim fs p true with
    | (.error e, fs) => (.error e, fs)
    | (.ok _, fs) => (.ok p, fs)
  | r => r

end SC.LocalFs
