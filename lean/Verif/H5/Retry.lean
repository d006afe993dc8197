/-! # Opening an HDF5 file with retries: model

io/h5fs.py 214-293: `h5py_errno` and `h5FileIO._open`. The attempts `h5py.File(path, **openparams)` are an
arbitrary sequence of outcomes: a handle or an `IOError`. Sleeping and the environment variable
`HDF5_USE_FILE_LOCKING` are modelled by their value only. Exceptions other than `IOError` leave the loop at
once in Python; they are an `IOError` with an unrecognised error here. -/
namespace SC.H5

/-- An `IOError`: `err.errno` and `str(err)`. -/
structure IOErr where
  errno : Option Int
  msg : List Char
deriving DecidableEq, Repr

/-- lines 214-216: `SIGERR`, `TRUNCERR`, `EEXIST` and `OPENERR` are −1, …, −4. -/
def SIGERR : Int := -1
/-- h5errno, h5fs.py 218-219. -/
def TRUNCERR : Int := -2
/-- h5errno, h5fs.py 218-219. -/
def H5EEXIST : Int := -3
/-- h5errno, h5fs.py 218-219. -/
def OPENERR : Int := -4

/-- the system error numbers in use (Linux) -/
def ENOENT : Int := 2
/-- errno.EAGAIN. -/
def EAGAIN : Int := 11
/-- errno.EEXIST. -/
def EEXIST : Int := 17
/-- errno.EISDIR. -/
def EISDIR : Int := 21

/-- `sub in s` -/
def contains (sub : List Char) : List Char → Bool
  | [] => sub.isEmpty
  | c :: s => sub.isPrefixOf (c :: s) || contains sub s

/-- The text searched in h5fs.py 226. -/
def errnoPrefix : List Char := ['e', 'r', 'r', 'n', 'o', ' ', '=', ' ']

/-- `re.search("errno = ([0-9]+)", msg)`: the leftmost match, its digits. -/
def searchErrno : List Char → Option (List Char)
  | [] => none
  | c :: s =>
    if errnoPrefix.isPrefixOf (c :: s) && !(((c :: s).drop 8).takeWhile Char.isDigit).isEmpty then
      some (((c :: s).drop 8).takeWhile Char.isDigit)
    else searchErrno s

/-- The text searched in h5fs.py 229. -/
def sigMsg : List Char := "file signature not found".toList
/-- The text searched in h5fs.py 231. -/
def truncMsg : List Char := "unable to truncate a file which is already open".toList
/-- The text searched in h5fs.py 233. -/
def existsMsg : List Char := "file exists".toList
/-- The text searched in h5fs.py 235. -/
def openMsg : List Char := "file is already open for read-only".toList

/-- `errno.errorcode.get(err.errno, None)` -/
def isKnown (known : Int → Bool) : Option Int → Bool
  | some e => known e
  | none => false

/-- `h5py_errno`, lines 219-235. `known` is `errno.errorcode`. -/
def h5pyErrno (known : Int → Bool) (err : IOErr) : Option Int :=
  if isKnown known err.errno then err.errno
  else match searchErrno err.msg with
    | some d => some (Nat.ofDigitChars 10 d 0)
    | none =>
      if contains sigMsg err.msg then some SIGERR
      else if contains truncMsg err.msg then some TRUNCERR
      else if contains existsMsg err.msg then some H5EEXIST
      else if contains openMsg err.msg then some OPENERR
      else err.errno

/-- Outcome of one attempt. -/
inductive Out (H : Type) where
  | ok (h : H)
  | err (e : IOErr)
deriving DecidableEq

/-- Outcome of `_open`. -/
inductive Res (H : Type) where
  | handle (h : H)
  | missing
  | notAFile
  | reraise (e : IOErr)
  | locked
deriving DecidableEq

/-- The modes of h5py.File. -/
inductive Mode where
  | r | rp | w | x | wm | a
deriving DecidableEq, Repr

/-- What has happened: the result, the number of calls of `h5py.File` and of `sleep`. -/
structure Trace (H : Type) where
  res : Res H
  attempts : Nat
  sleeps : Nat
deriving DecidableEq

/-- The handling of one error, lines 277-291: `none` means "try again". -/
def onError {H : Type} (known : Int → Bool) (mode : Mode) (e : IOErr) : Option (Res H) :=
  match h5pyErrno known e with
  | some code =>
    if code = ENOENT then some .missing
    else if code = EISDIR then some .notAFile
    else if code = EAGAIN ∨ code = OPENERR ∨ code = TRUNCERR then none
    else if code = EEXIST ∨ code = H5EEXIST then
      if mode = .x ∨ mode = .wm then some (.reraise e) else none
    else some (.reraise e)
  | none => some (.reraise e)

/-- The loop, lines 273-293; `outs i` is the outcome of attempt `i`. -/
def openLoop {H : Type} (known : Int → Bool) (mode : Mode) (outs : Nat → Out H) : Nat → Nat → Trace H
  | 0, i => ⟨.locked, i, i⟩
  | n + 1, i =>
    match outs i with
    | .ok h => ⟨.handle h, i + 1, i⟩
    | .err e =>
      match onError known mode e with
      | some r => ⟨r, i + 1, i⟩
      | none => openLoop known mode outs n (i + 1)

/-- `h5FileIO._open`, lines 254-293 (`retries` is 25 by default). -/
def openFile {H : Type} (known : Int → Bool) (retries : Nat) (mode : Mode) (outs : Nat → Out H) : Trace H :=
  openLoop known mode outs retries 0

end SC.H5
