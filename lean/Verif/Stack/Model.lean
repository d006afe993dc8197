import Verif.ListTools.Model
import Verif.Naming.Model
import Verif.Py.Dict
import Mathlib.Data.Nat.Log
/-! # Model of `align/alignDest.py` and `align/alignSource.py`

Stacks of images in arrays, HDF5 datasets or single files.  Array elements are not converted between
types.  An image is written when it has the shape of the selected part (numpy also accepts smaller
images, by broadcasting). -/
namespace SC.Stack
open SC.Py

/-- Texts. -/
abbrev Str := List Char

/-- The exceptions. -/
inductive Err where
  | index
  | value
  | key
  | overflow
deriving DecidableEq, Repr

/-- An array or dataset. -/
structure Arr (V : Type) where
  shape : List Nat
  dtype : Nat
  data : List Nat → V

variable {V : Type}

/-! ## numpy indexing with integers and full slices (trusted specification) -/

/-- An index: an integer, or the full slice (`none`). -/
abbrev Index := List (Option Nat)

/-- The part of a shape selected by an index; `none`: IndexError. -/
def selShape : Index → List Nat → Option (List Nat)
  | [], [] => some []
  | none :: ix, n :: s => (selShape ix s).map (n :: ·)
  | some i :: ix, n :: s => if i < n then selShape ix s else none
  | _, _ => none

/-- The position in the selected part of a position of the array. -/
def sel : Index → List Nat → Option (List Nat)
  | [], [] => some []
  | none :: ix, x :: xs => (sel ix xs).map (x :: ·)
  | some i :: ix, x :: xs => if x = i then sel ix xs else none
  | _, _ => none

/-- The position in the array of a position of the selected part. -/
def merge : Index → List Nat → List Nat
  | [], _ => []
  | none :: ix, x :: xs => x :: merge ix xs
  | none :: _, [] => []
  | some i :: ix, xs => i :: merge ix xs

/-- `a[ix]` -/
def getAt (a : Arr V) (ix : Index) : Except Err (Arr V) :=
  match selShape ix a.shape with
  | none => .error .index
  | some s => .ok ⟨s, a.dtype, fun j => a.data (merge ix j)⟩

/-- `a[ix] = img` -/
def setAt (a : Arr V) (ix : Index) (img : Arr V) : Except Err (Arr V) :=
  match selShape ix a.shape with
  | none => .error .index
  | some s =>
      if img.shape = s then
        .ok ⟨a.shape, a.dtype, fun p => match sel ix p with
          | some j => img.data j
          | none => a.data p⟩
      else .error .value

/-! ## alignSource -/

/-- What alignSource keeps, alignSource.py 29-43. -/
structure Source (V : Type) where
  stackdim : Nat
  nimages : Nat
  imgsize : List Nat
  datasets : List (Arr V)

/-- initshape, alignSource.py:93-99: the shape and `self.stackdim`. -/
def initshape (stackdim : Nat) (s : List Nat) : Except Err (List Nat × Nat) :=
  if 3 < s.length then .error .value
  else if s.length < 3 then .ok (s ++ List.replicate (3 - s.length) 1, 2)
  else .ok (s, stackdim)

/-- `stackdim` in __init__, alignSource.py:24-29 and alignDest.py:29-34. -/
def checkStackdim : Option Int → Except Err Nat
  | none => .ok 2
  | some k => if k < 0 ∨ 2 < k then .error .value else .ok k.toNat

/-- __init__ for a list of arrays or datasets, alignSource.py:73-86 (an empty list: IndexError). -/
def newSource (stackdim : Option Int) (source : List (Arr V)) : Except Err (Source V) := do
  let k ← checkStackdim stackdim
  match source with
  | [] => .error .index
  | a :: _ =>
      let (s, k') ← initshape k a.shape
      match s[k]? with
      | none => .error .index
      | some n => .ok ⟨k', n, s.eraseIdx k, source⟩

/-- __init__ for an HDF5 file, alignSource.py:31-43, 61-72. -/
def newSourceH5 (stackdim : Option Int) (file : Dict Str (Arr V)) (sublist : List Str) : Except Err (Source V) := do
  let k ← checkStackdim stackdim
  match sublist.mapM (Dict.get? file) with
  | none => .error .key
  | some [] => .error .index
  | some (a :: ds) =>
      if (a :: ds).all (fun d => d.shape == a.shape) then
        let (s, k') ← initshape k a.shape
        match s[k]? with
        | none => .error .index
        | some n => .ok ⟨k', n, s.eraseIdx k, a :: ds⟩
      else .error .value

/-- The index in readimg, alignSource.py:108-113. -/
def readIndex (stackdim rank i : Nat) : Index :=
  if stackdim = 0 then some i :: List.replicate (rank - 1) none
  else if stackdim = 1 then none :: some i :: none :: List.replicate (rank - 3) none
  else List.replicate (rank - 1) none ++ [some i]

/-- A last axis for data with one axis, alignSource.py:119-120. -/
def newaxis (a : Arr V) : Arr V :=
  if a.shape.length = 1 then ⟨a.shape ++ [1], a.dtype, fun j => a.data (j.take 1)⟩ else a

/-- readimg for arrays and datasets, alignSource.py:101-122. -/
def Source.readimg (s : Source V) (datasetindex imageindex : Nat) : Except Err (Arr V) :=
  match s.datasets[datasetindex]? with
  | none => .error .index
  | some a => (getAt a (readIndex s.stackdim a.shape.length imageindex)).map newaxis

/-! ## alignDest -/

/-- destshape, alignDest.py:80-81. -/
def destshape (stackdim nimages : Nat) (imgsize : Nat × Nat) : Except Err (List Nat) :=
  match SC.ListTools.move [imgsize.1, imgsize.2, nimages] 2 stackdim with
  | .ok l => .ok l
  | .error _ => .error .index

/-- The index in writeimg, alignDest.py:227-229. -/
def writeIndex (stackdim imageindex : Nat) : Except Err Index :=
  match SC.ListTools.move [none, none, some imageindex] 2 stackdim with
  | .ok l => .ok l
  | .error _ => .error .index

/-- writeimg to one array or dataset, alignDest.py:227-230. -/
def writeArr (stackdim : Nat) (a : Arr V) (img : Arr V) (imageindex : Nat) : Except Err (Arr V) :=
  match writeIndex stackdim imageindex with
  | .error e => .error e
  | .ok ix => setAt a ix img

/-- writeimg for a list of arrays or datasets. -/
def writeList (stackdim : Nat) (ds : List (Arr V)) (img : Arr V) (datasetindex imageindex : Nat) :
    Except Err (List (Arr V)) :=
  match ds[datasetindex]? with
  | none => .error .index
  | some a => (writeArr stackdim a img imageindex).map fun a' => ds.set datasetindex a'

/-- writeimg for an HDF5 file in which the datasets have the names `setnames`. -/
def writeH5 (stackdim : Nat) (setnames : List Str) (file : Dict Str (Arr V)) (img : Arr V) (datasetindex imageindex : Nat) :
    Except Err (Dict Str (Arr V)) :=
  match setnames[datasetindex]? with
  | none => .error .index
  | some name =>
      match Dict.get? file name with
      | none => .error .key
      | some a => (writeArr stackdim a img imageindex).map fun a' => Dict.set file name a'

/-- nplike_datasetscheck, nparray_prepare and h5ext_prepare, alignDest.py:169-193.  `fill`: the
contents after resizing.  Resizing itself does not fail, and arrays resized before an exception are
not modelled. -/
def prepareList (fill : Arr V → List Nat → List Nat → V) (overwrite : Bool) (ds : List (Arr V)) (shape : List Nat)
    (dtype : Nat) : Except Err (List (Arr V)) :=
  if ds.all (fun a => a.shape == shape && a.dtype == dtype) then .ok ds
  else if overwrite then
    if ds.any (fun a => a.dtype != dtype) then .error .value
    else .ok (ds.map fun a => ⟨shape, a.dtype, fill a shape⟩)
  else .error .value

/-! ### HDF5 names -/

/-- h5_composesetname, alignDest.py:83-87. -/
def composesetname (ext path name : Str) : Str :=
  if path = ['/'] then path ++ name ++ ext else path ++ '/' :: name ++ ext

/-- h5_setnames, alignDest.py:89-90. -/
def setnames (names : List Str) (ext path : Str) : List Str := names.map (composesetname ext path)

/-- h5_datasetsexist, alignDest.py:92-95. -/
def datasetsexist (file : Dict Str (Arr V)) (names : List Str) (ext path : Str) : Bool :=
  !(names.all fun name => (Dict.get? file (composesetname ext path name)).isNone)

/-- The paths tried in h5_nonexistingsetnames (`self.dir` is always `/`), alignDest.py:97-106. -/
def entryPath (num : Nat) : Str :=
  if num = 0 then ['/'] else "/entry".toList ++ Nat.toDigits 10 num

/-- The loop of h5_nonexistingsetnames; one of the first `len(file) + 2` paths is free. -/
def freeEntry (file : Dict Str (Arr V)) (names : List Str) (ext : Str) : Nat → Nat → Nat
  | 0, num => num
  | fuel + 1, num =>
      if datasetsexist file names ext (entryPath num) then freeEntry file names ext fuel (num + 1) else num

/-- h5_nonexistingsetnames, alignDest.py:97-106. -/
def nonexistingsetnames (file : Dict Str (Arr V)) (names : List Str) (ext : Str) : List Str :=
  setnames names ext (entryPath (freeEntry file names ext (file.length + 2) 0))

/-- h5_datasetscheck, alignDest.py:108-113: the type is looked up without the extension. -/
def datasetscheck (file : Dict Str (Arr V)) (ext : Str) (shape : List Nat) (dtype : Nat) : List Str → Except Err Bool
  | [] => .ok true
  | name :: names =>
      match Dict.get? file (composesetname ext ['/'] name) with
      | none => .error .key
      | some a =>
          if a.shape = shape then
            match Dict.get? file ('/' :: name) with
            | none => .error .key
            | some b => if b.dtype = dtype then datasetscheck file ext shape dtype names else .ok false
          else .ok false

/-- h5_createdatasets, alignDest.py:115-119; `zero`: the fill value (an existing name: ValueError). -/
def createdatasets (zero : V) (shape : List Nat) (dtype : Nat) : List Str → Dict Str (Arr V) → Except Err (Dict Str (Arr V))
  | [], file => .ok file
  | name :: names, file =>
      match Dict.get? file name with
      | some _ => .error .value
      | none => createdatasets zero shape dtype names (Dict.set file name ⟨shape, dtype, fun _ => zero⟩)

/-- h5_prepare, alignDest.py:121-135: the file and the names of the datasets. -/
def prepareH5 (zero : V) (overwrite : Bool) (names : List Str) (ext : Str) (shape : List Nat) (dtype : Nat)
    (file : Dict Str (Arr V)) : Except Err (Dict Str (Arr V) × List Str) :=
  let create (l : List Str) := (createdatasets zero shape dtype l file).map fun f => (f, l)
  if overwrite then
    if datasetsexist file names ext ['/'] then
      match datasetscheck file ext shape dtype names with
      | .error e => .error e
      | .ok true => .ok (file, setnames names ext ['/'])
      | .ok false => create (nonexistingsetnames file names ext)
    else create (setnames names ext ['/'])
  else create (nonexistingsetnames file names ext)

/-! ### single files -/

/-- os.path.join of a directory and a relative name. -/
def join (d name : Str) : Str := if d = [] ∨ d.getLast? = some '/' then d ++ name else d ++ '/' :: name

/-- The extension of the files that are written, alignDest.py:211-216. -/
def fileExt (ext : Str) : Str :=
  if ext = ".tif".toList ∨ ext = ".tiff".toList ∨ ext = ".edf".toList then ext else ".edf".toList

/-- singlefile_prepare, alignDest.py:167: the number of digits. -/
def digits (nimages : Nat) : Except Err Nat := if nimages = 0 then .error .overflow else .ok (Nat.log 10 nimages + 1)

/-- singlefile_composefilename, alignDest.py:137-142, 167. -/
def filename (destdir ext : Str) (width : Nat) (name : Str) (imageindex : Nat) : Str :=
  join destdir name ++ '_' :: SC.Naming.pad width imageindex ++ ext

/-- `glob(prefix + "*" + ext)` matches a file; special characters are not modelled. -/
def globs (pre ext file : Str) : Bool :=
  pre.isPrefixOf file && (let r := file.drop pre.length
    r.length ≥ ext.length && r.drop (r.length - ext.length) == ext && !((r.take (r.length - ext.length)).contains '/'))

/-- singlefile_datasetsexist, alignDest.py:144-148. -/
def filesexist {W : Type} (files : Dict Str W) (names : List Str) (ext path : Str) : Bool :=
  names.all fun s => files.any fun f => globs (join path s) ext f.1

/-- The paths tried in singlefile_nonexistingdestination, alignDest.py:150-156. -/
def destPath (dir : Str) (num : Nat) : Str := if num = 0 then dir else dir ++ '_' :: Nat.toDigits 10 num

/-- The loop; `fuel` bounds the number of directories tried. -/
def freeDest {W : Type} (files : Dict Str W) (dir : Str) (names : List Str) (ext : Str) : Nat → Nat → Nat
  | 0, num => num
  | fuel + 1, num => if filesexist files names ext (destPath dir num) then freeDest files dir names ext fuel (num + 1) else num

/-- singlefile_prepare, alignDest.py:158-167: the directory and the number of digits. -/
def prepareFiles {W : Type} (overwrite : Bool) (files : Dict Str W) (dir : Str) (names : List Str) (ext : Str) (nimages : Nat) :
    Except Err (Str × Nat) :=
  let destdir := if overwrite then dir else destPath dir (freeDest files dir names ext (files.length + 2) 0)
  (digits nimages).map fun w => (destdir, w)

/-- writeimg to a file, alignDest.py:231-234. -/
def writeFile {W : Type} (destdir ext : Str) (width : Nat) (names : List Str) (files : Dict Str W) (img : W)
    (datasetindex imageindex : Nat) : Except Err (Dict Str W) :=
  match names[datasetindex]? with
  | none => .error .index
  | some name => .ok (Dict.set files (filename destdir (fileExt ext) width name imageindex) img)

end SC.Stack
