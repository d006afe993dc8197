import Mathlib.Data.List.Basic
/-! # Model of paths (`io/fs.py`, `io/localfs.py`, `io/h5fs.py`)

For systems where `os.sep` is `/`, so that `_sep_in` and `_sep_out` (fs.py 437-450) do nothing.
`posixpath` is modelled after its source.  `cwd` is the working directory. -/

namespace SC.Paths

/-- Texts. -/
abbrev Str := List Char

/-! ## `posixpath` -/

/-- `s.split("/")` -/
def split : Str → List Str
  | [] => [[]]
  | c :: s =>
    if c = '/' then [] :: split s
    else match split s with
      | x :: xs => (c :: x) :: xs
      | [] => [[c]]

/-- `sep.join(l)` -/
def glue (sep : Str) : List Str → Str
  | [] => []
  | [x] => x
  | x :: y :: l => x ++ sep ++ glue sep (y :: l)

/-- `.` -/
def dot : Str := ['.']
/-- `..` -/
def dots : Str := ['.', '.']

/-- One pass of the loop in `posixpath.normpath`; `rel` is `not initial_slashes`. -/
def normStep (rel : Bool) (comps : List Str) (comp : Str) : List Str :=
  if comp = [] ∨ comp = dot then comps
  else if comp ≠ dots ∨ (rel = true ∧ comps = []) ∨ comps.getLast? = some dots then comps ++ [comp]
  else comps.dropLast

/-- The number of initial slashes kept by `normpath`: POSIX allows two. -/
def slashes : Str → Nat
  | '/' :: '/' :: '/' :: _ => 1
  | '/' :: '/' :: _ => 2
  | '/' :: _ => 1
  | _ => 0

/-- `posixpath.normpath` -/
def normpath (path : Str) : Str :=
  if path = [] then dot
  else
    let k := slashes path
    let comps := (split path).foldl (normStep (k == 0)) []
    let r := List.replicate k '/' ++ glue ['/'] comps
    if r = [] then dot else r

/-- `posixpath.isabs` -/
def isabs : Str → Bool
  | '/' :: _ => true
  | _ => false

/-- `posixpath.join(a, b)` -/
def join (a b : Str) : Str :=
  if isabs b then b
  else if a = [] ∨ a.getLast? = some '/' then a ++ b
  else a ++ '/' :: b

/-- `posixpath.abspath` -/
def abspath (cwd path : Str) : Str := normpath (if isabs path then path else join cwd path)

/-- The length of the common prefix (`genericpath.commonprefix`). -/
def common : List Str → List Str → Nat
  | x :: xs, y :: ys => if x = y then common xs ys + 1 else 0
  | _, _ => 0

/-- `[x for x in path.split(sep) if x]` -/
def parts (path : Str) : List Str := (split path).filter fun x => !x.isEmpty

/-- `posixpath.relpath` for a non-empty path. -/
def relpath (cwd path start : Str) : Str :=
  let s := parts (abspath cwd start)
  let p := parts (abspath cwd path)
  let i := common s p
  match List.replicate (s.length - i) dots ++ p.drop i with
  | [] => dot
  | x :: l => l.foldl join x

/-- `posixpath.basename` -/
def basename (path : Str) : Str := (split path).getLastD []

/-! ## Paths without device (`fs.Path`, `localfs.Path`) -/

/-- `norm` (fs.py 456-463) -/
def norm (cwd path : Str) : Str := abspath cwd (normpath path)

/-- `self[value]` on the path (fs.py 329-334) -/
def getitem (cwd p value : Str) : Str := norm cwd (join p value)

/-- `parent` (fs.py 350-352) -/
def parent (cwd p : Str) : Str := getitem cwd p dots

/-- `relpath` (fs.py 468-473) -/
def relTo (cwd p path : Str) : Str := if isabs path then relpath cwd path p else path

/-- `abspath` (fs.py 465-466) -/
def absOf (cwd p path : Str) : Str := norm cwd (join (parent cwd p) path)

/-- `name` (fs.py 480-482) -/
def name (p : Str) : Str := basename p

/-- `sibling` (fs.py 261-272) of a local path, given as text -/
def sibling (cwd p path : Str) : Str := if isabs path then norm cwd path else getitem cwd (parent cwd p) path

/-- `iterup` (fs.py 490-497); the first argument bounds the number of steps. -/
def iterupN (cwd : Str) : Nat → Str → List Str
  | 0, p => [p]
  | n + 1, p => if p = parent cwd p ∨ parent cwd p = [] then [p] else p :: iterupN cwd n (parent cwd p)

/-- `iterup` (fs.py 490-497). -/
def iterup (cwd p : Str) : List Str := iterupN cwd p.length p

/-- `root` (fs.py 484-488) -/
def root (cwd p : Str) : Str := (iterup cwd p).getLastD []

/-- The loop of `common` (fs.py 360-366). -/
def commonLoop : Option Str → List (Str × Str) → Option Str
  | ret, [] => ret
  | ret, (a, b) :: l => if a = b then commonLoop (some a) l else ret

/-- `common` (fs.py 354-366) -/
def commonPath (cwd p q : Str) : Option Str := commonLoop none ((iterup cwd p).reverse.zip (iterup cwd q).reverse)

/-- `p += v` and `p.append(v)` (fs.py 326-327, 343-344): the path afterwards. -/
def iadd (cwd p v : Str) : Str := norm cwd (p ++ v)

/-! ## HDF5 paths (`h5fs.Path`) -/

/-- The separator of file and node, `::`. -/
def devsep : Str := [':', ':']

/-- The longest text without slash followed by `::`, and what follows. -/
def longest : Str → Option (Str × Str)
  | [] => none
  | c :: s =>
    if c = '/' then none
    else match longest s with
      | some (x, r) => some (c :: x, r)
      | none => if devsep.isPrefixOf (c :: s) then some ([], (c :: s).drop 2) else none

/-- The match of `\.[^/]+::` at the start of a text (h5fs.py 508): the match without `::`, and what
follows. -/
def deviceMatch : Str → Option (Str × Str)
  | '.' :: c :: s => if c = '/' then none else (longest s).map fun x => ('.' :: c :: x.1, x.2)
  | _ => none

/-- `devsplit` (h5fs.py 506-519); the first argument bounds the number of steps, the second is the text
since the last match. -/
def devsplitN : Nat → Str → Str → List Str
  | 0, acc, s => [acc ++ s]
  | _ + 1, acc, [] => [acc]
  | n + 1, acc, c :: s =>
    match deviceMatch (c :: s) with
    | some (x, r) => (acc ++ x) :: devsplitN n [] r
    | none => devsplitN n (acc ++ [c]) s

/-- `devsplit` (h5fs.py 506-519). -/
def devsplit (s : Str) : List Str := devsplitN s.length [] s

/-- The device and the rest of a split path (fs.py 209-219). -/
def headRest : List Str → Str × Str
  | [] => ([], [])
  | [x] => (x, [])
  | x :: l => (x, glue devsep l)

/-- `_split_path` (fs.py 181-237) of a HDF5 path. -/
def splitPath (path : Str) (device : Option Str) : Str × Str :=
  let devicepath := (headRest (devsplit path)).1
  let localpath := (headRest (devsplit path)).2
  match device with
  | none => (devicepath, localpath)
  | some d =>
    if devicepath = d then (d, localpath)
    else if d.isPrefixOf path then
      let l := path.drop d.length
      (d, if devsep.isPrefixOf l then l.drop 2 else l)
    else if localpath = [] then (d, path)
    else (devicepath, localpath)

/-- A HDF5 path: the path of the file (normalized by `h5Device`) and the path inside. -/
structure H5 where
  device : Str
  path : Str
deriving DecidableEq, Repr

/-- `Path(path, h5file=device)` (h5fs.py 361-373); `none`: `ValueError`.  A device given as an object
has a normalized path already. -/
def h5Init (cwd path : Str) (device : Option Str) : Option H5 :=
  let x := splitPath path device
  let p := if isabs x.2 then x.2 else '/' :: x.2
  if x.1 = [] then none else some ⟨norm cwd x.1, norm cwd p⟩

/-- `factory` (h5fs.py 375-381) -/
def h5Factory (cwd : Str) (self : H5) (path : Str) : Option H5 :=
  let x := splitPath path (some self.device)
  h5Init cwd x.2 (some x.1)

/-- `location` (fs.py 159-164) -/
def H5.location (p : H5) : Str := p.device ++ devsep ++ p.path

/-- `self[value]` (fs.py 329-334) -/
def h5Getitem (cwd : Str) (self : H5) (value : Str) : Option H5 :=
  h5Factory cwd self (self.device ++ devsep ++ join self.path value)

/-- `sibling` (fs.py 261-272) -/
def h5Sibling (cwd : Str) (self : H5) (path : Str) : Option H5 :=
  let x := splitPath path (some self.device)
  if self.device = x.1 ∧ isabs x.2 = false then (h5Getitem cwd self dots).bind fun p => h5Getitem cwd p x.2
  else h5Factory cwd self path

/-- `".." in s` -/
def hasDots : Str → Bool
  | [] => false
  | c :: s => dots.isPrefixOf (c :: s) || hasDots s

/-- The text of the soft link made by `self.link(dest)` for a destination in the same file
(h5fs.py 662-684), given as a path or (relative or absolute) text: `destpath` is `sibling(dest)`. -/
def h5LinkText (cwd : Str) (self : H5) (dest : Str) (destpath : H5) : Str :=
  let t := relTo cwd (parent cwd self.path) dest
  if hasDots t then destpath.path else t

/-- The destination of a soft link with this text (`linkdest`, h5fs.py 710-718). -/
def h5LinkDest (cwd : Str) (self : H5) (text : Str) : Str := absOf cwd self.path text

/-- `_copymove_relink` (h5fs.py 569-580) for one soft link that was moved or copied from below `source`
to `self` below `dest`: where it leads afterwards (through the text of `self.link`, see
`h5LinkText`). -/
def relink (cwd source dest : Str) (self : H5) (text : Str) : Str :=
  let linkdest := h5LinkDest cwd self text
  if commonPath cwd source linkdest = some source then
    let d := getitem cwd dest (relTo cwd source linkdest)
    h5LinkDest cwd self (h5LinkText cwd self d ⟨self.device, d⟩)
  else linkdest

end SC.Paths
