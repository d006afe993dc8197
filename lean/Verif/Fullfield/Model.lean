import Mathlib.Algebra.Field.Rat
import Mathlib.Algebra.Order.Field.Rat
import Mathlib.Algebra.BigOperators.Group.List.Basic
import Verif.Py.Dict
import Verif.Common.Sort
import Mathlib.Data.List.Lex
import Mathlib.Data.Char
/-! # Model of full-field images, `fullfield/import_id21.py` and `process/nxfullfield.py`

Pixels are exact numbers.  Not modelled: broadcasting of images with one row or column, images of integers (subtraction of
the dark raises), texts in headers that are not numbers, rebinning by zero, exposures of zero seconds (0 here), `glob`
(files are given in its order). -/
namespace SC.Fullfield

open SC.Py

abbrev Str := List Char

/-- Exceptions. -/
inductive Err
  | valueError | typeError | indexError | ioError
  deriving DecidableEq

/-- An image; pixels outside of its shape have no meaning. -/
structure Img where
  rows : Nat
  cols : Nat
  px : Nat → Nat → ℚ

/-- One end of a Python slice of a dimension of so many pixels. -/
def sliceBound (n default : Nat) : Option Int → Nat
  | none => default
  | some i => if i < 0 then ((n : Int) + i).toNat else min i.toNat n

/-- A region: rows, and columns. -/
abbrev Region := (Option Int × Option Int) × (Option Int × Option Int)

/-- execroi, import_id21.py:23-31 -/
def execroi (img : Img) (roi : Region) : Img :=
  let r0 := sliceBound img.rows 0 roi.1.1
  let r1 := sliceBound img.rows img.rows roi.1.2
  let c0 := sliceBound img.cols 0 roi.2.1
  let c1 := sliceBound img.cols img.cols roi.2.2
  ⟨r1 - r0, c1 - c0, fun i j => img.px (r0 + i) (c0 + j)⟩

/-- The reshaped view in execrebin, import_id21.py:18-20: the value with these four indices, in C-order. -/
def view4 (img : Img) (r : Nat × Nat) (i a j b : Nat) : ℚ :=
  let s1 := img.cols / r.2
  let k := ((i * r.1 + a) * s1 + j) * r.2 + b
  img.px (k / (s1 * r.2)) (k % (s1 * r.2))

/-- execrebin, import_id21.py:9-20 -/
def execrebin (img : Img) (r : Nat × Nat) : Img :=
  ⟨img.rows / r.1, img.cols / r.2, fun i j =>
    ((List.range r.1).map fun a => ((List.range r.2).map fun b => view4 img r i a j b).sum).sum⟩

/-- A stack value: the text in a header, or a number that is given. -/
inductive Key
  | text (s : Str)
  | value (q : ℚ)
  deriving DecidableEq

/-- The parameters, nxfullfield.py:10-40. -/
structure Params where
  roi : Option Region
  rebin : Nat × Nat
  frametimelabel : Str
  frametimedefault : Str
  nbframeslabel : Str
  stacklabel : Str
  roilabel : Str
  darkzero : ℚ
  darkgain : ℚ
  datastackvalues : List Key
  flatstackvalues : List Key
  flatbeforeafter : Bool
  normalize : Bool
  keepflat : Bool

/-- A file: its header and image. -/
structure File where
  header : Dict Str Str
  img : Img

/-- procraw, import_id21.py:34-43 -/
def procraw (p : Params) (img : Img) : Img :=
  let img := match p.roi with
    | none => img
    | some roi => execroi img roi
  if 1 < p.rebin.1 ∨ 1 < p.rebin.2 then execrebin img p.rebin else img

/-- The exposure time of a frame as text, import_id21.py:82-86. -/
def frametime (p : Params) (f : File) : Str := (Dict.get? f.header p.frametimelabel).getD p.frametimedefault

/-- The number of frames, import_id21.py:88-92; `num` is `float`. -/
def nframes (num : Str → ℚ) (p : Params) (f : File) : ℚ := match Dict.get? f.header p.nbframeslabel with
  | some t => num t
  | none => 1

/-! ## Dark images -/

/-- In-place addition of images. -/
def addImg (a b : Img) : Except Err Img :=
  if a.rows = b.rows ∧ a.cols = b.cols then .ok ⟨a.rows, a.cols, fun i j => a.px i j + b.px i j⟩ else .error .valueError

/-- The library of dark images by exposure time, and number of frames. -/
abbrev DarkLib := Dict Str (Img × ℚ)

/-- The loop of darklibrary, import_id21.py:74-99 -/
def darkLoop (num : Str → ℚ) (p : Params) : List File → DarkLib → Except Err DarkLib
  | [], lib => .ok lib
  | f :: r, lib => match Dict.get? lib (frametime p f) with
    | none => darkLoop num p r (Dict.set lib (frametime p f) (procraw p f.img, nframes num p f))
    | some d => match addImg d.1 (procraw p f.img) with
      | .error e => .error e
      | .ok img => darkLoop num p r (Dict.set lib (frametime p f) (img, d.2 + nframes num p f))

/-- darklibrary, import_id21.py:46-101 -/
def darklibrary (num : Str → ℚ) (p : Params) (files : List File) : Except Err DarkLib := darkLoop num p files []

/-- Dark data: an image, or one number. -/
inductive DarkData
  | image (img : Img)
  | number (q : ℚ)

/-- The lookup with its default, import_id21.py:66-72. -/
def darkOf (num : Str → ℚ) (p : Params) (lib : DarkLib) (t : Str) : DarkData × ℚ :=
  match Dict.get? lib t with
  | some d => (.image d.1, d.2)
  | none => (.number (p.darkzero + p.darkgain * num t), 1)

/-! ## Normalised images -/

/-- `data -= dark["data"] / dark["nframes"] * nframes`, import_id21.py:403 -/
def subDark (img : Img) (d : DarkData × ℚ) (n : ℚ) : Except Err Img :=
  match d.1 with
  | .number q => .ok ⟨img.rows, img.cols, fun i j => img.px i j - q / d.2 * n⟩
  | .image x =>
    if img.rows = x.rows ∧ img.cols = x.cols then .ok ⟨img.rows, img.cols, fun i j => img.px i j - x.px i j / d.2 * n⟩
    else .error .valueError

/-- The loop of getnormalizedimage, import_id21.py:381-409: image and time so far. -/
def normLoop (num : Str → ℚ) (p : Params) (lib : DarkLib) : List File → Option (Img × ℚ) → Except Err (Option (Img × ℚ))
  | [], acc => .ok acc
  | f :: r, acc =>
    match subDark (procraw p f.img) (darkOf num p lib (frametime p f)) (nframes num p f) with
    | .error e => .error e
    | .ok data => match acc with
      | none => normLoop num p lib r (some (data, num (frametime p f) * nframes num p f))
      | some (img, time) => match addImg img data with
        | .error e => .error e
        | .ok img => normLoop num p lib r (some (img, time + num (frametime p f) * nframes num p f))

/-- getnormalizedimage, import_id21.py:367-413: without files `None /= None`. -/
def getnormalizedimage (num : Str → ℚ) (p : Params) (lib : DarkLib) (files : List File) : Except Err Img :=
  match normLoop num p lib files none with
  | .error e => .error e
  | .ok none => .error .typeError
  | .ok (some (img, time)) => .ok ⟨img.rows, img.cols, fun i j => img.px i j / time⟩

/-! ## Regions and axes -/

/-- The characters between numbers in `[<>,\-x ]+`. -/
def isSep (c : Char) : Bool := c = '<' ∨ c = '>' ∨ c = ',' ∨ c = '-' ∨ c = 'x' ∨ c = ' '

/-- The non-empty texts of `re.split`, import_id21.py:113; `cur` is the text so far. -/
def tokens (cur : Str) : Str → List Str
  | [] => if cur = [] then [] else [cur]
  | c :: s => if isSep c then (if cur = [] then tokens [] s else cur :: tokens [] s) else tokens (cur ++ [c]) s

/-- `int(s)` for digits; anything else raises (signs, spaces and underscores are not modelled). -/
def parseInt (s : Str) : Except Err Nat :=
  if s ≠ [] ∧ s.all (fun c => 48 ≤ c.toNat && c.toNat ≤ 57) = true then .ok (s.foldl (fun n c => 10 * n + (c.toNat - 48)) 0)
  else .error .valueError

/-- A list comprehension of `int`. -/
def parseInts : List Str → Except Err (List Nat)
  | [] => .ok []
  | s :: r => match parseInt s, parseInts r with
    | .ok n, .ok l => .ok (n :: l)
    | .error e, _ => .error e
    | _, .error e => .error e

/-- Region on the camera: first row, first column, number of rows, number of columns. -/
structure CamRoi where
  y0 : Nat
  x0 : Nat
  ny : Nat
  nx : Nat
  deriving DecidableEq

/-- getroi, import_id21.py:104-122: fewer than four numbers in the header raise IndexError. -/
def getroi (label : Str) (f : File) : Except Err CamRoi :=
  match Dict.get? f.header label with
  | none => .ok ⟨0, 0, f.img.rows, f.img.cols⟩
  | some t => match parseInts (tokens [] t) with
    | .error e => .error e
    | .ok (a :: b :: c :: d :: _) => .ok ⟨b, a, d, c⟩
    | .ok _ => .error .indexError

/-- `None` and negative ends in axesvalues, import_id21.py:144-159. -/
def axisEnd (n : Nat) (default : Int) : Option Int → Int
  | none => default
  | some a => if a < 0 then a + n else a

/-- np.linspace -/
def linspace (a b : ℚ) (n : Int) : Except Err (List ℚ) :=
  if n < 0 then .error .valueError
  else .ok ((List.range n.toNat).map fun (i : Nat) => a + (i : ℚ) * ((b - a) / ((n : ℚ) - 1)))

/-- One axis of axesvalues, import_id21.py:138-181: camera offset and size, the ends of the region, the bin size. -/
def axisvalues (x0 nx : Nat) (roi : Option (Option Int × Option Int)) (d : Nat) : Except Err (List ℚ) :=
  let (x0, nx) : Int × Int := match roi with
    | none => (x0, nx)
    | some (a, b) => (x0 + axisEnd nx 0 a, axisEnd nx nx b - axisEnd nx 0 a)
  let n := nx / (d : Int)
  let start : ℚ := x0 + ((d : ℚ) - 1) / 2
  linspace start (start + ((n : ℚ) - 1) * d) n

/-- axesvalues, import_id21.py:125-183: rows and columns. -/
def axesvalues (roi : CamRoi) (p : Params) : Except Err (List ℚ × List ℚ) :=
  match axisvalues roi.x0 roi.nx (p.roi.map Prod.snd) p.rebin.2, axisvalues roi.y0 roi.ny (p.roi.map Prod.fst) p.rebin.1 with
  | .ok col, .ok row => .ok (row, col)
  | .error e, _ => .error e
  | _, .error e => .error e

/-! ## Data and flat fields -/

/-- Stack values that are given, import_id21.py:214-226: ignored unless there is one for each file. -/
def stackvalues (given : List Key) (n : Nat) : List (Option Key) :=
  if given = [] ∨ given.length ≠ n then List.replicate n none else given.map some

/-- The stack value of a file, import_id21.py:236-242, 263-269: files without one are skipped. -/
def fileKey (p : Params) (f : File) : Option Key → Option Key
  | some k => some k
  | none => (Dict.get? f.header p.stacklabel).map .text

/-- The state of the two loops in dataflatlibrary: files are their names. -/
structure Lib where
  roi : Option CamRoi
  data : Dict Key (List Str)
  flat : Dict Key (List Str)

/-- `dict[key].append(f)` -/
def append (d : Dict Key (List Str)) (k : Key) (f : Str) : Dict Key (List Str) := Dict.set d k ((Dict.get? d k).getD [] ++ [f])

/-- A data file with its stack value and region, import_id21.py:244-257. -/
def dataAdd (st : Lib) (f : Str) (key : Key) (roi : CamRoi) : Lib :=
  if st.roi ≠ none ∧ st.roi ≠ some roi then st
  else match Dict.get? st.data key with
    | some _ => { st with roi := some roi, data := append st.data key f }
    | none => { roi := some roi, data := Dict.set st.data key [f], flat := Dict.set st.flat key [] }

/-- A flat field, import_id21.py:271-281. -/
def flatAdd (st : Lib) (f : Str) (key : Key) (roi : CamRoi) : Lib :=
  if st.roi ≠ none ∧ st.roi ≠ some roi then st
  else match Dict.get? st.flat key with
    | some _ => { st with roi := some roi, flat := append st.flat key f }
    | none => { st with roi := some roi }

/-- One of the loops, import_id21.py:232-257, 259-281. -/
def libLoop (add : Lib → Str → Key → CamRoi → Lib) (fs : Str → File) (p : Params) : List (Str × Option Key) → Lib → Except Err Lib
  | [], st => .ok st
  | (f, sv) :: r, st => match fileKey p (fs f) sv with
    | none => libLoop add fs p r st
    | some key => match getroi p.roilabel (fs f) with
      | .error e => .error e
      | .ok roi => libLoop add fs p r (add st f key roi)

/-- Both loops, import_id21.py:228-281. -/
def collectFiles (fs : Str → File) (p : Params) (datafiles flatfiles : List Str) : Except Err Lib :=
  match libLoop dataAdd fs p (datafiles.zip (stackvalues p.datastackvalues datafiles.length)) ⟨none, [], []⟩ with
  | .error e => .error e
  | .ok st => libLoop flatAdd fs p (flatfiles.zip (stackvalues p.flatstackvalues flatfiles.length)) st

/-- The flat fields before and after of one stack value, import_id21.py:301-308. -/
def splitFlat (files : List Str) : List Str × List Str :=
  let files := SC.Common.stableSort id files
  if files.length = 1 then (files, []) else (files.take (files.length / 2), files.drop (files.length / 2))

/-- The libraries of flat fields, import_id21.py:296-311. -/
def flatLibs (p : Params) (flat : Dict Key (List Str)) : Dict Key (List Str) × Option (Dict Key (List Str)) :=
  if p.flatbeforeafter then
    (flat.map fun q => (q.1, (splitFlat q.2).1), some (flat.map fun q => (q.1, (splitFlat q.2).2)))
  else (flat, none)

/-- np.argsort, import_id21.py:315, as a stable sort (the order of equal values is not specified by numpy). -/
def argsort (v : List ℚ) : List Nat := SC.Common.stableSort (fun i => v[i]?.getD 0) (List.range v.length)

/-- The result of dataflatlibrary, import_id21.py:326-327; `row` and `col` are the other axes. -/
structure Stack where
  data : Dict Key (List Str)
  flat1 : Dict Key (List Str)
  flat2 : Option (Dict Key (List Str))
  keyindices : List Nat
  values : List ℚ
  row : List ℚ
  col : List ℚ

/-- dataflatlibrary, import_id21.py:186-327; `val` is `np.float32` of a stack value. -/
def dataflatlibrary (val : Key → ℚ) (fs : Str → File) (p : Params) (datafiles flatfiles : List Str) : Except Err Stack :=
  match collectFiles fs p datafiles flatfiles with
  | .error e => .error e
  | .ok st => match st.roi with
    | none => .error .ioError
    | some roi => if st.data = [] then .error .ioError else
      match axesvalues roi p with
      | .error e => .error e
      | .ok (row, col) =>
        let v := (Dict.keys st.data).map val
        let idx := argsort v
        .ok ⟨st.data, (flatLibs p st.flat).1, (flatLibs p st.flat).2, idx, idx.map fun i => v[i]?.getD 0, row, col⟩

/-! ## The task -/

/-- `f(a, b)` by pixel. -/
def zipImg (f : ℚ → ℚ → ℚ) (a b : Img) : Except Err Img :=
  if a.rows = b.rows ∧ a.cols = b.cols then .ok ⟨a.rows, a.cols, fun i j => f (a.px i j) (b.px i j)⟩ else .error .valueError

/-- One image of the stack, with its flat fields when they are needed. -/
structure Slice where
  sample : Img
  flat1 : Option Img
  flat2 : Option Img

/-- The flat fields of a stack value, nxfullfield.py:81-88. -/
def sliceFlats (norm : List File → Except Err Img) (fs : Str → File) (p : Params) (s : Stack) (key : Key) :
    Except Err (Option Img × Option Img) :=
  if p.keepflat = false ∧ p.normalize = false then .ok (none, none)
  else match norm (((Dict.get? s.flat1 key).getD []).map fs) with
    | .error e => .error e
    | .ok a => match s.flat2 with
      | none => .ok (some a, none)
      | some d => match norm (((Dict.get? d key).getD []).map fs) with
        | .error e => .error e
        | .ok b => .ok (some a, some b)

/-- The flat field that is divided by, nxfullfield.py:92-95. -/
def meanFlat : Option Img × Option Img → Except Err Img
  | (some a, none) => .ok a
  | (some a, some b) => zipImg (fun x y => (x + y) / 2) a b
  | (none, _) => .error .typeError

/-- One pass of the loop, nxfullfield.py:77-96; `neglog` is `-np.log`. -/
def slice (neglog : ℚ → ℚ) (num : Str → ℚ) (lib : DarkLib) (fs : Str → File) (p : Params) (s : Stack) (key : Key) :
    Except Err Slice :=
  match getnormalizedimage num p lib (((Dict.get? s.data key).getD []).map fs) with
  | .error e => .error e
  | .ok img => match sliceFlats (getnormalizedimage num p lib) fs p s key with
    | .error e => .error e
    | .ok fl =>
      if p.normalize then match meanFlat fl with
        | .error e => .error e
        | .ok f => match zipImg (fun x y => neglog (x / y)) img f with
          | .error e => .error e
          | .ok img => .ok ⟨img, fl.1, fl.2⟩
      else .ok ⟨img, fl.1, fl.2⟩

/-- The loop, nxfullfield.py:75-129, for the stack values in their order.  The datasets have the shape of the first image;
images of another shape raise (not modelled). -/
def slices (neglog : ℚ → ℚ) (num : Str → ℚ) (lib : DarkLib) (fs : Str → File) (p : Params) (s : Stack) :
    List Nat → Except Err (List Slice)
  | [] => .ok []
  | i :: r => match (Dict.keys s.data)[i]? with
    | none => .error .indexError
    | some key => match slice neglog num lib fs p s key, slices neglog num lib fs p s r with
      | .ok x, .ok l => .ok (x :: l)
      | .error e, _ => .error e
      | _, .error e => .error e

/-- _execute, nxfullfield.py:42-129: the values of the stack and its images. -/
def execute (neglog : ℚ → ℚ) (num : Str → ℚ) (val : Key → ℚ) (fs : Str → File) (p : Params) (darkfiles datafiles flatfiles : List Str) :
    Except Err (Stack × List Slice) :=
  match darklibrary num p (darkfiles.map fs) with
  | .error e => .error e
  | .ok lib => match dataflatlibrary val fs p datafiles flatfiles with
    | .error e => .error e
    | .ok s => match slices neglog num lib fs p s s.keyindices with
      | .error e => .error e
      | .ok l => .ok (s, l)

end SC.Fullfield
