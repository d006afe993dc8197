import Verif.EdfHead.Model
import Verif.Scan.Model
/-! # Model of the look-ups in a spec file

`spec._data_from_scan`, `getmotorvalues`, `haslabels`, `hasmotors`, `_getxialoc` and `getimages` of
`io/spec.py`. Simplified: lower case and blanks are those of ASCII; numbers are rational. -/
namespace SC.SpecFile
open SC.Scan (Str)
open SC.Py (Dict)

/-- Exceptions. -/
inductive Err where
  | valueError | indexError | zeroDivision
deriving DecidableEq

/-- _parse_labels of one label, spec.py:721-725. -/
def lower (s : Str) : Str := s.map Char.toLower

/-- `list.index` -/
def index : List Str → Str → Option Nat
  | [], _ => none
  | x :: r, l => if x = l then some 0 else (index r l).map (· + 1)

/-- `[lst.index(label) for label in labels]` -/
def indices (lst : List Str) : List Str → Except Err (List Nat)
  | [] => .ok []
  | l :: r => match index lst l with
    | none => .error .valueError
    | some i => match indices lst r with
      | .error e => .error e
      | .ok t => .ok (i :: t)

/-- _data_from_scan, spec.py:745-754: the rows of the scan, `names` are its labels. -/
def dataFromScan (names : List Str) (rows : List (List Rat)) (labels : List Str) : Except Err (List (List Rat)) :=
  if labels.isEmpty then .ok rows
  else match indices (names.map lower) (labels.map lower) with
    | .error e => .error e
    | .ok ind => .ok (rows.map fun r => ind.map fun i => r.getD i 0)

/-- getmotorvalues with a list, spec.py:821-830. -/
def motorValues (names : List Str) (values : List Rat) (motors : List Str) : Except Err (List Rat) :=
  match indices (names.map lower) (motors.map lower) with
  | .error e => .error e
  | .ok ind => .ok (ind.map fun i => values.getD i 0)

/-- haslabels and hasmotors with a list, spec.py:812-819 and 832-839. -/
def has (names labels : List Str) : List Bool := (labels.map lower).map fun l => (names.map lower).contains l

/-- `s.split(":")` -/
def split : Str → List Str
  | [] => [[]]
  | c :: s => match split s with
    | [] => [[c]]
    | w :: r => if c = ':' then [] :: w :: r else (c :: w) :: r

/-- `s.strip()` -/
def strip (s : Str) : Str := ((s.dropWhile SC.Scan.isBlank).reverse.dropWhile SC.Scan.isBlank).reverse

/-- The location of the XIA files. -/
structure Loc where
  dir : Str
  radix : Str
  scan : Str
  image : Str
deriving DecidableEq

def kDir : Str := ['D', 'I', 'R', 'E', 'C', 'T', 'O', 'R', 'Y']
def kRadix : Str := ['R', 'A', 'D', 'I', 'X']
def kScan : Str := ['Z', 'A', 'P', ' ', 'S', 'C', 'A', 'N', ' ', 'N', 'U', 'M', 'B', 'E', 'R']
def kImage : Str := ['Z', 'A', 'P', ' ', 'I', 'M', 'A', 'G', 'E', ' ', 'N', 'U', 'M', 'B', 'E', 'R']
def tC : Str := ['#', 'C', ' ']
def tXia : Str := ['#', '@', 'X', 'I', 'A', 'F', 'I', 'L', 'E', ' ']

/-- `loc[key] = value` for the known keys, spec.py:773-774. -/
def Loc.put (l : Loc) (k v : Str) : Loc :=
  if k = kDir then { l with dir := v }
  else if k = kRadix then { l with radix := v }
  else if k = kScan then { l with scan := v }
  else if k = kImage then { l with image := v }
  else l

/-- One line of the header, spec.py:768-781; `xia`: directory, radix and number of a XIA file name
(simplified: the file name can be parsed and numbers are kept as texts). -/
def locStep (xia : Str → Str × Str × Str) (l : Loc) (s : Str) : Loc :=
  let l := if tC.isPrefixOf s then match split (s.drop 2) with
      | [a, b] => l.put (strip a) (strip b)
      | _ => l
    else l
  if tXia.isPrefixOf s then
    let x := xia (s.drop 10)
    ⟨x.1, x.2.1, x.2.2, ['0']⟩
  else l

/-- _getxialoc, spec.py:760-782. -/
def xiaLoc (xia : Str → Str × Str × Str) (header : List Str) : Loc := header.foldl (locStep xia) ⟨[], [], [], []⟩

/-- A scan of the file: number, command and header. -/
structure Scan where
  number : Str
  command : Str
  header : List Str

/-- What getimages keeps of a scan: without the texts around the numbers. -/
structure Image where
  specnumber : Str
  npixels : Int
  nlines : Int
  sizeFast : Rat
  sizeSlow : Rat
  pixelFast : Rat
  pixelSlow : Rat
  puzzle : Bool
  dir : Str
  name : Str
  scannumber : Str
deriving DecidableEq

/-- `"#C " in line` -/
def contains (t : Str) : Str → Bool
  | [] => t.isEmpty
  | c :: s => t.isPrefixOf (c :: s) || contains t s

/-- `[i.split(":")[1].strip() for i in h if "#C " in i]`, spec.py:974. -/
def comments : List Str → Except Err (List Str)
  | [] => .ok []
  | s :: r =>
    if contains tC s then match (split s)[1]? with
      | none => .error .indexError
      | some v => match comments r with
        | .error e => .error e
        | .ok t => .ok (strip v :: t)
    else comments r

/-- `int(s)` of a text of digits, `none`: ValueError (simplified: no sign, blanks or underscores). -/
def toInt (s : Str) : Option Nat := if s ≠ [] ∧ s.all Char.isDigit then some (SC.Scan.natOf s) else none

/-- One scan of getimages, spec.py:911-979. A parsed zapimage or puzzle has all entries (`getD` is never
used). -/
def imageOf (s : Scan) : Except Err (Option ((Str × Nat) × Image)) :=
  if SC.Scan.sZapimage.isPrefixOf s.command || SC.Scan.sPuzzle.isPrefixOf s.command then
    match SC.Scan.parse s.command with
    | none => .ok none
    | some l =>
      let sf := (EdfHead.numOf l .startfast).getD 0
      let ef := (EdfHead.numOf l .endfast).getD 0
      let n := ((EdfHead.intOf l .npixelsfast).getD 0).toNat
      let m := ((EdfHead.intOf l .nstepsslow).getD 0).toNat
      match SC.Scan.zaplineScansize sf ef n, SC.Scan.zaplinePixelsize sf ef n, SC.Scan.ascanPixelsize sf ef n with
      | some a, some b, some d => match comments s.header with
        | .error e => .error e
        | .ok h => match h[0]?, h[1]?, h[2]? with
          | some h0, some h1, some h2 => match toInt h2 with
            | none => .error .valueError
            | some k => .ok (some ((h1, k), ⟨s.number, n, m + 1, a, SC.Scan.ascanScansize sf ef n, b, d,
                decide (EdfHead.strOf l .name = some SC.Scan.sPuzzle), h0, h1, h2⟩))
          | _, _, _ => .error .indexError
      | _, _, _ => .error .zeroDivision
  else .ok none

/-- getimages without motors, spec.py:908-981; the keys are pairs of name and number. -/
def images : List Scan → Dict (Str × Nat) Image → Except Err (Dict (Str × Nat) Image)
  | [], d => .ok d
  | s :: r, d => match imageOf s with
    | .error e => .error e
    | .ok none => images r d
    | .ok (some (k, i)) => images r (Dict.set d k i)

end SC.SpecFile
