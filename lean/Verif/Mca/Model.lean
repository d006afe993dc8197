import Verif.Mca.Format
import Verif.Xia.Model
import Verif.Scan.Cmd
/-! # Model of `io/mca.py` and of the RGB encoding of `visualization/colormap.py`

Counts and coefficients are rational numbers, the exact values of the floats. -/
namespace SC.Mca
open SC.Axis (roundEven)

/-- `"%.8g " % data[i]` -/
def cell (q : Rat) : Str := fmtG 8 q ++ [' ']

/-- One pass of the loop of array2SpecMca, mca.py:14-23. -/
def mcaLine (data : List Rat) (idx : Nat) : Str :=
  (if idx + 15 < data.length then
    ((List.range 16).flatMap fun i => cell (data.getD (idx + i) 0)) ++
      (if idx + 16 ≠ data.length then ['\\'] else [])
  else (List.range (data.length - idx)).flatMap fun i => cell (data.getD (idx + i) 0)) ++ ['\n']

/-- array2SpecMca, mca.py:8-24 (`range(0, length, 16)` is the list of multiples of 16 below length). -/
def array2SpecMca (data : List Rat) : Str :=
  ['@', 'A', ' '] ++ (List.range ((data.length + 15) / 16)).flatMap fun k => mcaLine data (16 * k)

/-- Text of the header, mca.py 27-48. -/
def sS1 : Str := "#S 1 spectrocrunch\n".toList
/-- Text of the header, mca.py 27-48. -/
def sMCA : Str := "#@MCA %16C\n".toList
/-- Text of the header, mca.py 44. -/
def sCHANN : Str := "#@CHANN".toList
/-- Text of the header, mca.py 45. -/
def sCALIB : Str := "#@CALIB".toList

/-- `"#@CHANN %d %d %d 1\n"`, mca.py:44. -/
def channLine (ch0 ch1 : Int) : Str :=
  sCHANN ++ ' ' :: SC.Xia.strInt (ch1 - ch0 + 1) ++ ' ' :: SC.Xia.strInt ch0 ++ ' ' :: SC.Xia.strInt ch1 ++ [' ', '1']

/-- `"#@CALIB %.7g %.7g %.7g\n"`, mca.py:45. -/
def calibLine (zero gain : Rat) : Str :=
  sCALIB ++ ' ' :: fmtG 7 zero ++ ' ' :: fmtG 7 gain ++ ' ' :: fmtG 7 0

/-- The file written by save, mca.py:27-48; `t1`, `t2`: the texts of the time. -/
def save (filename t1 t2 : Str) (mca : List Rat) (zero gain : Rat) (ch0 ch1 : Option Int) : Str :=
  let ch0 := ch0.getD 0
  let ch1 := ch1.getD (ch0 + mca.length - 1)
  "#F ".toList ++ filename ++ '\n' :: ("#D ".toList ++ t1) ++ '\n' :: '\n' :: sS1 ++ ("#D ".toList ++ t2) ++ '\n' :: sMCA ++
    channLine ch0 ch1 ++ '\n' :: calibLine zero gain ++ '\n' :: array2SpecMca mca ++ ['\n']

/-- The exceptions. -/
inductive Err where
  | typeError
  | valueError
deriving DecidableEq, Repr

/-- `str.replace(pat, "")` (fuel: the length of the text). -/
def removeAll (pat : Str) : Nat → Str → Str
  | 0, s => s
  | _ + 1, [] => []
  | n + 1, c :: s =>
      if pat.isPrefixOf (c :: s) then removeAll pat n ((c :: s).drop pat.length) else c :: removeAll pat n s

/-- White space removed by `str.strip`. -/
def isWhite (c : Char) : Bool := c == ' ' || c == '\t' || c == '\n' || c == '\r'

/-- `str.strip()` for ASCII white space. -/
def strip (s : Str) : Str := ((s.dropWhile isWhite).reverse.dropWhile isWhite).reverse

/-- `str.split(" ")` -/
def splitBlank : Str → List Str
  | [] => [[]]
  | c :: s =>
      match splitBlank s with
      | [] => [[]]
      | t :: ts => if c = ' ' then [] :: t :: ts else (c :: t) :: ts

/-- `int(text)` -/
def pyInt (t : Str) : Option Int :=
  let u := SC.Scan.unsigned t
  if u ≠ [] ∧ u.all Char.isDigit then
    some (if t.head? = some '-' then -(SC.Scan.natOf u : Int) else SC.Scan.natOf u)
  else none

/-- The text without its exponent, and the exponent. -/
def pyDecimal (t : Str) : Option Rat :=
  let u := SC.Scan.unsigned t
  let ds := SC.Scan.whole u ++ SC.Scan.behind u
  if ds ≠ [] ∧ ds.all Char.isDigit then some (SC.Scan.floatOf t) else none

/-- `float(text)` for decimal numbers with an optional exponent, before rounding to a double. -/
def pyFloat (t : Str) : Option Rat :=
  match t.dropWhile (· != 'e') with
  | [] => pyDecimal t
  | _ :: ex => (pyDecimal (t.takeWhile (· != 'e'))).bind fun q => (pyInt ex).map fun n => q * (10 : Rat) ^ n

/-- The state of the loop over the header lines, mca.py:60-69: `none` stands for the lazy `map` object
of Python 3 wrapped in an array. -/
structure Header where
  coeff : Option (List Rat)
  ch0 : Int
  ch1 : Int
deriving DecidableEq, Repr

/-- One header line, mca.py:63-69. -/
def headerLine (py3 : Bool) (h : Header) (s : Str) : Except Err Header :=
  if sCALIB.isPrefixOf s then
    if py3 then .ok { h with coeff := none }
    else
      match (splitBlank (strip (removeAll sCALIB s.length s))).mapM pyFloat with
      | some c => .ok { h with coeff := some c }
      | none => .error .valueError
  else if sCHANN.isPrefixOf s then
    match (splitBlank (strip (removeAll sCHANN s.length s))).mapM pyInt with
    | some [_, a, b, _] => .ok { h with ch0 := a, ch1 := b }
    | _ => .error .valueError
  else .ok h

/-- What read returns, mca.py 78. -/
structure Read where
  mca : List Rat
  channels : List Int
  energy : List Rat
  coeff : List Rat
deriving DecidableEq, Repr

/-- read, mca.py:51-78.  `h`: the lines of the header and `got`: the counts as returned by PyMca's
reader, which is not part of the repository.  `py3`: `map` gives an iterator, so that the calibration
is an array without dimensions over which the sum cannot iterate. -/
def read (py3 : Bool) (h : List Str) (got : List Rat) : Except Err Read :=
  match h.foldlM (headerLine py3) ⟨some [0, 1], 0, 0⟩ with
  | .error e => .error e
  | .ok hd =>
      let mca := if got = [] then got else got ++ [0]
      let (ch0, ch1) := if hd.ch0 = hd.ch1 then (0, (mca.length : Int) - 1) else (hd.ch0, hd.ch1)
      let channels := (List.range (ch1 + 1 - ch0).toNat).map fun (k : Nat) => ch0 + (k : Int)
      match hd.coeff with
      | none => .error .typeError
      | some c => .ok ⟨mca, channels,
          channels.map fun x => (c.zipIdx.map fun p => p.1 * (x : Rat) ^ p.2).sum, c⟩

/-- NormalizedToRGB, colormap.py:7-22, for one number: `x & 255` is the remainder modulo 256 and
`x >> k` the quotient by `2 ^ k`, both rounded down. -/
def rgb (x : Rat) : Int × Int × Int :=
  let n := roundEven (x * (2 ^ 24 - 1))
  (n % 256, n / 256 % 256, n / 65536 % 256)

end SC.Mca
