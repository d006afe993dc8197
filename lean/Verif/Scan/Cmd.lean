import Verif.Py.Regex
import Mathlib.Data.Rat.Defs
/-! # Model of `cmd_parser` of `io/spec.py` (C51)

Regular expressions follow `Verif/Py/Regex.lean`.  Simplified: `\d` and `\s` are the ASCII digits
and white space (Python also accepts those of other scripts), numbers are rational instead of
rounded floats, and a `pint` quantity is a number with the name of its unit. -/
namespace SC.Scan
open SC.Py.Regex

/-- Texts. -/
abbrev Str := List Char

/-- The named groups of the patterns. -/
inductive G where
  | name | motfast | startfast | endfast | npixelsfast | nstepsfast
  | motslow | startslow | endslow | nstepsslow | time | repeats
deriving DecidableEq, Repr

/-- `\s` -/
def isBlank (c : Char) : Bool := c = ' ' || c = '\t' || c = '\n' || c = '\r' || c = '\x0b' || c = '\x0c'

/-- `[+-]` -/
def isSign (c : Char) : Bool := c = '+' || c = '-'

/-- What a field of a command looks like, spec.py 159-164. -/
inductive Kind where
  /-- a fixed word -/
  | word (w : Str)
  /-- `[a-zA-Z]+` -/
  | motor
  /-- `[a-zA-Z0-9]+` -/
  | motornum
  /-- `(?:[+-]?[0-9]*\.?[0-9]+)` -/
  | float
  /-- `\d+` -/
  | int
deriving DecidableEq, Repr

/-- The pattern of a field, spec.py 159-164. -/
def Kind.pieces : Kind → Option G → List (Piece G)
  | .word w, g => lit w g
  | .motor, g => [{ p := Char.isAlpha, hi := none, grp := g }]
  | .motornum, g => [{ p := Char.isAlphanum, hi := none, grp := g }]
  | .float, g => [{ p := isSign, lo := 0, grp := g }, { p := digit, lo := 0, hi := none, grp := g },
      { p := fun c => c == '.', lo := 0, grp := g }, { p := digit, hi := none, grp := g }]
  | .int, g => [{ p := digit, hi := none, grp := g }]

/-- `\s+` -/
def blanks : Piece G := { p := isBlank, hi := none }

/-- A field: its kind and the group it is captured by. -/
abbrev Field := Kind × Option G

/-- The pattern of a command: fields with blanks in between. -/
def pattern : List Field → List (Piece G)
  | [] => []
  | [f] => f.1.pieces f.2
  | f :: fs => f.1.pieces f.2 ++ blanks :: pattern fs

/-- A scan name, spec.py 159-184. -/
def sZapimage : Str := ['z', 'a', 'p', 'i', 'm', 'a', 'g', 'e']
/-- A scan name, spec.py 159-184. -/
def sAscan : Str := ['a', 's', 'c', 'a', 'n']
/-- A scan name, spec.py 159-184. -/
def sZapline : Str := ['z', 'a', 'p', 'l', 'i', 'n', 'e']
/-- A scan name, spec.py 159-184. -/
def sZapenergy : Str := ['z', 'a', 'p', 'e', 'n', 'e', 'r', 'g', 'y']
/-- A scan name, spec.py 159-184. -/
def sMesh : Str := ['m', 'e', 's', 'h']
/-- A scan name, spec.py 159-184. -/
def sPuzzle : Str := ['p', 'u', 'z', 'z', 'l', 'e']
/-- A text of the pattern of zapenergy, spec.py 409-440. -/
def sSum : Str := ['S', 'U', 'M']
/-- A text of the pattern of zapenergy, spec.py 409-440. -/
def sSum2 : Str := ['S', 'U', 'M', '2']

/-- patternzapimage, spec.py 193-278. -/
def patZapimage : List (List Field) :=
  [ [(.word sZapimage, some .name), (.motor, some .motfast), (.float, some .startfast), (.float, some .endfast),
      (.int, some .npixelsfast), (.int, some .time), (.motor, some .motslow), (.float, some .startslow),
      (.float, some .endslow), (.int, some .nstepsslow)],
    [(.word sZapimage, some .name), (.motor, some .motfast), (.float, some .startfast), (.float, some .endfast),
      (.int, some .npixelsfast), (.motor, some .motslow), (.float, some .startslow), (.float, some .endslow),
      (.int, some .nstepsslow), (.int, some .time)] ]

/-- patternpuzzle, spec.py 300-341. -/
def patPuzzle : List (List Field) :=
  [ [(.word sPuzzle, some .name), (.motornum, some .motfast), (.float, some .startfast), (.float, some .endfast),
      (.int, some .npixelsfast), (.motornum, some .motslow), (.float, some .startslow), (.float, some .endslow),
      (.int, some .nstepsslow), (.int, some .time)] ]

/-- patternmesh, spec.py 346-387. -/
def patMesh : List (List Field) :=
  [ [(.word sMesh, some .name), (.motor, some .motfast), (.float, some .startfast), (.float, some .endfast),
      (.int, some .nstepsfast), (.motor, some .motslow), (.float, some .startslow), (.float, some .endslow),
      (.int, some .nstepsslow), (.float, some .time)] ]

/-- patternzapenergy, spec.py 409-440. -/
def patZapenergy : List (List Field) :=
  [ [(.word sZapenergy, some .name), (.word sSum, none), (.int, some .repeats), (.float, some .time)],
    [(.word sZapenergy, some .name), (.word sSum2, none), (.int, some .repeats), (.float, some .time)] ]

/-- patternzapline, spec.py 453-478. -/
def patZapline : List (List Field) :=
  [ [(.word sZapline, some .name), (.motor, some .motfast), (.float, some .startfast), (.float, some .endfast),
      (.int, some .npixelsfast), (.float, some .time)] ]

/-- patternascan, spec.py 495-520. -/
def patAscan : List (List Field) :=
  [ [(.word sAscan, some .name), (.motor, some .motfast), (.float, some .startfast), (.float, some .endfast),
      (.int, some .nstepsfast), (.float, some .time)] ]

/-- `re.match(pattern, cmd)`: the captured groups (in the order of the fields). -/
def matchOne (fs : List Field) (cmd : Str) : Option (List (G × Str)) :=
  (run (pattern fs) (fun _ => some []) cmd).map fun texts =>
    fs.filterMap fun f => f.2.map fun g => (g, group g (pattern fs) texts)

/-- match, spec.py 186-191. -/
def matchFirst (pats : List (List Field)) (cmd : Str) : Option (List (G × Str)) :=
  pats.findSome? fun fs => matchOne fs cmd

/-- `int(text)` of digits. -/
def natOf (t : Str) : Nat := t.foldl (fun n c => 10 * n + (c.toNat - '0'.toNat)) 0

/-- The digits after the sign. -/
def unsigned : Str → Str
  | '+' :: t => t
  | '-' :: t => t
  | t => t

/-- The digits before the point. -/
def whole (t : Str) : Str := t.takeWhile (fun c => c != '.')

/-- The digits behind the point. -/
def behind (t : Str) : Str := (t.dropWhile (fun c => c != '.')).drop 1

/-- `float(text)` for texts of the float pattern. -/
def floatOf (t : Str) : Rat :=
  let u := unsigned t
  let v : Rat := (natOf (whole u ++ behind u) : Rat) / ((10 ^ (behind u).length : Nat) : Rat)
  if t.head? = some '-' then -v else v

/-- Values of the result. -/
inductive Val where
  | str (s : Str)
  | num (q : Rat)
  | int (n : Nat)
  /-- a quantity in milliseconds -/
  | ms (q : Rat)
  /-- a quantity in seconds -/
  | sec (q : Rat)
deriving DecidableEq, Repr

/-- The conversion of a group, spec.py 280-298 and 343-344 (zapimage, puzzle), 389-407
(mesh), 442-451 (zapenergy), 480-493 (zapline), 522-535 (ascan); `s`: the time is in seconds. -/
def cast (s : Bool) : G × Str → G × Val
  | (.name, t) => (.name, .str t)
  | (.motfast, t) => (.motfast, .str t)
  | (.motslow, t) => (.motslow, .str t)
  | (.npixelsfast, t) => (.npixelsfast, .int (natOf t))
  | (.nstepsfast, t) => (.nstepsfast, .int (natOf t))
  | (.nstepsslow, t) => (.nstepsslow, .int (natOf t))
  | (.repeats, t) => (.repeats, .int (natOf t))
  | (.time, t) => (.time, if s then .sec (floatOf t) else .ms (floatOf t))
  | (g, t) => (g, .num (floatOf t))

/-- `cmd.split(" ")[0]` -/
def firstWord (cmd : Str) : Str := cmd.takeWhile (fun c => c != ' ')

/-- The patterns for a scan name and whether its time is in seconds, spec.py 169-184 and 537-566. -/
def scans (name : Str) : Option (List (List Field) × Bool) :=
  if name = sZapimage then some (patZapimage, false)
  else if name = sAscan then some (patAscan, true)
  else if name = sZapline then some (patZapline, false)
  else if name = sZapenergy then some (patZapenergy, false)
  else if name = sMesh then some (patMesh, true)
  else if name = sPuzzle then some (patPuzzle, false)
  else none

/-- parse, spec.py 169-184 and 537-566; `none`: `{"name": "unknown"}`. -/
def parse (cmd : Str) : Option (List (G × Val)) :=
  match scans (firstWord cmd) with
  | none => none
  | some (pats, s) => (matchFirst pats cmd).map fun l => l.map (cast s)

end SC.Scan
