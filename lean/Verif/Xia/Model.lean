import Verif.Py.Regex
import Verif.Py.Dict
import Verif.Common.Sort
import Verif.Naming.Model
import Mathlib.Data.List.Lex
import Mathlib.Data.Prod.Lex
import Mathlib.Data.Char
/-! # XIA file names and their grouping (io/xiaedf.py)

Strings are lists of characters.  Regular expressions follow `Verif/Py/Regex.lean`, string
comparison is by code point.  Logging is left out; `parse(..., throw=True)` raising RuntimeError
is `none`. -/
namespace SC.Xia
open SC.Py SC.Py.Regex SC.Naming SC.Common

/-- The groups of the regular expressions of XiaNameParser. -/
inductive Grp | radix | label | mapnum | linenum
deriving DecidableEq

/-- The `XiaName` named tuple (lines 21-23). -/
structure XiaName where
  radix : Str
  mapnum : Int
  linenum : Int
  label : Str
  baselabel : Str
  detector : Str
deriving DecidableEq

/-- The default counters and whether their labels carry a detector (lines 30-39). -/
def defaultCounters : List (Str × Bool) :=
  [(['P', 'U', 'Z', '_', 'a', 'r', 'r'], false), (['P', 'U', 'Z', '_', 'x', 'm', 'a', 'p'], true),
   (['x', 'm', 'a', 'p'], true), (['a', 'r', 'r'], false), (['z', 'a', 'p'], false),
   (['m', 'o', 's', 'c', 'a'], false)]

/-- `(?P<radix>.+)` -/
def radixPiece : Piece Grp := { p := dot, lo := 1, hi := none, grp := some .radix }

/-- `(?P<...>[0-9]{4,})` (line 41) -/
def numPiece (g : Grp) : Piece Grp := { p := digit, lo := 4, hi := none, grp := some g }

/-- `.edf` (the dot is any character) -/
def edfPieces : List (Piece Grp) := { p := dot } :: lit ['e', 'd', 'f']

/-- `_([0-9]{4,})_0000_([0-9]{4,}).edf` -/
def spectraTail : List (Piece Grp) :=
  lit ['_'] ++ (numPiece .mapnum :: (lit ['_', '0', '0', '0', '0', '_'] ++ (numPiece .linenum :: edfPieces)))

/-- `_([0-9]{4,})_0000.edf` -/
def ctrTail : List (Piece Grp) :=
  lit ['_'] ++ (numPiece .mapnum :: (lit ['_', '0', '0', '0', '0'] ++ edfPieces))

/-- The pattern for spectra, lines 44-46. -/
def xiaPat : List (Piece Grp) :=
  radixPiece :: (lit ['_'] ++ (lit ['x', 'i', 'a'] (some .label) ++
    ({ p := dot, grp := some .label } :: { p := dot, grp := some .label } :: spectraTail)))

/-- The pattern for mca spectra, lines 47-49. -/
def mcaPat : List (Piece Grp) :=
  radixPiece :: (lit ['_'] ++ (lit ['m', 'c', 'a'] (some .label) ++ spectraTail))

/-- The pattern for a counter, lines 50-52. -/
def ctrPat (ctr : Str) : List (Piece Grp) :=
  radixPiece :: (lit ['_'] ++ (lit ctr (some .label) ++
    ({ p := dot, lo := 1, hi := none, grp := some .label } :: ctrTail)))

/-- The patterns in the order in which they are tried (lines 54-62); `extra` are the literal counter
names given to the constructor. -/
def patterns (extra : List Str) : List (List (Piece Grp)) :=
  [xiaPat, mcaPat] ++ (defaultCounters.map Prod.fst).map ctrPat ++ extra.map ctrPat

/-- `os.path.basename` -/
def basename (s : Str) : Str := (s.reverse.takeWhile (fun c => c != '/')).reverse

/-- `_parse` (lines 64-70): the first pattern that matches, with the texts of its pieces. -/
def parseGroups (extra : List Str) (filename : Str) : Option (List (Piece Grp) × List Str) :=
  (patterns extra).findSome? (fun ps => (run ps dollar (basename filename)).map (fun ts => (ps, ts)))

/-- The alternatives of `(?P<detector>[0-9]+|sum|Sum|S[0-9]+)` (line 28). -/
def detectorAlts : List (List (Piece Unit)) :=
  [[{ p := digit, lo := 1, hi := none }], lit ['s', 'u', 'm'], lit ['S', 'u', 'm'],
   lit ['S'] ++ [{ p := digit, lo := 1, hi := none }]]

/-- The detector group followed by `$`. -/
def detectorEnd (s : Str) : Option (List Str) :=
  detectorAlts.findSome? (fun ps => (run ps dollar s).map (fun ts => [ts.flatten]))

/-- The expression `m1` (line 28): name and detector. -/
def matchDetector (label : Str) : Option (Str × Str) :=
  match run ({ p := dot, lo := 0, hi := none, greedy := false } ::
      [({ p := fun c => c == '_', lo := 0, hi := some 1 } : Piece Unit)]) detectorEnd label with
  | some [name, _, d] => some (name, d)
  | _ => none

/-- Remove one trailing underscore (lines 81-82). -/
def stripUnderscore (s : Str) : Str := if s.getLast? = some '_' then s.dropLast else s

/-- One counter in the loop of `xiaparselabel` (lines 76-83). -/
def labelOf (label : Str) (c : Str × Bool) : Option (Str × Str) :=
  if c.1.isPrefixOf label && c.2 then (matchDetector label).map (fun x => (stripUnderscore x.1, x.2)) else none

/-- `xiaparselabel` (lines 72-85) -/
def xiaparselabel (label : Str) : Str × Str :=
  if ['x', 'i', 'a'].isPrefixOf label then (['x', 'i', 'a'], label.drop 3)
  else (defaultCounters.findSome? (labelOf label)).getD (label, [])

/-- `int(text)` of a text of digits -/
def pyInt (s : Str) : Int := Nat.ofDigitChars 10 s 0

/-- lines 98-106: `"linenum" in m` -/
def linenumOf (ps : List (Piece Grp)) (ts : List Str) : Int :=
  if ps.any (fun q => decide (q.grp = some Grp.linenum)) then pyInt (group .linenum ps ts) else -1

/-- lines 96-114 -/
def toName (ps : List (Piece Grp)) (ts : List Str) : XiaName :=
  let label := group .label ps ts
  { radix := group .radix ps ts, mapnum := pyInt (group .mapnum ps ts), linenum := linenumOf ps ts, label := label, baselabel := (xiaparselabel label).1, detector := (xiaparselabel label).2 }

/-- `parse` (lines 87-134) -/
def parse (extra : List Str) (filename : Str) : Option XiaName :=
  (parseGroups extra filename).map (fun x => toName x.1 x.2)

/-- `"{:04d}".format(n)` -/
def fmt04 (n : Int) : Str := if 0 ≤ n then pad 4 n.toNat else '-' :: pad 3 n.natAbs

/-- `xiafilename` (lines 140-144) -/
def xiafilename (radix : Str) (mapnum linenum : Int) (label : Str) : Str :=
  if linenum = -1 then
    radix ++ ['_'] ++ label ++ ['_'] ++ fmt04 mapnum ++ ['_', '0', '0', '0', '0', '.', 'e', 'd', 'f']
  else
    radix ++ ['_'] ++ label ++ ['_'] ++ fmt04 mapnum ++ ['_', '0', '0', '0', '0', '_'] ++ fmt04 linenum ++
      ['.', 'e', 'd', 'f']

/-! ## Sorting and grouping -/

/-- The tuple (radix, mapnum, linenum, label) with the order of Python tuples. -/
abbrev SortKey := Str ×ₗ Int ×ₗ Int ×ₗ Str

/-- A file name with its parsed parts: what the list of keys holds (lines 417-430, 455-468 etc.). -/
abbrev Item := Str × XiaName

/-- `xiasortkey` (lines 174-190) -/
def sortKey (f : Item) : SortKey :=
  toLex (f.2.radix, toLex (f.2.mapnum, toLex (f.2.linenum, f.2.label)))

/-- Parsing all file names; an unparsable one raises. -/
def parseAll (extra : List Str) (files : List Str) : Option (List Item) :=
  files.mapM (fun f => (parse extra f).map (fun n => (f, n)))

/-- `itertools.groupby`: maximal runs of equal keys. -/
def groupBy {α κ : Type} [DecidableEq κ] (key : α → κ) : List α → List (κ × List α)
  | [] => []
  | a :: l =>
    match groupBy key l with
    | [] => [(key a, [a])]
    | (k, g) :: r => if key a = k then (k, a :: g) :: r else (key a, [a]) :: (k, g) :: r

/-- `xiagroupinit(dic, k)` followed by changes `f` of `dic[k]` (lines 433-435) -/
def update {κ : Type} [DecidableEq κ] {V : Type} (d : Dict κ (List V)) (k : κ) (f : List V → List V) :
    Dict κ (List V) :=
  d.set k (f ((d.get? k).getD []))

/-- The innermost loop: `ret[k] = [v[-1] for v in group]` -/
def fillLeaf {κ : Type} [DecidableEq κ] (key : Item → κ) (d : Dict κ (List Str)) (items : List Item) :
    Dict κ (List Str) :=
  (groupBy key items).foldl (fun d kg => d.set kg.1 (kg.2.map Prod.fst)) d

/-- An outer loop: group, `xiagroupinit` and fill the inner dictionary. -/
def fillNode {κ V : Type} [DecidableEq κ] (key : Item → κ) (inner : List V → List Item → List V)
    (d : Dict κ (List V)) (items : List Item) : Dict κ (List V) :=
  (groupBy key items).foldl (fun d kg => update d kg.1 (fun x => inner x kg.2)) d

/-- `xiagroup` on parsed names (lines 438-456) -/
def groupItems (items : List Item) : Dict Str (Dict Int (Dict Int (List Str))) :=
  fillNode (fun x => x.2.radix) (fillNode (fun x => x.2.mapnum) (fillLeaf (fun x => x.2.linenum))) []
    (stableSort sortKey items)

/-- `xiagroup` (lines 438-456) -/
def xiagroup (extra : List Str) (files : List Str) : Option (Dict Str (Dict Int (Dict Int (List Str)))) :=
  (parseAll extra files).map groupItems

/-- `xiagroupdetectors` (lines 474-490) -/
def groupDetectorItems (items : List Item) : Dict Str (Dict Str (List Str)) :=
  fillNode (fun x => x.2.detector) (fillLeaf (fun x => x.2.baselabel)) [] (stableSort sortKey items)

/-- `xiagroupdetectors` (xiaedf.py 470-485). -/
def xiagroupdetectors (extra : List Str) (files : List Str) : Option (Dict Str (Dict Str (List Str))) :=
  (parseAll extra files).map groupDetectorItems

/-- `str(n)` -/
def strInt (n : Int) : Str := if 0 ≤ n then Nat.toDigits 10 n.toNat else '-' :: Nat.toDigits 10 n.natAbs

/-- `"{}_{}".format(radix, mapnum)` (line 505) -/
def mapKey (radix : Str) (mapnum : Int) : Str := radix ++ ['_'] ++ strInt mapnum

/-- `xiagroupmaps2` (lines 493-510) -/
def groupMaps2Items (items : List Item) : Dict Str (Dict Int (List Str)) :=
  (groupBy (fun x => x.2.radix) (stableSort sortKey items)).foldl (fun d rg =>
    (groupBy (fun x => x.2.mapnum) rg.2).foldl (fun d mg =>
      update d (mapKey rg.1 mg.1) (fun x => fillLeaf (fun y => y.2.linenum) x mg.2)) d) []

/-- `xiagroupmaps2` (xiaedf.py 488-505). -/
def xiagroupmaps2 (extra : List Str) (files : List Str) : Option (Dict Str (Dict Int (List Str))) :=
  (parseAll extra files).map groupMaps2Items

/-- `xiagroupmaps` (lines 527-542) -/
def groupMapsItems (items : List Item) : Dict Int (Dict Int (List Str)) :=
  fillNode (fun x => x.2.mapnum) (fillLeaf (fun x => x.2.linenum)) [] (stableSort sortKey items)

/-- `xiagroupmaps` (xiaedf.py 522-537). -/
def xiagroupmaps (extra : List Str) (files : List Str) : Option (Dict Int (Dict Int (List Str))) :=
  (parseAll extra files).map groupMapsItems

/-- `xiagrouplines` (lines 559-574) -/
def groupLinesItems (items : List Item) : Dict Int (List Str) :=
  fillLeaf (fun x => x.2.linenum) [] (stableSort sortKey items)

/-- `xiagrouplines` (xiaedf.py 554-568). -/
def xiagrouplines (extra : List Str) (files : List Str) : Option (Dict Int (List Str)) :=
  (parseAll extra files).map groupLinesItems

end SC.Xia
