import Verif.Common.Sort
import Mathlib.Data.List.Lex
import Mathlib.Data.Char
/-! # Model of `xrf/parse_xia.py`

Not modelled: creating the output directory, the contents of the files.  `XiaCorrect` of PyMca is not part of the
repository: the files that it recognises and the files on disk after it has written its results are parameters. -/
namespace SC.XasPipe

/-- Texts. -/
abbrev Str := List Char

/-- Exceptions. -/
inductive Err where
  | valueError | typeError | keyError | indexError | dimensionality
deriving DecidableEq

/-- A file as `XiaCorrect.parseFiles` describes it: path and detector number (none for the statistics "st"),
parse_xia.py:60, 76, 130-133. -/
structure XiaFile where
  path : Str
  det : Option Nat

/-- `os.path.join(a, b)` for a first part that is not empty. -/
def joinPath (a b : Str) : Str :=
  if b.head? = some '/' then b else if a.getLast? = some '/' then a ++ b else a ++ '/' :: b

/-- One wildcard of `glob`, `pre*post`: a star does not match a slash.  Simplified: special characters in the fixed parts
are taken literally. -/
def globStar (pre post f : Str) : Bool :=
  pre.isPrefixOf f && post.isSuffixOf (f.drop pre.length) &&
    !((f.drop pre.length).take ((f.drop pre.length).length - post.length)).contains '/'

def tEdf : Str := ['.', 'e', 'd', 'f']
def tXia : Str := ['_', 'x', 'i', 'a']
def tXiaS1 : Str := ['_', 'x', 'i', 'a', 'S', '1', '_']
def tLine : Str := ['_', '0', '0', '0', '0', '_']

/-- `pre[0-9]*mid*post`: some division of the file name over the wildcards, none of them with a slash. -/
def globDigit (pre mid post f : Str) : Bool :=
  (pre.isPrefixOf f && ((f.drop pre.length).head?.map Char.isDigit).getD false) &&
    (List.range (f.length + 1)).any fun n =>
      decide (pre.length < n) && !((f.take n).drop pre.length).contains '/' && globStar (f.take n ++ mid) post f

/-- A scan: directory, radix and number (as text of four digits), parse_xia.py:44-51. -/
structure XiaScan where
  ddir : Str
  sname : Str
  num : Str

/-- The mask of the files with results, parse_xia.py:117-124.  The first part of the file name is the data *directory* and the
second the radix, while the docstring (26-28) has the radix and `outname`. -/
def outMask (outdir : Str) (add : Bool) (s : XiaScan) (f : Str) : Bool :=
  if add then globStar (joinPath outdir (s.ddir ++ '_' :: s.sname ++ tXiaS1 ++ s.num ++ tLine)) tEdf f
  else globDigit (joinPath outdir (s.ddir ++ '_' :: s.sname ++ tXia)) ('_' :: s.num ++ tLine) tEdf f

/-- `sorted`. -/
def sorted (l : List Str) : List Str := Common.stableSort id l

/-- Slices of `k` elements, parse_xia.py:143 (the first argument bounds the number of slices). -/
def slices {α : Type} (k : Nat) : Nat → List α → List (List α)
  | 0, _ => []
  | n + 1, l => if l.isEmpty then [] else l.take k :: slices k n (l.drop k)

/-- Files per detector, parse_xia.py:138-143: `range(0, nf, 0)` raises ValueError.  The number of detectors is not zero
here. -/
def groupFiles (add : Bool) (ndet : Nat) (files : List Str) : Except Err (List (List Str)) :=
  if add then .ok [files]
  else if files.length / ndet = 0 then .error .valueError
  else .ok (slices (files.length / ndet) files.length files)

/-- The detectors of the first group of files, parse_xia.py:74-77. -/
def detNums (exclude : List Nat) (fs : List XiaFile) : List Nat :=
  fs.filterMap fun f => f.det.bind fun d => if exclude.contains d then none else some d

/-- Excluding detectors, parse_xia.py:67-71. -/
def excludeDets (exclude : List Nat) (fs : List (List XiaFile)) : List (List XiaFile) :=
  fs.map fun g => g.filter fun f => !(f.det.map exclude.contains).getD false

/-- The raw files without statistics, parse_xia.py:128-135. -/
def rawFiles (fs : List (List XiaFile)) : List Str :=
  sorted (fs.flatMap fun g => g.filterMap fun f => if f.det.isSome then some f.path else none)

/-- `parse_xia_esrf`, parse_xia.py:10-145: `xia` is the result of `XiaCorrect.parseFiles`, `disk` are the files on disk after
`XiaCorrect.correctFiles`. -/
def parseXia (scans : List XiaScan) (outdir : Str) (exclude : List Nat) (deadtime add willbefitted deadtimeifsingle : Bool)
    (xia : Option (List (List XiaFile))) (disk : List Str) : Except Err (List (List Str) × List Nat) :=
  match xia with
  | none => .ok ([[]], [])
  | some fs =>
    match excludeDets exclude fs with
    | [] => .error .indexError
    | g :: r =>
      let dets := detNums exclude g
      let add := add && decide (2 ≤ dets.length)
      let deadtime := deadtime && (decide (2 ≤ dets.length) || deadtimeifsingle) && decide (dets.length ≠ 0)
      let fitted := willbefitted && decide (dets.length ≠ 0)
      if fitted || deadtime || add then
        let files :=
          if add || deadtime then sorted (scans.flatMap fun s => disk.filter (outMask outdir add s))
          else rawFiles (g :: r)
        match groupFiles add dets.length files with
        | .error e => .error e
        | .ok l => .ok (l, dets)
      else .ok ([[]], dets)

end SC.XasPipe
