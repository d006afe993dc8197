import Verif.Common.Sort
import Mathlib.Data.List.Lex
import Mathlib.Data.Char
import Mathlib.Algebra.Field.Rat
import Mathlib.Algebra.Order.Field.Rat
import Mathlib.Algebra.BigOperators.Group.List.Basic
/-! # Model of shells and fluorescence lines, `materials/xrayspectrum.py`

Names of shells are texts (lists of characters), never empty.  Codes of lines and shells are integers,
the tables of xraylib are parameters. -/
namespace SC.Spectrum
open SC.Common

abbrev Str := List Char

/-- What `Shell.expand` returns for a name: a text or a list of texts. -/
inductive Exp where
  | one (s : Str)
  | many (l : List Str)
  deriving DecidableEq

/-- Going through it with `for`: a text gives its characters. -/
def Exp.iter : Exp → List Str
  | .one s => s.map fun c => [c]
  | .many l => l

/-- listtools.flatten, listtools.py:9-27: a text stays whole. -/
def Exp.flat : Exp → List Str
  | .one s => [s]
  | .many l => l

/-- `[a-z]` to `[A-Z]` -/
def upper (c : Char) : Char := c.toUpper

/-- Shell.expand for names, xrayspectrum.py:322-339. -/
def expand : Str → Exp
  | [] => .one []
  | c :: r =>
    if r ≠ [] then
      if r.all Char.isDigit then .one (c :: r) else .one [c]
    else
      let shell := upper c
      let n : Int := (shell.toNat : Int) - ('K'.toNat : Int) + 1
      if n = 1 then .one [shell]
      else .many (((List.range (2 * n).toNat).drop 1).map fun i => shell :: (toString i).toList)

/-- `sorted(l)` for texts -/
def sort (l : List Str) : List Str := stableSort id l

/-- Shell.expandall, xrayspectrum.py:341-345 -/
def expandall (l : List Str) : List Str := sort (l.flatMap fun s => (expand s).flat).dedup

/-- Shell.expandselection, xrayspectrum.py:347-356: the condition `not s != shell` keeps the names equal to
the selected one; a list is extended by what one gets going through the expansion. -/
def expandselection (shells selection : List Str) : List Str :=
  sort (selection.foldl (fun shells shell => (shells.filter fun s => !(s != shell)) ++ (expand shell).iter) shells)

/-- One group in Shell.shrink, xrayspectrum.py:362-365. -/
def shrinkStep (shells : List Str) (g : Char) : List Str :=
  if (expand [g]).iter.all fun s => decide (s ∈ shells) then
    (shells.filter fun s => !(s.head? == some g)) ++ [[g]]
  else shells

/-- Shell.shrink, xrayspectrum.py:358-366; `groups` is the set of capital first letters in the order Python
goes through it. -/
def shrink (groups : List Char) (shells : List Str) : List Str := sort (groups.foldl shrinkStep shells)

/-- Shell.pymcafactory, xrayspectrum.py:368-383, from the names that `factory` gives. -/
def pymcafactory (groups : List Char) (shells : List Str) (split : List Str) (allowsplitM : Bool) : List Str :=
  let shells := (shrink groups shells).filter fun s => decide (s.head? ∈ [some 'K', some 'L', some 'M'])
  let shells := if split ≠ [] then expandselection shells split else shells
  if allowsplitM then shells else shells.filter fun s => s.head? != some 'M' || s == ['M']

/-! ## Lines -/

/-- The tables of xraylib for one element: radiative rates and energies by code (zero when unknown), the
codes of composite lines and of their members. -/
structure Tables where
  rate : Int → ℚ
  energy : Int → ℚ
  /-- xraylib.composites -/
  members : Int → List Int
  /-- xraylib.rcomposites -/
  composites : Int → List Int

/-- The first composite with a negative code and a value, xrayspectrum.py:203-211,226-232. -/
def firstKnown (value : Int → ℚ) (l : List Int) : Option Int := l.find? fun c => decide (¬ 0 ≤ c) && decide (value c ≠ 0)

/-- FluoLine.radrate, xrayspectrum.py:190-213. -/
def radrate (T : Tables) (code : Int) : ℚ :=
  if T.rate code = 0 then
    match firstKnown T.rate (T.composites code) with
    | some c => T.rate c / (T.members c).length
    | none => 0
  else T.rate code

/-- FluoLine.energy, xrayspectrum.py:215-234. -/
def lineEnergy (T : Tables) (code : Int) : ℚ :=
  if T.energy code = 0 then
    match firstKnown T.energy (T.composites code) with
    | some c => T.energy c
    | none => 0
  else T.energy code

/-- Shell.partial_fluoyield, xrayspectrum.py:458-467; `lines` is `_fluolines` (`none`: all lines). -/
def partialFluoyield (T : Tables) (fluoyield : ℚ) : Option (List Int) → ℚ
  | none => fluoyield
  | some l => fluoyield * (l.map (radrate T)).sum

/-- The same decomposed, xrayspectrum.py:460-462: a dictionary with the lines as keys. -/
def partialFluoyieldLines (T : Tables) (fluoyield : ℚ) (l : List Int) : List (Int × ℚ) :=
  l.dedup.map fun c => (c, fluoyield * radrate T c)

end SC.Spectrum
