import Verif.Xia.Model
/-! # What XIA names and groups should be, without the parser -/
namespace SC.Xia
open SC.Py SC.Naming

/-- Text without newline and path separator. -/
def Plain (s : Str) : Prop := ∀ c ∈ s, c ≠ '\n' ∧ c ≠ '/'

/-- At least four decimal digits. -/
def Num (s : Str) : Prop := 4 ≤ s.length ∧ ∀ c ∈ s, c.isDigit = true

/-- The labels of files with spectra: `xia` and two characters, or `mca`. -/
def SpectraLabel (l : Str) : Prop := (∃ a b, l = ['x', 'i', 'a', a, b]) ∨ l = ['m', 'c', 'a']

/-- The counter names known to the parser, in order. -/
def counters (extra : List Str) : List Str :=
  [['P', 'U', 'Z', '_', 'a', 'r', 'r'], ['P', 'U', 'Z', '_', 'x', 'm', 'a', 'p'], ['x', 'm', 'a', 'p'],
    ['a', 'r', 'r'], ['z', 'a', 'p'], ['m', 'o', 's', 'c', 'a']] ++ extra

/-- `x` reads as a radix, an underscore, the counter name `ctr` and more text. -/
def CtrAt (ctr x r t : Str) : Prop := x = r ++ '_' :: (ctr ++ t) ∧ r ≠ [] ∧ t ≠ []

/-- `x` reads as a radix, a spectra label and a number. -/
def SpectraLike (x : Str) : Prop :=
  ∃ r l m, x = r ++ '_' :: (l ++ '_' :: m) ∧ r ≠ [] ∧ SpectraLabel l ∧ Num m

/-- The radix and label of a counter can be told apart: the label begins with a known counter name,
no counter name tried earlier can be found in `radix_label`, the same counter name cannot be found
further to the right, and for map number 0 the name cannot be taken for a file of spectra. -/
def Unambiguous (extra : List Str) (radix label : Str) (mapnum : Int) : Prop :=
  ∃ (i : Nat) (c t : Str), (counters extra)[i]? = some c ∧ label = c ++ t ∧ t ≠ [] ∧
    (∀ (j : Nat) (c' r' t' : Str), j < i → (counters extra)[j]? = some c' → ¬ CtrAt c' (radix ++ '_' :: label) r' t') ∧
    (∀ r' t', CtrAt c (radix ++ '_' :: label) r' t' → r'.length ≤ radix.length) ∧
    (mapnum = 0 → ¬ SpectraLike (radix ++ '_' :: label))

/-- The name comes back from parsing the file name it produces. -/
def RoundTrips (extra : List Str) (radix : Str) (mapnum linenum : Int) (label : Str) : Prop :=
  ∃ n, parse extra (xiafilename radix mapnum linenum label) = some n ∧
    n.radix = radix ∧ n.mapnum = mapnum ∧ n.linenum = linenum ∧ n.label = label

/-- `base` has the form read as the given parts. -/
def ReadsAs (extra : List Str) (base radix label : Str) (mapnum linenum : Int) : Prop :=
  ∃ m c e, Num m ∧ c ≠ '\n' ∧ (e = [] ∨ e = ['\n']) ∧ mapnum = Nat.ofDigitChars 10 m 0 ∧ radix ≠ [] ∧
    (∀ x ∈ radix, x ≠ '\n') ∧
    ((SpectraLabel label ∧ (∀ x ∈ label, x ≠ '\n') ∧ ∃ l, Num l ∧ linenum = Nat.ofDigitChars 10 l 0 ∧
        base = radix ++ '_' :: (label ++ '_' :: (m ++ ['_', '0', '0', '0', '0', '_'] ++ (l ++ c :: (['e', 'd', 'f'] ++ e))))) ∨
     ((∃ ctr ∈ counters extra, ∃ t, t ≠ [] ∧ (∀ x ∈ t, x ≠ '\n') ∧ label = ctr ++ t) ∧ linenum = -1 ∧
        base = radix ++ '_' :: (label ++ '_' :: (m ++ ['_', '0', '0', '0', '0'] ++ c :: (['e', 'd', 'f'] ++ e)))))

end SC.Xia
