import Mathlib.Data.Rat.Floor
import Mathlib.Algebra.Order.Field.Rat
/-! # Model of `pipelines/batch.py` and `utils/timing.py`

Simplified: jobs are numbers, arguments are parsed, times are exact rational numbers of seconds, and
an exception is a value. -/
namespace SC.Jobs

/-! ## Jobs -/

/-- The options, batch.py:82-89. -/
structure Opts where
  jobs : List Int := []
  ajob : Int := 0
  bjob : Int := 0
  njobs : Bool := false
  ljobs : Bool := false

/-- What happens. -/
inductive Event
  | printNumber (n : Nat)
  | printList
  | ran (k : Nat)
  | invalid (i : Int)
  | error
  deriving DecidableEq

/-- Indexing a list of `n` elements (batch.py:62-63): `none` is IndexError. -/
def pyIndex (n : Nat) (i : Int) : Option Nat :=
  if 0 ≤ i ∧ i < n then some i.toNat
  else if i < 0 ∧ -(n : Int) ≤ i then some (i + n).toNat
  else none

/-- Running jobs by number, batch.py:114-120; a job that fails ends the loop. -/
def runNumbers (fails : Nat → Bool) (n : Nat) : List Int → List Event
  | [] => []
  | i :: r =>
    match pyIndex n (i - 1) with
    | none => .invalid i :: runNumbers fails n r
    | some k => if fails k then [.ran k, .error] else .ran k :: runNumbers fails n r

/-- Running all jobs, batch.py:121-123. -/
def runAll (fails : Nat → Bool) : List Nat → List Event
  | [] => []
  | k :: r => if fails k then [.ran k, .error] else .ran k :: runAll fails r

/-- The end of context, batch.py:96-123.  `list + range` is a TypeError in Python 3 (line 112). -/
def execute (fails : Nat → Bool) (n : Nat) (o : Opts) : List Event :=
  if o.njobs then [.printNumber n]
  else if o.ljobs then [.printList]
  else if o.jobs ≠ [] ∨ o.ajob > 0 ∨ o.bjob > 0 then
    if o.ajob > 0 ∨ o.bjob > 0 then [.error] else runNumbers fails n o.jobs
  else runAll fails (List.range n)

/-- `{:w}` of a number. -/
def padLeft (w : Nat) (s : List Char) : List Char := List.replicate (w - s.length) ' ' ++ s

/-- The width of the numbers, batch.py:75. -/
def width (n : Nat) : Nat := (Nat.toDigits 10 (max (n - 1) 1)).length

/-- The lines of the listing, batch.py:74-77. -/
def listing (names : List (List Char)) : List (List Char) :=
  (names.zipIdx 1).map fun (name, i) => padLeft (width names.length) (Nat.toDigits 10 i) ++ ['.', ' '] ++ name

/-! ## Times -/

/-- `int` of a number. -/
def trunc (x : ℚ) : Int := if 0 ≤ x then ⌊x⌋ else ⌈x⌉

/-- hms, timing.py:15-22. -/
def hms (seconds : ℚ) : Int × Int × Int :=
  let hours := trunc (seconds / 3600)
  let sec := seconds - hours * 3600
  let min := trunc (sec / 60)
  let sec := sec - min * 60
  (hours, min, trunc sec)

/-- `timedelta.seconds` of a number of microseconds: the seconds within the last day (timing.py:32 and 69). -/
def deltaSeconds (us : Nat) : Nat := us / 1000000 % 86400

/-- ProgressLogger, timing.py:36-61. -/
structure Progress where
  nmax : Nat
  ncurrent : Nat
  nmaxfine : Nat
  ncurrentfine : Nat
  deriving DecidableEq

/-- setn, timing.py:47-50. -/
def setn (n : Nat) : Progress := ⟨n, 0, 1, 0⟩
/-- setnfine, timing.py:52-54. -/
def setnfine (p : Progress) (n : Nat) : Progress := { p with nmaxfine := n, ncurrentfine := 0 }
/-- ndone, timing.py:56-58. -/
def ndone (p : Progress) (n : Nat) : Progress := { p with ncurrent := p.ncurrent + n, ncurrentfine := 0 }
/-- ndonefine, timing.py:60-61. -/
def ndonefine (p : Progress) (n : Nat) : Progress := { p with ncurrentfine := p.ncurrentfine + n }

/-- What a line shows: elapsed time, percentage done, time left and percentage left. -/
structure Line where
  elapsed : Int × Int × Int
  pdone : Int
  left : Int × Int × Int
  pleft : Int
  deriving DecidableEq

/-- printprogress, timing.py:63-77; `none` is ZeroDivisionError. -/
def printprogress (p : Progress) (elapsed : Nat) : Option Line :=
  let nmax := p.nmax * p.nmaxfine
  let ncurrent := p.ncurrent * p.nmaxfine + p.ncurrentfine
  if ncurrent = 0 ∨ nmax = 0 then none
  else
    let pdone := trunc ((ncurrent : ℚ) / nmax * 100)
    some ⟨hms elapsed, pdone, hms (elapsed * ((nmax : ℚ) / ncurrent - 1)), 100 - pdone⟩

/-! ## How the pipeline uses it -/

/-- The energies of one fit, xrf/fit.py:416-477: the states in which progress is printed, and the last state. -/
def fitEnergies (nfiles : Nat) : Nat → Progress → List Progress × Progress
  | 0, p => ([], p)
  | nE + 1, p =>
    let p1 := ndonefine p nfiles
    let (l, q) := fitEnergies nfiles nE p1
    (p1 :: l, q)

/-- One fit, xrf/fit.py:412-477. -/
def fit (nE nfiles : Nat) (p : Progress) : List Progress × Progress := fitEnergies nfiles nE (setnfine p (nE * nfiles))

/-- The detectors of a spectrum, pipelines/id21_xas.py:172-195. -/
def detectors (nE nfiles : Nat) : Nat → Progress → List Progress × Progress
  | 0, p => ([], p)
  | k + 1, p =>
    let (l, q) := fit nE nfiles p
    let (l', q') := detectors nE nfiles k q
    (l ++ l', q')

/-- The spectra, pipelines/id21_xas.py:104-241. -/
def spectra (nE nfiles ndets : Nat) : Nat → Progress → List Progress
  | 0, _ => []
  | n + 1, p =>
    let (l, q) := detectors nE nfiles ndets p
    let q := ndone q ndets
    l ++ q :: spectra nE nfiles ndets n q

/-- processNotSynchronized when all scans have the same size, pipelines/id21_xas.py:166-168. -/
def process (nE nfiles ndets nspectra : Nat) : List Progress :=
  spectra nE nfiles ndets nspectra (setn (nspectra * ndets))

end SC.Jobs
