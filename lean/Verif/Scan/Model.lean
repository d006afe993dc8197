import Verif.Axis.Model
/-! # Model of the scan geometry of `io/spec.py` (C40)

Positions are rational numbers (no rounding).  `none`: `ZeroDivisionError` of the division by
`float(n)`.  Numbers of pixels and steps are natural numbers: the command parser only accepts
digits. -/
namespace SC.Scan

/-- zapline_values, spec.py 18-21. -/
def zaplineValues (s e : Rat) (n : Nat) : Option (List Rat) :=
  if n = 0 then none
  else
    let inc := (e - s) / (n : Rat)
    some ((List.range n).map fun (i : Nat) => s + inc / 2 + inc * (i : Rat))

/-- zapline_range, spec.py 24-27. -/
def zaplineRange (s e : Rat) (n : Nat) : Option (Rat × Rat) :=
  if n = 0 then none
  else
    let inc := (e - s) / (n : Rat)
    some (s + inc / 2, e - inc / 2)

/-- zapline_pixelsize, spec.py 30-32. -/
def zaplinePixelsize (s e : Rat) (n : Nat) : Option Rat :=
  if (n : Rat) - 1 = 0 then none else some ((e - s) / ((n : Rat) - 1))

/-- zapline_scansize, spec.py 35-38. -/
def zaplineScansize (s e : Rat) (n : Nat) : Option Rat :=
  if n = 0 then none
  else
    let inc := (e - s) / (n : Rat)
    some (e - s - inc)

/-- ascan_values, spec.py 41-44. -/
def ascanValues (s e : Rat) (n : Nat) : Option (List Rat) :=
  if n = 0 then none
  else
    let inc := (e - s) / (n : Rat)
    some ((List.range (n + 1)).map fun (i : Nat) => s + inc * (i : Rat))

/-- ascan_range, spec.py 47-49. -/
def ascanRange (s e : Rat) (_n : Nat) : Rat × Rat := (s, e)

/-- ascan_pixelsize, spec.py 52-54. -/
def ascanPixelsize (s e : Rat) (n : Nat) : Option Rat := if n = 0 then none else some ((e - s) / (n : Rat))

/-- ascan_scansize, spec.py 57-59. -/
def ascanScansize (s e : Rat) (_n : Nat) : Rat := e - s

/-- One motor of a scan command: start, end, number of pixels or steps. -/
structure Line where
  start : Rat
  stop : Rat
  n : Nat
deriving DecidableEq, Repr

/-- The part of a motor in zapimage_submap (spec.py 84-105): first and last index.  `none`: no
values, np.argmin raises. -/
def subIndices (values : List Rat) (pos halfrange : Rat) : Option (Nat × Nat) :=
  match Axis.closest values (pos - halfrange), Axis.closest values (pos + halfrange) with
  | some a, some b => some (a, b)
  | _, _ => none

/-- `abs(ib - ia)` -/
def gap (a b : Nat) : Nat := if b ≤ a then a - b else b - a

/-- `[ia, ib + 1, step]`, spec.py 137-144 and 155. -/
def subSlice (a b : Nat) : Int × Int × Int := (a, b + 1, if a > b then -1 else 1)

/-- The fast motor of the new command, spec.py 107-109 and 119-125: `start + d / 2`, `end + d / 2` and the
number of pixels.  With one pixel `d` is 0/0 in numpy numbers, which is NaN: `none`. -/
def subFast (values : List Rat) (a b : Nat) : Option Line :=
  let s := values.getD a 0
  let e := values.getD b 0
  let n := gap a b + 1
  if n = 1 then none
  else
    let d := (e - s) / ((n : Rat) - 1)
    some ⟨s + d / 2, e + d / 2, n⟩

/-- The slow motor of the new command, spec.py 111-113 and 126-129. -/
def subSlow (values : List Rat) (a b : Nat) : Line := ⟨values.getD a 0, values.getD b 0, gap a b⟩

/-- The two motors of the new command and the slices. -/
structure Plan where
  fast : Option Line
  slow : Line
  fastSlice : Int × Int × Int
  slowSlice : Int × Int × Int
deriving DecidableEq, Repr

/-- zapimage_submap, spec.py 62-129 and 137-155, for a header whose command is parsed as `fast` and
`slow`.  Line 130 reads `.magitude` of a quantity, an attribute that does not exist: as it stands
the function raises `AttributeError` whenever it comes that far, the model has what it computes
otherwise; positions and half ranges of the two motors in their units.  Not modelled: the
text of the two commands and the warnings. -/
def submapPlan (fast slow : Line) (posfast halffast posslow halfslow : Rat) : Option Plan := do
  let fv ← zaplineValues fast.start fast.stop fast.n
  let sv ← ascanValues slow.start slow.stop slow.n
  let (fa, fb) ← subIndices fv posfast halffast
  let (sa, sb) ← subIndices sv posslow halfslow
  return ⟨subFast fv fa fb, subSlow sv sa sb, subSlice fa fb, subSlice sa sb⟩

end SC.Scan
