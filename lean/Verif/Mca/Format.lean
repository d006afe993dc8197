import Verif.Axis.Model
import Verif.Naming.Model
import Mathlib.Data.Int.Log
import Mathlib.Data.Rat.Floor
/-! # Trusted specification: Python's `"%.<P>g" % q`

The conversion of CPython (`PyOS_double_to_string` with format code `g`), for a finite number with
exact value `q`: the significant digits are those of the exact value rounded half to even.  Minus
zero is not represented. -/
namespace SC.Mca
open SC.Axis (roundEven)

/-- Texts. -/
abbrev Str := List Char

/-- The digits and the decimal exponent of a positive number rounded to `P` significant digits: the
value is `m · 10 ^ (e - P + 1)`. -/
def signif (P : Nat) (q : Rat) : Nat × Int :=
  let e := Int.log 10 q
  let m := (roundEven (q * (10 : Rat) ^ ((P : Int) - 1 - e))).toNat
  if m = 10 ^ P then (10 ^ (P - 1), e + 1) else (m, e)

/-- Trailing zeros removed. -/
def stripZeros (f : Str) : Str := (f.reverse.dropWhile (· == '0')).reverse

/-- Digits before and after the decimal point, which is omitted when nothing follows. -/
def withFrac (w f : Str) : Str := if stripZeros f = [] then w else w ++ '.' :: stripZeros f

/-- The text of a positive number. -/
def fmtPos (P : Nat) (q : Rat) : Str :=
  let (m, e) := signif P q
  let ds := Nat.toDigits 10 m
  if -4 ≤ e ∧ e < P then
    if 0 ≤ e then withFrac (ds.take (e.toNat + 1)) (ds.drop (e.toNat + 1))
    else withFrac ['0'] (List.replicate ((-e).toNat - 1) '0' ++ ds)
  else
    withFrac (ds.take 1) (ds.drop 1) ++ 'e' :: (if e < 0 then '-' else '+') :: SC.Naming.pad 2 e.natAbs

/-- `"%.<P>g" % q` -/
def fmtG (P : Nat) (q : Rat) : Str :=
  if q = 0 then ['0'] else if q < 0 then '-' :: fmtPos P (-q) else fmtPos P q

end SC.Mca
