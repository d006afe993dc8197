import Verif.Lut.Model
import Mathlib.Algebra.Order.Ring.Rat
import Mathlib.Algebra.Field.Rat
/-! # Model of `sources/emspectrum.py` -/
namespace SC.EmSpectrum
open SC.Lut

/-- Intensities relative to their sum, emspectrum.py:37-43; `none`: division by zero. -/
def ratios (ys : List Rat) : Option (List Rat) := if ys.sum = 0 then none else some (ys.map fun y => y / ys.sum)

/-- `Discrete.sample`, emspectrum.py:53-62: the mean of a table for the lines of the spectrum. `conv` converts the lines to the units of
the table. -/
def sample (s t : Lut.Lut Rat) (conv : Rat → Rat) : Option Rat :=
  match s.x, s.y with
  | some xs, some ys =>
    let lines := if Lut.isempty t then xs else xs.map conv
    match lines.mapM (Lut.call t), ratios ys with
    | some v, some r => some (List.zipWith (fun a b => a * b) v r).sum
    | _, _ => none
  | _, _ => some t.default

/-- Adding lines, lut.py:181-183, and a spectrum without lines, emspectrum.py:65-73: adding returns nothing, so that `dark += lines`
leaves no spectrum at all. -/
inductive Source
  | discrete (s : Lut.Lut Rat)
  | dark
  | nothing

/-- `source += (lines, intensities)`; `none`: an exception. -/
def iadd (s : Source) (x y : List Rat) : Option Source :=
  match s with
  | .discrete s =>
    match Lut.newData s x y true with
    | (s', none) => some (.discrete s')
    | (_, some _) => none
  | .dark => some .nothing
  | .nothing => none

end SC.EmSpectrum
