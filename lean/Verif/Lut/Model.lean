import Verif.ListTools.Model
import Mathlib.Algebra.Order.Field.Basic
/-! # Model of `utils/lut.py`

Simplified: numbers are elements of a linearly ordered field (the code uses float64); keys and
values are magnitudes in the units of the table (unit conversion by `pint` not modelled);
`kind="linear"` only; `scipy.interpolate.interp1d` is the function `interp` below. -/
namespace SC.Lut
open SC.ListTools

variable {K : Type} [Field K] [LinearOrder K]

/-- `interp1d(xs, ys, bounds_error=False, fill_value=(ys[0], ys[-1]), kind="linear")(x)` for sorted
`xs`.  Not part of /repo: scipy's `_call_linear` (searchsorted, clip, slope) followed by the fill
values. -/
def interp (xs ys : List K) (x : K) : K :=
  let n := xs.length
  if x < xs.getD 0 0 then ys.getD 0 0
  else if xs.getD (n - 1) 0 < x then ys.getD (n - 1) 0
  else
    let hi := max 1 (min (xs.countP (fun k => decide (k < x))) (n - 1))
    let lo := hi - 1
    (ys.getD hi 0 - ys.getD lo 0) / (xs.getD hi 0 - xs.getD lo 0) * (x - xs.getD lo 0) + ys.getD lo 0

/-- `self._func`, lut.py:159-168. -/
inductive Func (K : Type) where
  | const : K → Func K
  | interp1d : List K → List K → Func K
deriving DecidableEq

/-- Attributes of `LUT`, lut.py:14-25,67-71.  `x = none` is an empty table. -/
structure Lut (K : Type) where
  x : Option (List K)
  y : Option (List K)
  func : Option (Func K)
  default : K
deriving DecidableEq

/-- `clear`, lut.py:67-71. -/
def clear (default : K) : Lut K := ⟨none, none, none, default⟩

/-- `isempty`, lut.py:73-74. -/
def isempty (s : Lut K) : Bool := s.x.isNone

/-- The data before sorting: new points first, then the old ones, lut.py:144-153. -/
def joined (s : Lut K) (x y : List K) : List K × List K :=
  match s.x, s.y with
  | some ox, some oy => (x ++ ox, y ++ oy)
  | _, _ => (x, y)

/-- The attributes already assigned when the rest of `_new_data` raises, lut.py:144-146. -/
def assigned (s : Lut K) (x y : List K) : Lut K :=
  if isempty s then { s with x := some x, y := some y } else s

/-- listtools.unique2lists, called in lut.py:157. -/
def uniq (add : Bool) (p : List K × List K) : Except Err (List K × List K) :=
  if add then .ok (unique2listsAdd p.1 p.2) else unique2listsFirst p.1 p.2

/-- `_new_data`, lut.py:130-168: the state afterwards and the exception, if any.  (Unpacking the
empty result of `sort2lists` raises `ValueError`.) -/
def newData (s : Lut K) (x y : List K) (add : Bool) : Lut K × Option Err :=
  match uniq add (joined s x y) with
  | .error e => (assigned s x y, some e)
  | .ok u =>
    match sort2lists u.1 u.2 with
    | none => (assigned s x y, some .valueError)
    | some (sx, sy) =>
      ({ x := some sx, y := some sy, default := s.default,
         func := some (if sx.length = 1 then .const (sy.getD 0 0) else .interp1d sx sy) }, none)

/-- `__call__`, lut.py:117-128 (`none`: `self._func` is `None`, TypeError). -/
def call (s : Lut K) (x : K) : Option K :=
  if isempty s then some s.default
  else
    match s.func with
    | none => none
    | some (.const y) => some y
    | some (.interp1d xs ys) => some (interp xs ys x)

/-- One call of `add` (`true`) or `replace` (`false`), lut.py:170-174. -/
structure Op (K : Type) where
  add : Bool
  x : List K
  y : List K

/-- A sequence of calls (`none`: one of them raised). -/
def run (s : Lut K) : List (Op K) → Option (Lut K)
  | [] => some s
  | o :: os =>
    match newData s o.x o.y o.add with
    | (s', none) => run s' os
    | (_, some _) => none

/-- `__getstate__` then `__setstate__`, lut.py:27-35 (also used by `copy`). -/
def restore (s : Lut K) : Lut K × Option Err :=
  match s.x, s.y with
  | some x, some y => newData (clear s.default) x y true
  | _, _ => (clear s.default, none)

/-- `__len__`, lut.py:111-115. -/
def len (s : Lut K) : Nat :=
  match s.x with
  | some x => x.length
  | none => 1

end SC.Lut
