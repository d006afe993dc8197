/-! # Python sequence indexing primitives (trusted specification)

These are not part of /repo: they are the semantics of Python's list indexing
and `slice.indices` (CPython `Objects/sliceobject.c`, `PySlice_AdjustIndices`)
used by the models of /repo code. -/

namespace SC.Py

/-- `seq[i]` for a sequence of length `n`: the position addressed by the (possibly
negative) integer `i`, `none` for `IndexError`. -/
def normIdx (n : Nat) (i : Int) : Option Nat :=
  if 0 ≤ i ∧ i < n then some i.toNat
  else if i < 0 ∧ -(n : Int) ≤ i then some (i + n).toNat
  else none

/-- A Python slice object. -/
structure Slice where
  start : Option Int
  stop  : Option Int
  step  : Option Int
deriving DecidableEq, Repr

/-- `slice(None)`, the full slice. -/
def Slice.full : Slice := ⟨none, none, none⟩

/-- Clamp one bound as `PySlice_AdjustIndices` does. -/
def clampBound (n : Nat) (lower upper : Int) (v : Int) : Int :=
  let v := if v < 0 then v + n else v
  if v < lower then lower else if upper < v then upper else v

/-- A bound that may be `None`. -/
def boundOr (n : Nat) (lower upper dflt : Int) : Option Int → Int
  | none => dflt
  | some v => clampBound n lower upper v

/-- `slice.indices(n)`: `(start, stop, step)`, `none` when `step == 0` (`ValueError`). -/
def Slice.indices (s : Slice) (n : Nat) : Option (Int × Int × Int) :=
  let step := s.step.getD 1
  if step = 0 then none
  else
    let lower : Int := if step < 0 then -1 else 0
    let upper : Int := if step < 0 then (n : Int) - 1 else n
    let start := boundOr n lower upper (if step < 0 then upper else lower) s.start
    let stop := boundOr n lower upper (if step < 0 then lower else upper) s.stop
    some (start, stop, step)

/-- `len(range(start, stop, step))`. -/
def rangeLen (start stop step : Int) : Nat :=
  if 0 < step then ((stop - start + step - 1) / step).toNat
  else if step < 0 then ((start - stop + (-step) - 1) / (-step)).toNat
  else 0

/-- `list(range(start, stop, step))`. -/
def rangeList (start stop step : Int) : List Int :=
  (List.range (rangeLen start stop step)).map (fun (k : Nat) => start + (k : Int) * step)

/-- Positions selected by a slice in a sequence of length `n`. -/
def Slice.positions (s : Slice) (n : Nat) : Option (List Nat) :=
  (s.indices n).map fun (a, b, c) => (rangeList a b c).map Int.toNat

end SC.Py
