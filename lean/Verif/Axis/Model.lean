import Mathlib.Data.Rat.Floor
import Mathlib.Algebra.Order.Ring.Unbundled.Rat
/-! # Model of `process/axis.py`

Magnitudes are rational numbers in the units of the axis.  Not modelled: unit conversion, rounding of
floating point numbers, names and titles, NaN in axes other than for `__eq__`. -/
namespace SC.Axis

/-- np.linspace (numpy): `start + i * step`, the last point replaced by `stop`. -/
def linspace (s e : Rat) : Nat → List Rat
  | 0 => []
  | 1 => [s]
  | n + 2 => ((List.range (n + 1)).map fun (i : Nat) => s + i * ((e - s) / ((n + 1 : Nat) : Rat))) ++ [e]

/-- np.diff (numpy) of a sequence. -/
def diff {α : Type} [Sub α] (l : List α) : List α := List.zipWith (· - ·) l.tail l

/-- What _AxisRegular keeps, axis.py 446-516: the parameters are kept in the order start, end,
stepsize, size, and the values. -/
structure Reg where
  start : Rat
  stop : Rat
  step : Rat
  size : Int
  values : List Rat
deriving DecidableEq, Repr

/-- AxisRegular.values setter, axis.py 538-551, with (start, end, nsteps); `none`: a negative number
of points raises in np.linspace. -/
def mkRegular (s e : Rat) (nsteps : Int) : Option Reg :=
  let size := nsteps + 1
  if size < 0 then none
  else some ⟨s, e, if size = 1 then 0 else (e - s) / ((size - 1 : Int) : Rat), size, linspace s e size.toNat⟩

/-- AxisRegularInc.values setter, axis.py 573-581, with (start, stepsize, nsteps); np.arange of a
negative number is empty. -/
def mkRegularInc (s h : Rat) (nsteps : Int) : Reg :=
  let size := nsteps + 1
  ⟨s, s + h * ((size - 1 : Int) : Rat), h, size, (List.range size.toNat).map fun (i : Nat) => i * h + s⟩

/-- AxisNumber.values setter, axis.py 608-616. -/
def mkNumber (s : Rat) : Reg := ⟨s, s, 0, 1, [s]⟩

/-- AxisRegular setters, axis.py 522-536 (start and end pass the size as number of steps). -/
def Reg.setStart (a : Reg) (v : Rat) : Option Reg := mkRegular v a.stop a.size
/-- The end setter of AxisRegular, axis.py 526-528. -/
def Reg.setStop (a : Reg) (v : Rat) : Option Reg := mkRegular a.start v a.size
/-- The size setter of AxisRegular, axis.py 530-532. -/
def Reg.setSize (a : Reg) (v : Int) : Option Reg := mkRegular a.start a.stop (v - 1)
/-- The nsteps setter of AxisRegular, axis.py 534-536. -/
def Reg.setNsteps (a : Reg) (v : Int) : Option Reg := mkRegular a.start a.stop v

/-- AxisRegularInc setters, axis.py 557-571. -/
def Reg.incStart (a : Reg) (v : Rat) : Reg := mkRegularInc v a.step a.size
/-- The stepsize setter of AxisRegularInc, axis.py 561-563. -/
def Reg.incStep (a : Reg) (v : Rat) : Reg := mkRegularInc a.start v a.size
/-- The size setter of AxisRegularInc, axis.py 565-567. -/
def Reg.incSize (a : Reg) (v : Int) : Reg := mkRegularInc a.start a.step (v - 1)
/-- The nsteps setter of AxisRegularInc, axis.py 569-571. -/
def Reg.incNsteps (a : Reg) (v : Int) : Reg := mkRegularInc a.start a.step v

/-- zapscan, axis.py 588-593; `none`: division by zero. -/
def zapscan (s e : Rat) (npixels : Int) : Option Reg :=
  if npixels = 0 then none
  else
    let pixelsize := (e - s) / (npixels : Rat)
    some (mkRegularInc (s + pixelsize / 2) pixelsize (npixels - 1))

/-- ascan, axis.py 596-600. -/
def ascan (s e : Rat) (intervals : Int) : Option Reg := mkRegular s e intervals

/-- What AxisSegments keeps. -/
structure Seg where
  limits : List Rat
  nsteps : List Int
  steps : List Rat
  values : List Rat
deriving DecidableEq, Repr

/-- The loop of the AxisSegments.values setter, axis.py 706-716: values and step sizes; `none`: the
numbers of limits and segments do not match, or a division by zero (with numpy numbers: an infinite
step size). -/
def segLoop : List Rat → List Int → Option (List Rat × List Rat)
  | [e], [] => some ([e], [])
  | a :: b :: ls, n :: ns =>
    if n = 0 then none
    else
      match segLoop (b :: ls) ns with
      | none => none
      | some (v, s) =>
        let inc := (b - a) / (n : Rat)
        some (((List.range n.toNat).map fun (j : Nat) => a + inc * j) ++ v, inc :: s)
  | _, _ => none

/-- AxisSegments.values setter, axis.py 694-721; `none`: an exception (without segments the end is
unbound). -/
def mkSegments (limits : List Rat) (nsteps : List Int) : Option Seg :=
  if nsteps = [] then none
  else
    match segLoop limits nsteps with
    | none => none
    | some (v, s) => some ⟨limits, nsteps, s, v⟩

/-- Python's round: half to even. -/
def roundEven (q : Rat) : Int :=
  let f := ⌊q⌋
  if q - f < 1 / 2 then f
  else if 1 / 2 < q - f then f + 1
  else if f % 2 = 0 then f else f + 1

/-- The loop of the stepsizes setter, axis.py 661-665: numbers of steps. -/
def stepCounts : List Rat → List Rat → Option (List Int)
  | _, [] => some []
  | a :: b :: ls, h :: hs =>
    if h = 0 then none
    else
      match stepCounts (b :: ls) hs with
      | none => none
      | some ns => some (roundEven ((b - a) / h) :: ns)
  | _, _ => none

/-- stepsizes setter, axis.py 650-667. -/
def Seg.setSteps (s : Seg) (hs : List Rat) : Option Seg :=
  match stepCounts s.limits hs with
  | none => none
  | some ns => mkSegments s.limits ns

/-- The classes of axes. -/
inductive Ax where
  | plain (values : List Rat)
  | number (a : Reg)
  | regular (a : Reg)
  | inc (a : Reg)
  | segments (s : Seg)
deriving DecidableEq, Repr

/-- magnitude, axis.py 135-141. -/
def Ax.values : Ax → List Rat
  | .plain v => v
  | .number a => a.values
  | .regular a => a.values
  | .inc a => a.values
  | .segments s => s.values

/-- start, axis.py 165-167, 454-456, 630-632. -/
def Ax.start : Ax → Option Rat
  | .plain v => v.head?
  | .number a => some a.start
  | .regular a => some a.start
  | .inc a => some a.start
  | .segments s => s.limits.head?

/-- end, axis.py 169-171, 462-464, 634-636. -/
def Ax.stop : Ax → Option Rat
  | .plain v => v.getLast?
  | .number a => some a.stop
  | .regular a => some a.stop
  | .inc a => some a.stop
  | .segments s => s.limits.getLast?

/-- size, axis.py 173-175, 486-488. -/
def Ax.size : Ax → Int
  | .plain v => v.length
  | .number a => a.size
  | .regular a => a.size
  | .inc a => a.size
  | .segments s => s.values.length

/-- start_stepsize, axis.py 363-365, 478-480, 669-671; `none`: IndexError. -/
def Ax.startStep : Ax → Option Rat
  | .plain (a :: b :: _) => some (b - a)
  | .plain _ => none
  | .number a => some a.step
  | .regular a => some a.step
  | .inc a => some a.step
  | .segments s => s.steps.head?

/-- `self[-1] - self[-2]` -/
def lastStep (v : List Rat) : Option Rat :=
  match v.reverse with
  | b :: a :: _ => some (b - a)
  | _ => none

/-- end_stepsize, axis.py 367-369, 482-484, 673-675 (the second step size of a segmented axis). -/
def Ax.endStep : Ax → Option Rat
  | .plain v => lastStep v
  | .number a => some a.step
  | .regular a => some a.step
  | .inc a => some a.step
  | .segments s => (s.steps[1]? : Option Rat)

/-- `abs(np.diff(np.diff(x)))`, axis.py 342 -/
def secondDiff (xs : List Rat) : List Rat := (diff (diff xs)).map (|·|)

/-- `np.where(diff > precision)[0] + 1`, axis.py 351 -/
def bends (p : Rat) (xs : List Rat) : List Nat :=
  ((List.range (secondDiff xs).length).filter fun (i : Nat) => decide (p < (secondDiff xs).getD i 0)).map (· + 1)

/-- `ind`, axis.py 349-353 -/
def cuts (p : Rat) (xs : List Rat) : List Nat := [0] ++ bends p xs ++ [xs.length - 1]

/-- simplify, axis.py 335-361, for quantitative axes; `none`: an exception. -/
def simplify (p : Rat) (xs : List Rat) : Option Ax :=
  match xs with
  | [] => none
  | [x] => some (.number (mkNumber x))
  | [x, y] => (mkRegular x y 1).map .regular
  | x :: _ =>
    if (secondDiff xs).all (fun d => decide (d ≤ p)) then
      (mkRegular x (xs.getLastD 0) (xs.length - 1)).map .regular
    else
      let ind := cuts p xs
      if 3 * (ind.length - 1) < xs.length then
        (mkSegments (ind.map fun (i : Nat) => xs.getD i 0) (diff (ind.map Int.ofNat))).map .segments
      else some (.plain xs)

/-- newstart, axis.py 377-400; the outer `none`: an exception, the inner: None. -/
def newstart (a : Ax) (v : Rat) : Option (Option Ax) :=
  match a.startStep, a.start with
  | some h, some s =>
    if h = 0 then none
    else
      let k := ⌈(s - v) / h⌉
      let x :=
        if 0 < k then (((List.range k.toNat).map fun (i : Nat) => s - ((i + 1 : Nat) : Rat) * h).reverse) ++ a.values
        else if k < 0 then a.values.drop (-k).toNat
        else a.values
      if x = [] then some none
      else
        match simplify 0 x with
        | none => none
        | some b => some (some b)
  | _, _ => none

/-- newend, axis.py 402-425. -/
def newend (a : Ax) (v : Rat) : Option (Option Ax) :=
  match a.endStep, a.stop with
  | some h, some e =>
    if h = 0 then none
    else
      let k := ⌈(v - e) / h⌉
      let x :=
        if 0 < k then a.values ++ (List.range k.toNat).map fun (i : Nat) => e + ((i + 1 : Nat) : Rat) * h
        else if k < 0 then a.values.take (a.values.length - (-k).toNat)
        else a.values
      if x = [] then some none
      else
        match simplify 0 x with
        | none => none
        | some b => some (some b)
  | _, _ => none

/-- newlimits, axis.py 427-440. -/
def newlimits (a : Ax) (s e : Rat) : Option (Option Ax) :=
  match newstart a s with
  | none => none
  | some none => some none
  | some (some b) => newend b e

/-- np.argmin: the first smallest (numpy); `none`: ValueError. -/
def argmin : List Rat → Option Nat
  | [] => none
  | x :: xs =>
    match argmin xs with
    | none => some 0
    | some i => if x ≤ xs.getD i 0 then some 0 else some (i + 1)

/-- arg_closest_num, axis.py 8-12, for a value that is not an index. -/
def closest (xs : List Rat) (v : Rat) : Option Nat := argmin (xs.map fun x => |x - v|)

/-- The loop of arg_closest_string, axis.py 15-27, for any ratio function. -/
def closestStringLoop {α : Type} (ratio : α → Rat) : Nat → Nat → Rat → List α → Nat
  | _, j, _, [] => j
  | i, j, r, x :: xs =>
    if r < ratio x then closestStringLoop ratio (i + 1) i (ratio x) xs
    else closestStringLoop ratio (i + 1) j r xs

/-- arg_closest_string, axis.py 15-27. -/
def closestString {α : Type} (ratio : α → Rat) (xs : List α) : Nat := closestStringLoop ratio 0 0 0 xs

/-- arg_index, axis.py 30-34; `none`: ValueError. -/
def argIndex {α : Type} [DecidableEq α] : List α → α → Option Nat
  | [], _ => none
  | x :: xs, v => if x = v then some 0 else (argIndex xs v).map (· + 1)

/-- interpolate, axis.py 293-309, for a quantitative axis: old and new positions; `none`: IndexError. -/
def interpolate (xs : List Rat) (new : Option (List Rat)) : Option (List Rat × List Rat) :=
  match xs with
  | x :: y :: _ =>
    if y < x then
      let m := xs.foldl max x
      let old := xs.map (m - ·)
      some (old, match new with | none => old | some l => l.map (m - ·))
    else some (xs, match new with | none => xs | some l => l)
  | _ => none

/-- __eq__, axis.py 205-226, in common units; `none` is NaN. -/
def axisEq (p : Rat) (xs ys : List (Option Rat)) : Bool :=
  decide (xs.length = ys.length) && decide (xs.map Option.isNone = ys.map Option.isNone) &&
    (List.zipWith (fun a b => decide (|a - b| ≤ p)) (xs.filterMap id) (ys.filterMap id)).all id

end SC.Axis
