import Mathlib.Algebra.Order.Field.Basic
/-! # Model of `utils/units.py`

A unit of `pint` has a name, a dimension and a positive factor (no offsets such as degrees Celsius, no
contexts such as "spectroscopy"); units are equal when all three are. Values are numbers, quantities, quantities
with an array and lists of numbers and quantities (lists of lists and arrays with several or no dimensions are
not modelled). `D` are the dimensions, `0` that of pure numbers. -/
namespace SC.Units

variable {D K : Type} [DecidableEq D] [Zero D] [Field K] [LinearOrder K] [IsStrictOrderedRing K]

/-- A unit. -/
structure Unt (D K : Type) [Zero K] [LT K] where
  name : Nat
  dim : D
  factor : K
  pos : 0 < factor

instance : DecidableEq (Unt D K) := fun a b =>
  if h : a.name = b.name ∧ a.dim = b.dim ∧ a.factor = b.factor then
    isTrue (by obtain ⟨n, d, f, p⟩ := a; obtain ⟨n', d', f', p'⟩ := b; simp only at h; obtain ⟨h1, h2, h3⟩ := h; subst h1; subst h2; subst h3; rfl)
  else isFalse (fun e => h (by rw [e]; exact ⟨rfl, rfl, rfl⟩))

/-- `ureg.dimensionless`, units.py:9. -/
def dimless : Unt D K := ⟨0, 0, 1, zero_lt_one⟩

/-- Exceptions: DimensionalityError, StopIteration, ValueError, RuntimeError. -/
inductive Err where
  | dimensionality | stop | value | runtime
deriving DecidableEq

/-- A number or a quantity. -/
inductive Sc (D K : Type) [Zero K] [LT K] where
  | num (x : K)
  | q (x : K) (u : Unt D K)

/-- Arguments. -/
inductive Val (D K : Type) [Zero K] [LT K] where
  | sc (s : Sc D K)
  | qarr (xs : List K) (u : Unt D K)
  | list (xs : List (Sc D K))

/-- Results: numbers and quantities, with one number or an array. -/
inductive Out (D K : Type) [Zero K] [LT K] where
  | num (x : K)
  | arr (xs : List K)
  | q (x : K) (u : Unt D K)
  | qarr (xs : List K) (u : Unt D K)

/-- `x.to(units)` of an array (pint): the dimensions are compared also when there are no elements. -/
def convs (xs : List K) (u v : Unt D K) : Except Err (List K) :=
  if u.dim = v.dim then .ok (xs.map fun x => x * u.factor / v.factor) else .error .dimensionality

/-- `x.to(units)` of one number. -/
def conv (x : K) (u v : Unt D K) : Except Err K :=
  if u.dim = v.dim then .ok (x * u.factor / v.factor) else .error .dimensionality

/-- magnitude of one number or quantity, units.py:31-57. -/
def Sc.magnitude (s : Sc D K) (u : Option (Unt D K)) : Except Err K :=
  let u := u.getD dimless
  match s with
  | .q x v => conv x v u
  | .num x => if u ≠ dimless then .error .dimensionality else .ok x

/-- `[magnitude(y, units=units) for y in x]` -/
def magnitudes (u : Option (Unt D K)) : List (Sc D K) → Except Err (List K)
  | [] => .ok []
  | s :: xs => match s.magnitude u with
    | .error e => .error e
    | .ok m => match magnitudes u xs with
      | .error e => .error e
      | .ok ms => .ok (m :: ms)

/-- magnitude, units.py:31-57: an array for arrays and lists. -/
def Val.magnitude (x : Val D K) (u : Option (Unt D K)) : Except Err (List K) := match x with
  | .sc s => match s.magnitude u with
    | .error e => .error e
    | .ok m => .ok [m]
  | .qarr xs v => convs xs v (u.getD dimless)
  | .list xs => magnitudes u xs

/-- units of one number or quantity, units.py:73-87. -/
def Sc.units : Sc D K → Option (Unt D K)
  | .num _ => none
  | .q _ u => some u

/-- `listtools.flatten(units(x))`, units.py:73-87. -/
def Val.units : Val D K → List (Option (Unt D K))
  | .sc s => [s.units]
  | .qarr _ u => [some u]
  | .list xs => xs.map Sc.units

/-- asqarray with `forcequantity=False`, units.py:90-108: numbers and their unit. -/
def asqarray (x : Val D K) : Except Err (List K × Option (Unt D K)) := match x.units with
  | [] => .error .stop
  | u :: _ => match x with
    | .sc s => match s.magnitude u with
      | .error e => .error e
      | .ok m => .ok ([m], u)
    | .qarr xs v => match convs xs v (u.getD dimless) with
      | .error e => .error e
      | .ok ms => .ok (ms, u)
    | .list xs => match magnitudes u xs with
      | .error e => .error e
      | .ok ms => .ok (ms, u)

/-- Quantity, units.py:12-28. -/
def quantity (x : Val D K) (u : Option (Unt D K)) (force : Bool) : Except Err (Out D K) := match x with
  | .sc (.num x) => .ok (if force then .q x (u.getD dimless) else .num x)
  | .sc (.q x v) => .ok (.q x v)
  | x => match asqarray x with
    | .error e => .error e
    | .ok (ms, some v) => .ok (.qarr ms v)
    | .ok (ms, none) => .ok (if force then .qarr ms (u.getD dimless) else .arr ms)

/-- `x.to(unit)` (pint). -/
def Out.to (x : Out D K) (v : Unt D K) : Except Err (Out D K) := match x with
  | .q x u => match conv x u v with
    | .error e => .error e
    | .ok m => .ok (.q m v)
  | .qarr xs u => match convs xs u v with
    | .error e => .error e
    | .ok ms => .ok (.qarr ms v)
  | x => .ok x

/-- `x.magnitude` -/
def Out.mags : Out D K → List K
  | .num x => [x]
  | .arr xs => xs
  | .q x _ => [x]
  | .qarr xs _ => xs

/-- umagnitude, units.py:60-70. -/
def umagnitude (x : Val D K) (u : Option (Unt D K)) : Except Err (List K) := match quantity x u true with
  | .error e => .error e
  | .ok q => match q.to (u.getD dimless) with
    | .error e => .error e
    | .ok q => .ok q.mags

/-- `len(set(..)) == 1` and its element. -/
def single {α : Type} [DecidableEq α] : List α → Option α
  | [] => none
  | a :: l => if l.all (fun b => b = a) then some a else none

/-- quantity_like, units.py:134-154. -/
def quantityLike (x y : Val D K) (force : Bool) : Except Err (Out D K) := match single y.units with
  | none => .error .value
  | some u =>
    if !force && u.isNone then
      match x with
      | .sc s => match s.magnitude none with
        | .error e => .error e
        | .ok m => .ok (.num m)
      | x => match x.magnitude none with
        | .error e => .error e
        | .ok ms => .ok (.arr ms)
    else
      let u := u.getD dimless
      match quantity x (some u) true with
      | .error e => .error e
      | .ok q => q.to u

/-- The loop of unitsto, units.py:170-177. -/
def firstTo (x : Out D K) : List (Unt D K) → Except Err (Out D K)
  | [] => .error .runtime
  | u :: us => match x.to u with
    | .ok y => .ok y
    | .error _ => firstTo x us

/-- unitsto, units.py:157-178. -/
def unitsto (x : Val D K) (us : List (Unt D K)) : Except Err (Out D K) := match quantity x none true with
  | .error e => .error e
  | .ok q => firstTo q us

/-- The two arguments of the operation in binary_operator, units.py:181-194. -/
def operands (a b : Val D K) : Except Err (Out D K × Out D K) := match quantity a none false with
  | .error e => .error e
  | .ok x => match quantityLike b a false with
    | .error e => .error e
    | .ok y => .ok (x, y)

end SC.Units
