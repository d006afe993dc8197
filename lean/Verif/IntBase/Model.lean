/-! # Model of `utils/integerbase.py`

`integerbase(digs)` converts integers to digit strings.  A "character" is an
element of an arbitrary type `α` with decidable equality, a "string" a
`List α`.  Python exceptions (and the one non-terminating branch) are values. -/

namespace SC.IntBase

/-- What Python does when no string / integer is produced. -/
inductive Err where
  /-- `self.digs[0]` on an empty digit table: `IndexError` -/
  | indexError
  /-- `x % 0`: `ZeroDivisionError` -/
  | zeroDivision
  /-- `while x: ... x //= 1` never ends (see `unary_loop_diverges`) -/
  | diverges
  /-- `self.digs.index(c)` with `c` absent: `ValueError` -/
  | valueError
deriving DecidableEq, Repr

/-- One round of the `while x:` loop body (integerbase.py 35-37): the pair
(`x % base`, `x // base`). -/
def loopStep (base x : Nat) : Nat × Nat := (x % base, x / base)

/-- The `while x:` loop, integerbase.py 35-37: list of digit indices in the order
they are appended (least significant first).  For `base < 2` the loop does not
have this meaning; `int2base` handles these bases separately. -/
def emit (base : Nat) (x : Nat) : List Nat :=
  if _h : x = 0 ∨ base < 2 then [] else
    (loopStep base x).1 :: emit base (loopStep base x).2
termination_by x
decreasing_by
  simp only [loopStep]
  exact Nat.div_lt_self (by omega) (by omega)

/-- `integerbase.int2base`, integerbase.py 26-41.  `minus` is the character "-". -/
def int2base {α : Type} (digs : List α) (minus : α) (x : Int) : Except Err (List α) :=
  if x = 0 then
    match digs with
    | [] => .error .indexError
    | d :: _ => .ok [d]
  else match digs with
    | [] => .error .zeroDivision
    | [_] => .error .diverges
    | _ =>
      let digits := (emit digs.length x.natAbs).filterMap (fun i => digs[i]?)
      let digits := if x < 0 then digits ++ [minus] else digits
      .ok digits.reverse

/-- `self.digs.index(c)`: position of the first occurrence. -/
def index? {α : Type} [DecidableEq α] : List α → α → Option Nat
  | [], _ => none
  | d :: ds, c => if d = c then some 0 else (index? ds c).map (· + 1)

/-- The `for i in range(len(y))` loop of `base2int` (integerbase.py 45-47) on the
remaining characters, starting at exponent `i` with accumulator `val`. -/
def accum {α : Type} [DecidableEq α] (digs : List α) : Nat → Nat → List α → Except Err Nat
  | _, val, [] => .ok val
  | i, val, c :: y =>
    match index? digs c with
    | none => .error .valueError
    | some d => accum digs (i + 1) (val + d * digs.length ^ i) y

/-- `integerbase.base2int`, integerbase.py 43-48. -/
def base2int {α : Type} [DecidableEq α] (digs : List α) (x : List α) : Except Err Nat :=
  accum digs 0 0 x.reverse

end SC.IntBase
