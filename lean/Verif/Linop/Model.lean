import Mathlib.Algebra.Order.Field.Basic
/-! # Model of `math/linop.py`

Simplified: values are floats without rounding (`F K`: NaN, the two infinities, or an element of a
linearly ordered field; zero is unsigned), arguments are scalars, units are not modelled. -/
namespace SC.Linop

/-- A float without rounding. -/
inductive F (K : Type) where
  | nan : F K
  | ninf : F K
  | fin : K → F K
  | pinf : F K
deriving DecidableEq

variable {K : Type} [Field K] [LinearOrder K]

namespace F
/-- IEEE addition. -/
def add : F K → F K → F K
  | nan, _ => nan
  | _, nan => nan
  | fin a, fin b => fin (a + b)
  | fin _, y => y
  | x, fin _ => x
  | pinf, pinf => pinf
  | ninf, ninf => ninf
  | _, _ => nan

/-- `-a` for floats. -/
def neg : F K → F K
  | nan => nan
  | ninf => pinf
  | pinf => ninf
  | fin a => fin (-a)

/-- `a - b` for floats. -/
def sub (a b : F K) : F K := add a (neg b)

/-- An infinity with the sign of `a`, NaN for 0. -/
def signInf (a : K) : F K := if 0 < a then pinf else if a < 0 then ninf else nan

/-- IEEE multiplication. -/
def mul : F K → F K → F K
  | nan, _ => nan
  | _, nan => nan
  | fin a, fin b => fin (a * b)
  | fin a, pinf => signInf a
  | fin a, ninf => neg (signInf a)
  | pinf, fin a => signInf a
  | ninf, fin a => neg (signInf a)
  | pinf, pinf => pinf
  | ninf, ninf => pinf
  | _, _ => ninf

/-- IEEE division (zero is positive). -/
def div : F K → F K → F K
  | nan, _ => nan
  | _, nan => nan
  | fin a, fin b => if b = 0 then signInf a else fin (a / b)
  | fin _, _ => fin 0
  | pinf, fin b => if b < 0 then ninf else pinf
  | ninf, fin b => if b < 0 then pinf else ninf
  | _, _ => nan

/-- IEEE comparison `<` (false on NaN). -/
def lt : F K → F K → Bool
  | nan, _ => false
  | _, nan => false
  | fin a, fin b => decide (a < b)
  | ninf, ninf => false
  | ninf, _ => true
  | _, ninf => false
  | pinf, _ => false
  | _, pinf => true

/-- IEEE comparison `<=` (false on NaN). -/
def le : F K → F K → Bool
  | nan, _ => false
  | _, nan => false
  | a, b => !(lt b a)

/-- Python's `max(a, b)`: `b` when `b > a`, else `a`. -/
def pmax (a b : F K) : F K := if lt a b then b else a
/-- Python's `min(a, b)`: `b` when `b < a`, else `a`. -/
def pmin (a b : F K) : F K := if lt b a then b else a
end F

/-- One operator without its `_opright`. -/
inductive Atom (K : Type) where
  /-- `Identity`, linop.py:104-120 -/
  | id : Atom K
  /-- `Lambda`, linop.py:123-137 (the names only matter for printing and equality) -/
  | lambda : (F K → F K) → (F K → F K) → Atom K
  /-- `Clip(cmin, cmax)`, linop.py:252-285 -/
  | clip : Option (F K) → Option (F K) → Atom K
  /-- `NaNClip(cmin, cmax)`, linop.py:288-310 -/
  | nclip : Option (F K) → Option (F K) → Atom K
  /-- `LinearOperator(m, b)`, linop.py:313-378 -/
  | linear : F K → F K → Atom K

/-- An operator with its chain of `_opright` operators, linop.py:10-17: the head is applied last.
The empty list stands for `None`. -/
abbrev Op (K : Type) := List (Atom K)

/-- `_valid_limit`, linop.py:201-204. -/
def validLimit : Option (F K) → Bool
  | none => false
  | some .nan => false
  | some _ => true

/-- `_valid_limits(self, cmin, cmax)`, linop.py:206-216, for an operator with limits `smin`, `smax`
(the comparison is between the limits of `self`, whatever the arguments; comparing with `None`
raises `TypeError`). -/
def validLimits (smin smax cmin cmax : Option (F K)) : Bool :=
  if validLimit cmin && validLimit cmax then
    match smin, smax with
    | some a, some b => F.le a b
    | _, _ => false
  else true

/-- `y[y < cmin] = v` for a valid limit. -/
def below (c : Option (F K)) (v y : F K) : F K :=
  match c with
  | some c => if F.lt y c then v else y
  | none => y
/-- `y[y > cmax] = v` for a valid limit. -/
def above (c : Option (F K)) (v y : F K) : F K :=
  match c with
  | some c => if F.lt c y then v else y
  | none => y

/-- Clip._eval, linop.py:268-281. -/
def evalClip (cmin cmax : Option (F K)) (x : F K) : F K :=
  if validLimits cmin cmax cmin cmax then
    let y := if validLimit cmin then below cmin (cmin.getD .nan) x else x
    if validLimit cmax then above cmax (cmax.getD .nan) y else y
  else .nan

/-- NaNClip._eval, linop.py:298-306. -/
def evalNclip (cmin cmax : Option (F K)) (x : F K) : F K :=
  let y := if validLimit cmin then below cmin .nan x else x
  if validLimit cmax then above cmax .nan y else y

/-- `_eval` -/
def Atom.eval : Atom K → F K → F K
  | .id, x => x
  | .lambda f _, x => f x
  | .clip a b, x => evalClip a b x
  | .nclip a b, x => evalNclip a b x
  | .linear m b, x => F.add (F.mul m x) b

/-- Operator.__call__, linop.py:69-72. -/
def eval : Op K → F K → F K
  | [], x => x
  | a :: r, x => a.eval (eval r x)

/-- `(c - b) / m` for a valid limit, else `None`, linop.py:189-196. -/
def movedLimit (m b : F K) (c : Option (F K)) : Option (F K) :=
  if validLimit c then c.map (fun c => F.div (F.sub c b) m) else none

/-- ClipOperator._commute_linop, linop.py:186-199: the new limits. -/
def commuteLimits (m b : F K) (cmin cmax : Option (F K)) : Option (F K) × Option (F K) :=
  let lo := movedLimit m b cmin
  let hi := movedLimit m b cmax
  if F.lt m (.fin 0) then (hi, lo) else (lo, hi)

/-- `self.cmax < rother.cmin` for valid limits. -/
def ltLimit : Option (F K) → Option (F K) → Bool
  | some a, some b => F.lt a b
  | _, _ => false

/-- Limits of the product of two operators of the same class, or `none` when they are not
combined, linop.py:223-246. -/
def combine (smin smax rmin rmax : Option (F K)) : Option (Option (F K) × Option (F K)) :=
  let nocomb := !(validLimits smin smax smin smax) || !(validLimits smin smax rmin rmax)
    || (validLimit smax && validLimit rmin && ltLimit smax rmin)
    || (validLimit rmax && validLimit smin && ltLimit rmax smin)
  if nocomb then none
  else
    let cmin :=
      if validLimit rmin then
        if validLimit smin then some (F.pmax (smin.getD .nan) (rmin.getD .nan)) else rmin
      else smin
    let cmax :=
      if validLimit rmax then
        if validLimit smax then some (F.pmin (smax.getD .nan) (rmax.getD .nan)) else rmax
      else smax
    some (cmin, cmax)

/-- `a * rother` for an operator `a` without `_opright`: Operator.__mul__ (linop.py:46-58),
Identity.__mul__ (109-113), CommutativeOperator.__mul__ (145-153), ClipOperator.__mul__ (218-249),
LinearOperator.__mul__ (346-354). -/
def mulAtom : Atom K → Op K → Op K
  | .id, [] => [.id]
  | .id, r => r
  | a, [] => [a]
  | a, .id :: _ => [a]
  | .linear m b, .linear m' b' :: rt => .linear (F.mul m m') (F.add (F.mul b' m) b) :: rt
  | .clip lo hi, .linear m b :: rt =>
    .linear m b :: mulAtom (.clip (commuteLimits m b lo hi).1 (commuteLimits m b lo hi).2) rt
  | .nclip lo hi, .linear m b :: rt =>
    .linear m b :: mulAtom (.nclip (commuteLimits m b lo hi).1 (commuteLimits m b lo hi).2) rt
  | .clip lo hi, .clip lo' hi' :: rt =>
    match combine lo hi lo' hi' with
    | none => .clip lo hi :: .clip lo' hi' :: rt
    | some c => .clip c.1 c.2 :: rt
  | .nclip lo hi, .nclip lo' hi' :: rt =>
    match combine lo hi lo' hi' with
    | none => .nclip lo hi :: .nclip lo' hi' :: rt
    | some c => .nclip c.1 c.2 :: rt
  | a, r => a :: r

/-- `a * rother`, linop.py:46-58: with an `_opright` the product goes to the right of the chain.
(`None * x` is `x`, linop.py:60-67.) -/
def mul : Op K → Op K → Op K
  | [], r => r
  | [a], r => mulAtom a r
  | a :: a' :: t, r => a :: mul (a' :: t) r

/-- LinearOperator.__pow__, linop.py:356-368.  Only `m` and `b` of the operator are used: its
`_opright` is dropped. -/
def pow (m b : F K) : Nat → Op K
  | 0 => [.linear (.fin 0) (.fin 1)]
  | 1 => [.linear m b]
  | n + 2 => mul (pow m b (n + 1)) [.linear m b]

/-- `_inverse` -/
def Atom.inverse : Atom K → Atom K
  | .id => .id
  | .lambda f g => .lambda g f
  | .clip a b => .nclip a b
  | .nclip a b => .nclip a b
  | .linear m b => .linear (F.div (.fin 1) m) (F.div (F.neg b) m)

/-- Operator.inverse, linop.py:77-82; LinearOperator.inverse, 370-378. -/
def inverse : Op K → Op K
  | [] => []
  | [a] => [a.inverse]
  | a :: t => mul (inverse t) [a.inverse]

end SC.Linop
