import Mathlib.LinearAlgebra.Matrix.DotProduct
import Mathlib.Data.Matrix.Mul
import Mathlib.Algebra.Order.Field.Basic
/-! # Model of `math/lsqlin.py`

The problem that is given to the solver `cvxopt.solvers.qp`: minimise `x^T.Q.x / 2 + q.x` under
`G.x <= h` and `A.x = b`. Not modelled: the solver, sparse matrices, `x0`, options (they stay in
`solvers.options` for later calls). -/
namespace SC.Lsq
open Matrix

variable {K : Type} [Field K] [LinearOrder K] [IsStrictOrderedRing K] {n m : Nat}

/-- Exceptions: arrays of zero dimensions, or sizes that do not fit. -/
inductive Err where
  | zeroDim | size
deriving DecidableEq

/-- Bounds: one number or a list. -/
inductive Bound (K : Type) where
  | scalar (v : K)
  | list (v : List K)

/-- Arguments of lsqlin, lsqlin.py:103-115. -/
structure Input (K : Type) (n m : Nat) where
  C : Matrix (Fin n) (Fin m) K
  d : Fin n → K
  reg : K
  A : Option (List (Fin m → K))
  b : Option (List K)
  Aeq : List (Fin m → K)
  beq : List K
  lb : Option (Bound K)
  ub : Option (Bound K)

/-- A quadratic program. -/
structure QP (K : Type) (m : Nat) where
  Q : Matrix (Fin m) (Fin m) K
  q : Fin m → K
  G : List (Fin m → K)
  h : List K
  A : List (Fin m → K)
  b : List K

/-- `np.repeat(lb, nvars)` when there is one number, lsqlin.py:176-177 and 188-189. -/
def Bound.expand (m : Nat) : Bound K → List K
  | .scalar v => List.replicate m v
  | .list v => if v.length = 1 then (v.flatMap fun x => List.replicate m x) else v

/-- The rows of the identity. -/
def eye (m : Nat) : List (Fin m → K) := (List.finRange m).map fun i => fun j => if i = j then 1 else 0

/-- numpy_None_vstack and numpy_None_concatenate, lsqlin.py:40-51. -/
def stack {α : Type} (a : Option (List α)) (b : List α) : List α := match a with
  | none => b
  | some a => a ++ b

/-- Bounds, lsqlin.py:175-196. -/
def addBound (lo : Bool) (bd : Option (Bound K)) (A : Option (List (Fin m → K))) (b : Option (List K)) :
    Option (List (Fin m → K)) × Option (List K) := match bd with
  | none => (A, b)
  | some v =>
    let v := v.expand m
    (some (stack A (if lo then (eye m).map (fun r => fun j => -(r j)) else eye m)), some (stack b (if lo then v.map (fun x => -x) else v)))

/-- lsqlin, lsqlin.py:140-211: the program. `b` with one element is squeezed to zero dimensions
(lsqlin.py:173), which can neither be concatenated nor converted. -/
def program (i : Input K n m) : Except Err (QP K m) :=
  let Q0 := i.Cᵀ * i.C
  let Q := if 0 < i.reg then Q0 + i.reg • (1 : Matrix (Fin m) (Fin m) K) else Q0
  let q := fun j => ((fun k => -(i.d k)) ᵥ* i.C) j
  if (i.b.map List.length) = some 1 then .error .zeroDim
  else
    let s1 := addBound true i.lb i.A i.b
    let s2 := addBound false i.ub s1.1 s1.2
    let G := s2.1.getD []
    let h := s2.2.getD []
    if G.length ≠ h.length ∨ i.Aeq.length ≠ i.beq.length then .error .size
    else .ok ⟨Q, q, G, h, i.Aeq, i.beq⟩

/-- lsqnonneg, lsqlin.py:214-220. -/
def nonneg (C : Matrix (Fin n) (Fin m) K) (d : Fin n → K) : Input K n m :=
  ⟨C, d, 0, none, none, [], [], some (.scalar 0), none⟩

/-- lsqnorm, lsqlin.py:223-230. -/
def norm (C : Matrix (Fin n) (Fin m) K) (d : Fin n → K) : Input K n m :=
  ⟨C, d, 0, none, none, [fun _ => 1], [1], some (.scalar 0), some (.scalar 1)⟩

end SC.Lsq
