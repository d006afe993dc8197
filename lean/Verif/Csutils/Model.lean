import Mathlib.Algebra.Order.Ring.Rat
import Mathlib.Data.List.Basic
/-! # Model of `materials/csutils.py` and of the correction with simulated cross sections in
`materials/element.py`

An array is its shape and its values in C order. -/
namespace SC.Csutils

structure Arr (α : Type) where
  shape : List Nat
  data : List α
deriving DecidableEq

/-- What a caller can give for atomic numbers and energies: a number, or an array (list, tuple, numpy array,
array quantity). An array without dimensions has shape `[]`. -/
inductive In (α : Type) where
  | num (x : α)
  | arr (a : Arr α)

/-- `instance.isarray`, instance.py:164-170. -/
def In.isarray {α : Type} : In α → Bool
  | .num _ => false
  | .arr _ => true

/-- `np.atleast_1d(x).flatten()`, csutils.py:26-27 and 40-41. -/
def In.flat {α : Type} : In α → List α
  | .num x => [x]
  | .arr a => a.data

/-- The dimensions in the result, csutils.py:24-35: none for numbers and for arrays without dimensions. -/
def In.dims {α : Type} : In α → List Nat
  | .num _ => []
  | .arr a => a.shape

/-- The table without numpy support in xraylib, csutils.py:50-58: zero where the method raises ValueError. -/
def table {Z E : Type} (method : Z → E → Option Rat) (zs : List Z) (es : List E) : List (List Rat) :=
  zs.map fun z => es.map fun e => (method z e).getD 0

/-- The two kinds of results. -/
inductive Out where
  | num (x : Rat)
  | arr (a : Arr Rat)
deriving DecidableEq

/-- eval before the post function, csutils.py:8-66: `some t` is the table of `len(Z)` rows. `np` is the function
of xraylib_np: `none` when it is not installed, and its result is `none` when it raises ValueError. -/
def evalTable {Z E : Type} (np : Option (List Z → List E → Option (List (List Rat)))) (method : Z → E → Option Rat)
    (z : In Z) (e : In E) : List (List Rat) :=
  match np with
  | none => table method z.flat e.flat
  | some f => match f z.flat e.flat with
    | some t => t
    | none => table method z.flat e.flat

/-- eval with `applypost=True`, csutils.py:8-75: the values of the table in C order with the dimensions of the
input. The data frame is not modelled. -/
def eval {Z E : Type} (np : Option (List Z → List E → Option (List (List Rat)))) (method : Z → E → Option Rat)
    (z : In Z) (e : In E) : Out :=
  match z, e with
  | .num z, .num e => .num ((method z e).getD 0)
  | z, e => .arr { shape := z.dims ++ e.dims, data := (evalTable np method z e).flatten }

/-- The C order: the position of an index in the values. -/
def ravel : List Nat → List Nat → Nat
  | n :: ns, i :: is => i * ns.prod + ravel ns is
  | _, _ => 0

/-- An array of one dimension indexed with `np.argwhere` of a table with one row, `none` for IndexError:
`a[ind]` with `ind` of shape `(k, 2)` has the elements for the row numbers (0) and column numbers. -/
def takeCols {α : Type} (a : List α) (cols : List Nat) : Option (List α) :=
  (cols.flatMap fun c => [0, c]).mapM fun i => a[i]?

/-- _replace_partial_mass_abs_coeff with an environment and an array of energies, element.py:287-311: `cs` is the
table with one row of eval, `db` and `sim` are the partial cross sections at the energies. `cs[ind2]` takes rows
of the table, whose only row is 0. `interp` is the interpolation of scipy with its assignment; of an empty list it
is not modelled (`none`), of lists of different lengths it is ValueError. -/
def replacePartial (interp : List Rat → List Rat → List Rat → List Rat) (cs db sim energies : List Rat) : Option (List Rat) :=
  let cs := List.zipWith (· - ·) cs db
  let neg := (List.range cs.length).filter fun i => decide (cs.getD i 0 < 0)
  let pos := (List.range cs.length).filter fun i => decide (0 ≤ cs.getD i 0)
  if neg = [] then some (List.zipWith (· + ·) cs sim)
  else
    match takeCols energies pos, takeCols [cs] pos with
    | some x, some y =>
      if x = [] then none
      else if x.length = y.flatten.length then some (List.zipWith (· + ·) (interp x y.flatten cs) sim)
      else none
    | _, _ => none

/-- The same with a number: the interpolation cannot have points, element.py:287-311. -/
def replacePartialNum (cs db sim : Rat) : Option Rat :=
  if cs - db < 0 then none else some (cs - db + sim)

end SC.Csutils
