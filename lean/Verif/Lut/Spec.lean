import Verif.ListTools.Spec
import Mathlib.Algebra.Order.Field.Basic
/-! # C11: specification of the lookup table -/
namespace SC.Lut
open SC.ListTools

variable {K : Type} [Field K] [LinearOrder K]

/-- First value stored under `k`. -/
def firstValue (k : K) (l : List (K × K)) : Option K := (l.find? (fun p => decide (p.1 = k))).map (·.2)

/-- The table after a history of additions (`true`) and replacements (`false`), oldest first, as a
partial function: additions accumulate, a replacement overrules. -/
def table : (K → Option K) → List (Bool × List (K × K)) → K → Option K
  | m, [] => m
  | m, (add, l) :: h =>
    table (fun k =>
      if k ∈ l.map (·.1) then
        if add then some ((m k).getD 0 + total k l) else firstValue k l
      else m k) h

end SC.Lut
