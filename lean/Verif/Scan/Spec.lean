import Verif.Scan.Model
import Verif.Py.Basic
/-! # Specification for C40 -/
namespace SC.Scan

/-- Equally spaced positions with the given spacing. -/
def Spaced (h : Rat) (v : List Rat) : Prop := ∀ i, i + 1 < v.length → v.getD (i + 1) 0 - v.getD i 0 = h

/-- `v` has `n` points from `a` to `b` with spacing `h`. -/
structure Describes (v : List Rat) (n : Nat) (a b h : Rat) : Prop where
  length : v.length = n
  first : v.head? = some a
  last : v.getLast? = some b
  spaced : Spaced h v

/-- The positions from index `a` to index `b` (inclusive, either direction). -/
def between (v : List Rat) (a b : Nat) : List Rat :=
  (List.range (gap a b + 1)).map fun (i : Nat) => v.getD (if a ≤ b then a + i else a - i) 0

end SC.Scan
