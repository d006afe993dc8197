import Mathlib.Algebra.Order.Field.Rat
import Mathlib.Algebra.Order.Ring.Rat
/-! # Model of `materials/interaction.py` -/
namespace SC.Interact

abbrev Str := List Char

/-- The interactions; the argument of a fluorescence line is its element, its name and its energy, materials/interaction.py:27-63. -/
inductive I
  | source (energy : Rat) (index : Nat)
  | fluo (el line : Str) (energy : Rat)
  | elastic (s : I)
  | inelastic (s : I) (theta : Rat)

/-- The names, materials/interaction.py:29, 44, 52 and 59. Equality and hashes use them, interaction.py:21-24. -/
def name : I → Str
  | .source _ i => ['S', 'o', 'u', 'r', 'c', 'e', '-'] ++ Nat.toDigits 10 i
  | .fluo el line _ => el ++ '-' :: line
  | .elastic s => ['R', 'S', 'c', 'a', 't', '('] ++ name s ++ [')']
  | .inelastic s _ => ['C', 'S', 'c', 'a', 't', '('] ++ name s ++ [')']

/-- The energies, interaction.py:14-16 and 65-74. `delta` is the change of the inverse energy for a scattering angle. A zero angle makes
the property call itself (`none`: RecursionError), also while the next interaction is made. -/
def energy (delta : Rat → Rat) : I → Option Rat
  | .source e _ => some e
  | .fluo _ _ e => some e
  | .elastic s => energy delta s
  | .inelastic s theta => (energy delta s).bind fun e => if theta = 0 then none else some (e / (1 + e * delta theta))

/-- `==` of interactions, by their names, utils/comparable.py:10-11, 37-38 and 52-53. -/
def same (a b : I) : Bool := name a == name b

/-- `<` of interactions, by their energies, interaction.py:18-19 and utils/comparable.py:25-41. The branch for other objects is left out: between interactions it
meets the same error again. -/
def lt (delta : Rat → Rat) (a b : I) : Option Bool :=
  (energy delta a).bind fun x => (energy delta b).bind fun y => some (decide (x < y))

end SC.Interact
