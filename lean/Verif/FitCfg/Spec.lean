import Verif.FitCfg.Model
/-! Specification: source lines in use, one by one. -/
namespace SC.FitCfg
open SC.Py

/-- A source line. -/
@[ext] structure Line where
  energy : Val
  weight : Val
  scatter : Rat
deriving DecidableEq

/-- The lines of which the flag is set; lists that are too short lack energies and weights and do not
scatter. -/
def active (c : Lines) : List Line :=
  (List.range c.flag.length).filterMap fun i =>
    if c.flag[i]?.getD 0 = 0 then none else some ⟨(c.energy[i]?).join, (c.weight[i]?).join, (c.scatter[i]?).getD 0⟩

/-- The line when the first energy `e0` with weight `w0` becomes energy `e` with weight 1. -/
def rescale (e0 w0 e : Rat) (l : Line) : Line := ⟨l.energy.map fun x => x / e0 * e, l.weight.map fun x => x / w0, l.scatter⟩

/-- The first line has an energy and a weight, the others too. -/
structure Complete (c : Lines) (e0 w0 : Rat) : Prop where
  first : ∃ s r, active c = ⟨some e0, some w0, s⟩ :: r
  energy : ∀ l ∈ active c, l.energy.isSome
  weight : ∀ l ∈ active c, l.weight.isSome
  e0 : e0 ≠ 0
  w0 : w0 ≠ 0

/-- The last line has a high energy and a low weight. -/
def EndsHigh (c : Lines) (e0 w0 : Rat) : Prop :=
  ∃ l e w, (active c).getLast? = some l ∧ l.energy = some e ∧ l.weight = some w ∧ w / w0 < 1 / 100000 ∧ 1 < e / e0

/-- An array in the results. -/
def value (ret : Dict Name (Nat → Nat → Val)) (k : Name) (j i : Nat) : Val := (ret.get? k).getD (fun _ _ => some 0) j i

end SC.FitCfg
