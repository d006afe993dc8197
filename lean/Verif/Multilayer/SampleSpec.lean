import Verif.Multilayer.Sample
import Verif.Compound.Spec
import Mathlib.Algebra.BigOperators.Group.Finset.Basic
/-! # C59: specification -/
namespace SC.Multilayer
open SC.Compound

/-- The mass of an element per area: from every layer its mass per area times the mass fraction. -/
noncomputable def massOf {E : Type} [DecidableEq E] (ls : List (Lyr E)) (e : E) : ℝ :=
  (ls.map fun l => l.density * l.t * amount id l.mat.mass e).sum

/-- A material with one entry per element and mass fractions that add up to one. -/
def Normal {E : Type} [DecidableEq E] (p : Part E ℝ) : Prop := (names id p.mass).Nodup ∧ total p.mass = 1

/-- The sum of squared differences between a function and the data. -/
noncomputable def misfit (f : ℝ → ℝ) (es y : List ℝ) : ℝ :=
  ∑ j ∈ Finset.range y.length, (f (es.getD j 0) - y.getD j 0) ^ 2

/-- Entry `j` of the matrix with the given columns times a vector. -/
noncomputable def fitted (cols : List (List ℝ)) (ps : List ℝ) (j : Nat) : ℝ :=
  ((cols.zip ps).map fun p => p.2 * p.1.getD j 0).sum

/-- The sum of squared differences of a linear system. -/
noncomputable def colMisfit (cols : List (List ℝ)) (y ps : List ℝ) : ℝ :=
  ∑ j ∈ Finset.range y.length, (fitted cols ps j - y.getD j 0) ^ 2

/-- A best solution of a linear system among those allowed. -/
structure BestFit (ok : List ℝ → Prop) (cols : List (List ℝ)) (y ps : List ℝ) : Prop where
  size : ps.length = cols.length
  allowed : ok ps
  best : ∀ qs, qs.length = cols.length → ok qs → colMisfit cols y ps ≤ colMisfit cols y qs

/-- no restriction, numbers that are not negative, and the same except for the last -/
def Any (_ : List ℝ) : Prop := True
def NonNeg (ps : List ℝ) : Prop := ∀ p ∈ ps, 0 ≤ p
def NonNegInit (ps : List ℝ) : Prop := NonNeg ps.dropLast

/-- What is asked of the solvers: they find a best solution when there is one. -/
structure Solvers.Good (s : Solvers) : Prop where
  lstsq : ∀ cols y, (∃ q, BestFit Any cols y q) → BestFit Any cols y (s.lstsq cols y)
  nonneg : ∀ cols y, (∃ q, BestFit NonNeg cols y q) → BestFit NonNeg cols y (s.nonneg cols y)
  bound : ∀ cols y, (∃ q, BestFit NonNegInit cols y q) → BestFit NonNegInit cols y (s.bound cols y)

/-- The samples that differ from `ls` by the layers that are not fixed, as `change` tells. -/
def Variant (change : RLyr → RLyr → Prop) (ls r : List RLyr) : Prop :=
  List.Forall₂ (fun l l' => if l.fixed then l' = l else change l l') ls r

/-- another thickness, not negative when constrained -/
def OtherThickness (constraint : Bool) (l l' : RLyr) : Prop :=
  ∃ t, l' = { l with t := t } ∧ (constraint = true → 0 ≤ t)

/-- another density of the layer, not negative when constrained -/
def OtherDensity (constraint : Bool) (l l' : RLyr) : Prop :=
  ∃ d, l' = { l with own := some d } ∧ (constraint = true → 0 ≤ d)

/-- other mass fractions and another thickness, not negative when constrained -/
def OtherComposition (constraint : Bool) (l l' : RLyr) : Prop :=
  ∃ (w : List ℝ) (t : ℝ), w.length = l.parts.length ∧
    l' = { l with parts := List.zipWith (fun x p => (x, p.2)) w l.parts, t := t } ∧
    (constraint = true → 0 ≤ t ∧ NonNeg w)

/-- The absorbance with the densities of the layers instead of those of their materials. -/
noncomputable def layerAbsorbance (cosin : ℝ) (ls : List RLyr) (e : ℝ) : ℝ :=
  (ls.map fun l => l.mac e * (l.xin cosin * l.density)).sum

end SC.Multilayer
