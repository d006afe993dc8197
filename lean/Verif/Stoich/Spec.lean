import Mathlib.Algebra.BigOperators.Fin
import Mathlib.Algebra.Order.Field.Basic
/-! # C15: specification

A mixture is a list of compounds, each with a mass, a molar mass and a density.  Fractions are
shares of the total mass, the total amount of substance and the total volume. -/
namespace SC.Stoich
open Finset

variable {K : Type} [Field K] [LinearOrder K] [IsStrictOrderedRing K] {n : Nat}

structure Mix (K : Type) (n : Nat) where
  mass : Fin n → K
  MM : Fin n → K
  rho : Fin n → K

/-- Physically meaningful: nothing negative, something there. -/
structure Mix.Valid (m : Mix K n) : Prop where
  mass_nonneg : ∀ i, 0 ≤ m.mass i
  some_mass : ∃ i, 0 < m.mass i
  MM_pos : ∀ i, 0 < m.MM i
  rho_pos : ∀ i, 0 < m.rho i

/-- amount of substance of compound `i` -/
def Mix.moles (m : Mix K n) (i : Fin n) : K := m.mass i / m.MM i
/-- volume of compound `i` -/
def Mix.vol (m : Mix K n) (i : Fin n) : K := m.mass i / m.rho i

/-- Share of `i` in the total. -/
def share (a : Fin n → K) : Fin n → K := fun i => a i / ∑ j, a j

def Mix.w (m : Mix K n) : Fin n → K := share m.mass
def Mix.x (m : Mix K n) : Fin n → K := share m.moles
def Mix.v (m : Mix K n) : Fin n → K := share m.vol

/-- total mass over total volume -/
def Mix.density (m : Mix K n) : K := (∑ j, m.mass j) / ∑ j, m.vol j
/-- total mass over total amount of substance -/
def Mix.molarmass (m : Mix K n) : K := (∑ j, m.mass j) / ∑ j, m.moles j

/-- Non-negative numbers with sum one. -/
def Fractions (f : Fin n → K) : Prop := (∀ i, 0 ≤ f i) ∧ ∑ i, f i = 1

end SC.Stoich
