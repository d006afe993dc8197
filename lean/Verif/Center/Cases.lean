import Verif.Center.Props
import Mathlib.Data.Rat.Cast.Order
import Mathlib.Algebra.Order.Field.Rat
import Mathlib.Tactic.NormNum
import Mathlib.Tactic.NormNum.BigOperators
import Mathlib.Tactic.IntervalCases
/-! # C49: cases -/
namespace SC.Center
open Finset

/-- A list with a first maximum that is neither the first nor the last element -/
example : fmax [(1 : ℚ), 3, 2, 3] = some 1 := by decide +kernel

/-- A lopsided peak: the answer lies next to the maximum -/
example : fcentroid [(0 : ℚ), 19 / 2, 10, 9, 0] = some (2 - 1 / 57) := by decide +kernel

/-- Symmetric data meets the hypotheses of `fcentroid_symmetric` -/
example : fcentroid [(1 : ℚ), 4, 5, 4, 1] = some ((2 : Nat) : ℚ) := by
  apply fcentroid_symmetric
  · intro j hj; simp only [List.length_cons, List.length_nil] at hj; interval_cases j <;> simp
  · refine ⟨by simp, ?_, ?_⟩
    · intro j hj; simp only [List.length_cons, List.length_nil] at hj; interval_cases j <;> norm_num
    · intro j hj; interval_cases j <;> norm_num
  · norm_num
  · intro u h1 h2; interval_cases u <;> simp

/-- An image that is lopsided along the rows only -/
def lopsided : Grid ℚ := { ny := 3, nx := 3, v := fun i j => if i = 1 ∧ j = 1 then 10 else if i = 2 then 19 / 2 else 9 }

/-- C49, deviation: `fcentroid` of an image that is lopsided along the rows only moves the maximum
along the columns instead. -/
theorem axes_swapped :
    IsFirstMax2 lopsided (1, 1) ∧ (∀ i < 3, lopsided.v i 0 = lopsided.v i 2) ∧
    squareMean lopsided 1 1 1 = (1 + 3 / 167, 1) ∧ fcentroid2 lopsided = some (1, 1 + 3 / 167) := by
  refine ⟨?_, ?_, ?_, ?_⟩
  · unfold IsFirstMax2; decide +kernel
  · decide +kernel
  · decide +kernel
  · decide +kernel

/-- An image meeting the hypotheses of `fcentroid2_symmetric` -/
example : ∃ g : Grid ℚ, IsFirstMax2 g (1, 2) ∧ fcentroid2 g = some (((1 : Nat) : ℚ), ((2 : Nat) : ℚ)) :=
  ⟨{ ny := 3, nx := 4, v := fun i j => if i = 1 ∧ j = 2 then 10 else if j = 0 then 0 else 19 / 2 }, by unfold IsFirstMax2; decide +kernel, by decide +kernel⟩

end SC.Center
