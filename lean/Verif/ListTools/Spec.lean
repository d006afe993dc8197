import Mathlib.Algebra.BigOperators.Group.List.Basic
/-! Specification vocabulary for the list tools, independent of the model. -/
namespace SC.ListTools

/-- Specification: the total of the values stored under `k`. -/
def total {κ β : Type} [DecidableEq κ] [AddCommMonoid β] (k : κ) (l : List (κ × β)) : β :=
  ((l.filter (fun p => decide (p.1 = k))).map (·.2)).sum

/-- Specification: the distinct keys in order of first occurrence. -/
def firstKeys {κ : Type} [DecidableEq κ] (l : List κ) : List κ :=
  (List.range l.length).filterMap fun i =>
    if ∀ j < i, l[j]? ≠ l[i]? then l[i]? else none

/-- Specification with positions: keep entry `i` iff its key is not in `seen` and differs from
the key of every earlier entry. -/
def keepFirst {α κ : Type} [DecidableEq κ] (key : α → κ) (seen : List κ) (l : List α) : List α :=
  (List.range l.length).filterMap fun i =>
    if (∀ j < i, (l[j]?).map key ≠ (l[i]?).map key) ∧ (∀ k ∈ seen, some k ≠ (l[i]?).map key) then l[i]?
    else none

end SC.ListTools
