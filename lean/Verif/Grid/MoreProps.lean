import Verif.Grid.GridProps
/-! # Numbers of axes of a grid -/
namespace SC.Grid

theorem pyInsert_length {β : Type} (l : List β) (i : Int) (x : β) : (pyInsert l i x).length = l.length + 1 := by
  unfold pyInsert
  dsimp only
  generalize (if i < 0 then (max (i + (l.length : Int)) 0).toNat else i.toNat) = k
  by_cases hk : k ≤ l.length
  · rw [if_pos hk, List.length_insertIdx_of_le_length hk]
  · rw [if_neg hk]; simp

/-- **C66.**  A grid has one axis more than each of its groups with axes. -/
theorem grid_ndim {α : Type} (ds : List (NX α)) (cfg sd : Option Int) (g : Grid α) (h : nxGrid ds cfg sd = some g) (d : NX α) (hd : d ∈ ds)
    (hl : d.link = false) (ha : d.axes ≠ []) : g.axes.length = d.axes.length + 1 := by
  obtain ⟨_, _, ⟨axes, h1, _, h3⟩, _⟩ := grid_signals ds cfg sd g h
  rw [h1, pyInsert_length, List.length_map]
  rcases h3 d hd hl ha with h4 | h4
  · unfold axesEq at h4
    simp only [Bool.and_eq_true, decide_eq_true_eq] at h4
    omega
  · rw [h4]

end SC.Grid
