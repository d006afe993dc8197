import Verif.AlignSimple.Centroid
/-! # C79: cases -/
namespace SC.AlignSimple
open SC.Align

/-- An image from its rows. -/
def ofRows (rows : List (List Px)) : Img :=
  ⟨rows.length, (rows.headD []).length, fun y x => if y < 0 ∨ x < 0 then none else (rows.getD y.toNat []).getD x.toNat none⟩

/-- A peak at row 1 and column 2. -/
def refImg : Img := ofRows [[some 1, some 2, some 3, some 1], [some 1, some 4, some 9, some 2], [some 1, some 2, some 3, some 1]]
/-- The same one row further and one column back; pixels without data around. -/
def movImg : Img := ofRows [[none, none, none, none], [some 2, some 3, some 1, none], [some 4, some 9, some 2, none]]

example : kernel .nan .max refImg movImg = some (-1, 1) := by decide +kernel
example : kernel (.num 7) .max refImg movImg = some (-1, 1) := by decide +kernel

example : IsMarker .nan .max refImg 1 2 9 := by
  have h : extreme .max refImg = some (1, 2) := by decide +kernel
  obtain ⟨y, x, v, hm, he⟩ := (extreme_iff .max refImg _).1 h
  simp only [Prod.mk.injEq] at he
  have e1 : y = 1 := by
    have : ((1 : Nat) : Rat) = y := by exact_mod_cast he.1
    exact_mod_cast this.symm
  have e2 : x = 2 := by
    have : ((2 : Nat) : Rat) = x := by exact_mod_cast he.2
    exact_mod_cast this.symm
  subst e1; subst e2
  have hv : refImg.get 1 2 = some 9 := by decide +kernel
  have := hm.val.1
  have h9 : refImg.get ((1 : Nat) : Int) ((2 : Nat) : Int) = some 9 := hv
  rw [h9] at this
  simp only [Option.some.injEq] at this
  subst this
  exact hm

/-- Lines of pixels. -/
example : kernel .nan .max (ofRows [[some 1, some 5, some 2]]) (ofRows [[some 1, some 2, some 5]]) = some (1, 0) ∧
    kernel .nan .min (ofRows [[some 1], [some 5]]) (ofRows [[some 7], [some 1]]) = some (0, 1) := by
  constructor <;> decide +kernel

/-- **C79**, not so: with `cval = 0` the minimum is among the missing pixels and the translation is that of the
border. -/
theorem zero_wrong : kernel (.num 0) .min (ofRows [[some 5, some 3, some 4], [some 5, some 5, some 5]])
    (ofRows [[some 0, some 5, some 3], [some 0, some 5, some 5]]) = some (-1, 0) ∧
    kernel .nan .min (ofRows [[some 5, some 3, some 4], [some 5, some 5, some 5]])
      (ofRows [[none, some 5, some 3], [none, some 5, some 5]]) = some (1, 0) := by
  constructor <;> decide +kernel

/-- A flat peak with its weight to the right. -/
def tilted (d : Nat) : Img :=
  ⟨5, 7, fun y x => if y = 2 ∧ x = 3 + d then some 100 else if y = 2 ∧ x = 4 + d then some 99
    else if 1 ≤ y ∧ y ≤ 3 ∧ 2 + d ≤ x ∧ x ≤ 4 + d then some 91 else some 1⟩

/-- **C79**, not so: the centroid takes rows for columns; a peak whose weight is in other columns is found in
another row. -/
theorem centroid_swapped : ∃ cx cy : Rat, getxy .nan .centroid (tilted 0) = some (cx, cy) ∧ cx = 3 ∧ 2 < cy := by
  refine ⟨3, 2 + 8 / 852, ?_, rfl, by decide +kernel⟩
  decide +kernel

/-- The hypotheses of `kernel_centroid`. -/
example : kernel .nan .centroid (tilted 0) (tilted 1) = some (((4 : Nat) : Rat) - ((3 : Nat) : Rat), ((2 : Nat) : Rat) - ((2 : Nat) : Rat)) := by
  apply kernel_centroid (tilted 0) (tilted 1) (2, 3) (2, 4) 2
  · decide
  · decide
  · unfold SC.Center.IsFirstMax2; decide +kernel
  · unfold SC.Center.IsFirstMax2; decide +kernel
  · refine ⟨by decide, by decide +kernel, by decide +kernel⟩
  · decide
  · decide +kernel

end SC.AlignSimple
