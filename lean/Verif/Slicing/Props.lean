import Verif.Slicing.Lemmas
import Mathlib.Tactic.NormNum
import Mathlib.Algebra.Order.Ring.Rat
/-! # C04: the slices generated for a shape partition the array -/
namespace SC.Slicing
open SC.Py SC.Numpy SC.Indexing

theorem selects_full (k : Nat) (s s' r r' : List Nat) (is : List Item) (hs : s.length = k)
    (hr : InB r s) : Selects (List.replicate k (Item.slice Slice.full) ++ is) (s ++ s') (r ++ r') =
      Selects is s' r' := by
  induction k generalizing s r with
  | zero =>
    have : s = [] := List.length_eq_zero_iff.mp hs
    subst this
    cases r with
    | nil => rfl
    | cons => simp [InB] at hr
  | succ k ih =>
    cases s with
    | nil => simp at hs
    | cons n s =>
      cases r with
      | nil => simp [InB] at hr
      | cons p r =>
        simp only [InB] at hr
        have := ih s r (by simpa using hs) hr.2
        simp only [List.replicate_succ, List.cons_append, Selects, this, SC.Indexing.selectedPositions,
          full_positions]
        simp [hr.1]

theorem count_product (s r : List Nat) (hr : InB r s) :
    ((product (s.map fun n => (List.range n).map fun (k : Nat) => Item.int k)).countP
      (fun is => Selects is s r)) = 1 := by
  induction s generalizing r with
  | nil =>
    cases r with
    | nil => rfl
    | cons => simp [InB] at hr
  | cons n s ih =>
    cases r with
    | nil => simp [InB] at hr
    | cons p r =>
      simp only [InB] at hr
      have ih' := ih r hr.2
      simp only [List.map_cons, product, List.flatMap_map, List.countP_flatMap]
      have hsel : ∀ (k : Nat), k < n → (List.countP (fun is => Selects is (n :: s) (p :: r)) ∘ fun (k : Nat) =>
          (product (s.map fun n => (List.range n).map fun (k : Nat) => Item.int k)).map
            (Item.int (k : Int) :: ·)) k = if k = p then 1 else 0 := by
        intro k hk
        simp only [Function.comp, List.countP_map]
        have hpos : SC.Indexing.selectedPositions n (Item.int (k : Int)) = some [k] := by
          simp only [SC.Indexing.selectedPositions, normIdx]
          rw [if_pos (by omega)]
          simp
        by_cases hkp : k = p
        · subst hkp
          rw [if_pos rfl, ← ih']
          apply List.countP_congr
          intro is _
          simp [Selects, hpos]
        · rw [if_neg hkp, List.countP_eq_zero]
          intro is _
          have : ¬ p = k := fun h => hkp h.symm
          simp [Selects, hpos, this]
      exact sum_indicator hsel hr.1

/-- **C04**.  Every element of the array is selected by exactly one of the generated slices. -/
theorem slice_generator_partition (shape : List Nat) (nbytes : Nat) (mb : Rat) (hne : shape ≠ [])
    (r : List Nat) (hr : InB r shape) :
    (sliceGenerator shape nbytes mb).countP (fun is => Selects is shape r) = 1 := by
  have hax := findSliceAxis_lt shape nbytes mb hne
  simp only [sliceGenerator]
  generalize findSliceAxis shape nbytes mb = axis at hax
  have hsplit : shape = shape.take (axis + 1) ++ shape.drop (axis + 1) := (List.take_append_drop _ _).symm
  have hl : (shape.take (axis + 1)).length = axis + 1 := by simp; omega
  obtain ⟨r1, r2, rfl, h1, h2⟩ := InB_split (s := shape.take (axis + 1)) (s' := shape.drop (axis + 1))
    (by rw [← hsplit]; exact hr)
  have hc := count_product _ _ h2
  simp only [choices]
  rw [product_replicate, List.countP_map]
  refine Eq.trans (List.countP_congr ?_) hc
  intro is _
  simp only [Function.comp]
  conv => lhs; rw [hsplit]
  rw [selects_full _ _ _ _ _ _ hl h1]

/-- **C04**.  Each generated slice has one entry per dimension. -/
theorem slice_generator_length (shape : List Nat) (nbytes : Nat) (mb : Rat) (hne : shape ≠ [])
    (is : List Item) (h : is ∈ sliceGenerator shape nbytes mb) : is.length = shape.length := by
  have hax := findSliceAxis_lt shape nbytes mb hne
  rw [product_length _ _ h, choices]
  simp; omega

/-- **C04** (partial).  No generated slice exceeds the limit, provided the first dimension by
itself fits in it.  Otherwise the limit is exceeded (`slice_generator_exceeds`). -/
theorem slice_generator_limit_partial (n : Nat) (s : List Nat) (nbytes : Nat) (mb : Rat)
    (hfit : ((n * nbytes : Nat) : Rat) / 1048576 ≤ mb)
    (is : List Item) (h : is ∈ sliceGenerator (n :: s) nbytes mb) :
    ((blockSize is (n :: s) * nbytes : Nat) : Rat) / 1048576 ≤ mb := by
  have hax := findSliceAxis_lt (n :: s) nbytes mb (by simp)
  have hfits := findSliceAxis_fits n s nbytes mb hfit
  have : blockSize is (n :: s) = ((n :: s).take (findSliceAxis (n :: s) nbytes mb + 1)).prod := by
    apply blockSize_eq
    · exact hax
    · exact h
  rw [this]; exact hfits

/-- **C04**.  The first dimensions are taken whole as far as possible: one more would exceed the
limit (no dimension having length zero). -/
theorem slice_generator_maximal (shape : List Nat) (nbytes : Nat) (mb : Rat) (k : Nat)
    (hk : findSliceAxis shape nbytes mb < k) (hk2 : k < shape.length) :
    ¬ (((shape.take (k + 1)).prod * nbytes : Nat) : Rat) / 1048576 ≤ mb :=
  findSliceAxis_max shape nbytes mb k hk hk2

/-- A first dimension that is too large is never divided. -/
theorem slice_generator_exceeds :
    sliceGenerator [4, 2] 524288 1 = [[.slice Slice.full, .int 0], [.slice Slice.full, .int 1]] ∧
    ¬ (((blockSize [.slice Slice.full, .int 0] [4, 2]) * 524288 : Nat) : Rat) / 1048576 ≤ 1 := by
  have hb : blockSize [.slice Slice.full, .int 0] [4, 2] = 4 := by
    simp [blockSize, selectedPositions, full_positions, normIdx]
  have ha : findSliceAxis [4, 2] 524288 1 = 0 := by
    norm_num [findSliceAxis, cumprod, lastTrue]
  refine ⟨?_, ?_⟩
  · rw [sliceGenerator, ha]; rfl
  · rw [hb]; norm_num

example : sliceGenerator [512, 1024, 3] 1 1 =
    [[.slice Slice.full, .slice Slice.full, .int 0], [.slice Slice.full, .slice Slice.full, .int 1],
     [.slice Slice.full, .slice Slice.full, .int 2]] := by
  have ha : findSliceAxis [512, 1024, 3] 1 1 = 1 := by
    norm_num [findSliceAxis, cumprod, lastTrue]
  rw [sliceGenerator, ha]; rfl

/-- A 0-dimensional array is given one index entry too many. -/
theorem slice_generator_0d (nbytes : Nat) (mb : Rat) :
    sliceGenerator [] nbytes mb = [[.slice Slice.full]] := rfl

end SC.Slicing
