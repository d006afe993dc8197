import Verif.Slicing.Model
import Verif.Slicing.Spec
import Verif.Indexing.MoveLemmas
/-! # Lemmas about the slice generator -/
namespace SC.Slicing
open SC.Py SC.Numpy SC.Indexing

theorem lastTrue_some {bs : List Bool} {k : Nat} (h : lastTrue bs = some k) :
    bs[k]? = some true ∧ ∀ j, k < j → bs[j]? ≠ some true := by
  induction bs generalizing k with
  | nil => simp [lastTrue] at h
  | cons b bs ih =>
    simp only [lastTrue] at h
    cases hl : lastTrue bs with
    | some k' =>
      rw [hl] at h; simp at h; subst h
      obtain ⟨h1, h2⟩ := ih hl
      refine ⟨by simpa using h1, ?_⟩
      intro j hj
      cases j with
      | zero => omega
      | succ j => simpa using h2 j (by omega)
    | none =>
      rw [hl] at h
      have hn : ∀ (l : List Bool), lastTrue l = none → ∀ j : Nat, l[j]? ≠ some true := by
        intro l
        induction l with
        | nil => simp
        | cons c l ih2 =>
          intro h j
          simp only [lastTrue] at h
          cases hl2 : lastTrue l with
          | some _ => rw [hl2] at h; simp at h
          | none =>
            rw [hl2] at h
            cases j with
            | zero => simp at h; simp [h]
            | succ j => simpa using ih2 hl2 j
      cases b with
      | false => simp at h
      | true =>
        simp at h; subst h
        refine ⟨rfl, ?_⟩
        intro j hj
        cases j with
        | zero => omega
        | succ j => simpa using hn _ hl j

theorem lastTrue_none {l : List Bool} (h : lastTrue l = none) (j : Nat) : l[j]? ≠ some true := by
  induction l generalizing j with
  | nil => simp
  | cons c l ih2 =>
    simp only [lastTrue] at h
    cases hl2 : lastTrue l with
    | some _ => rw [hl2] at h; simp at h
    | none =>
      rw [hl2] at h
      cases j with
      | zero => simp at h; simp [h]
      | succ j => simpa using ih2 hl2 j

theorem cumprod_length (acc : Nat) (s : List Nat) : (cumprod acc s).length = s.length := by
  induction s generalizing acc with
  | nil => rfl
  | cons n s ih => simp [cumprod, ih]

theorem cumprod_get (acc : Nat) (s : List Nat) (k : Nat) (hk : k < s.length) :
    (cumprod acc s)[k]? = some (acc * (s.take (k + 1)).prod) := by
  induction s generalizing acc k with
  | nil => simp at hk
  | cons n s ih =>
    cases k with
    | zero => simp [cumprod]
    | succ k =>
      simp only [cumprod, List.getElem?_cons_succ, List.take_succ_cons, List.prod_cons]
      rw [ih _ _ (by simpa using hk), Nat.mul_assoc]

theorem findSliceAxis_lt (shape : List Nat) (nbytes : Nat) (mb : Rat) (hne : shape ≠ []) :
    findSliceAxis shape nbytes mb < shape.length := by
  have hpos : 0 < shape.length := List.length_pos_iff.mpr hne
  simp only [findSliceAxis]
  cases h : lastTrue ((cumprod 1 shape).map fun c => decide (((c * nbytes : Nat) : Rat) / 1048576 ≤ mb)) with
  | none => simpa using hpos
  | some k =>
    have h1 := (lastTrue_some h).1
    have hk := (List.getElem?_eq_some_iff.mp h1).1
    rw [List.length_map, cumprod_length] at hk
    simpa using hk

theorem findSliceAxis_fits (n : Nat) (s : List Nat) (nbytes : Nat) (mb : Rat)
    (hfit : ((n * nbytes : Nat) : Rat) / 1048576 ≤ mb) :
    ((((n :: s).take (findSliceAxis (n :: s) nbytes mb + 1)).prod * nbytes : Nat) : Rat) / 1048576 ≤ mb := by
  have hlt := findSliceAxis_lt (n :: s) nbytes mb (by simp)
  simp only [findSliceAxis] at hlt ⊢
  cases h : lastTrue ((cumprod 1 (n :: s)).map fun c => decide (((c * nbytes : Nat) : Rat) / 1048576 ≤ mb)) with
  | none =>
    simpa using hfit
  | some k =>
    rw [h] at hlt
    have h1 := (lastTrue_some h).1
    rw [List.getElem?_map, cumprod_get _ _ _ (by simpa using hlt)] at h1
    simpa using h1

theorem findSliceAxis_max (shape : List Nat) (nbytes : Nat) (mb : Rat) (k : Nat)
    (hk : findSliceAxis shape nbytes mb < k) (hk2 : k < shape.length) :
    ¬ (((shape.take (k + 1)).prod * nbytes : Nat) : Rat) / 1048576 ≤ mb := by
  simp only [findSliceAxis] at hk
  intro hle
  have hk3 : ((cumprod 1 shape).map fun c => decide (((c * nbytes : Nat) : Rat) / 1048576 ≤ mb))[k]?
      = some true := by
    rw [List.getElem?_map, cumprod_get _ _ _ hk2]
    simpa using hle
  cases h : lastTrue ((cumprod 1 shape).map fun c => decide (((c * nbytes : Nat) : Rat) / 1048576 ≤ mb)) with
  | none => exact lastTrue_none h k hk3
  | some m =>
    rw [h] at hk
    exact (lastTrue_some h).2 k (by simpa using hk) hk3

theorem product_replicate (m : Nat) (x : Item) (cs : List (List Item)) :
    product (List.replicate m [x] ++ cs) = (product cs).map (List.replicate m x ++ ·) := by
  induction m with
  | zero => simp
  | succ m ih => simp [List.replicate_succ, product, ih]

theorem product_mem {α : Type} {cs : List (List α)} {is : List α} (h : is ∈ product cs) :
    List.Forall₂ (fun i c => i ∈ c) is cs := by
  induction cs generalizing is with
  | nil => simp [product] at h; subst h; exact .nil
  | cons c cs ih =>
    simp only [product, List.mem_flatMap, List.mem_map] at h
    obtain ⟨x, hx, t, ht, rfl⟩ := h
    exact .cons hx (ih ht)

theorem product_length {α : Type} (cs : List (List α)) (is : List α) (h : is ∈ product cs) :
    is.length = cs.length := (product_mem h).length_eq

theorem InB_split {s s' r : List Nat} (h : InB r (s ++ s')) :
    ∃ r1 r2, r = r1 ++ r2 ∧ InB r1 s ∧ InB r2 s' := by
  induction s generalizing r with
  | nil => exact ⟨[], r, rfl, trivial, h⟩
  | cons n s ih =>
    cases r with
    | nil => simp [InB] at h
    | cons p r =>
      simp only [List.cons_append, InB] at h
      obtain ⟨r1, r2, rfl, h1, h2⟩ := ih h.2
      exact ⟨p :: r1, r2, rfl, ⟨h.1, h1⟩, h2⟩

theorem sum_indicator {n p : Nat} {f : Nat → Nat} (hf : ∀ k : Nat, k < n → f k = if k = p then 1 else 0)
    (hp : p < n) : ((List.range n).map f).sum = 1 := by
  have : ∀ m, m ≤ n → ((List.range m).map f).sum = if p < m then 1 else 0 := by
    intro m
    induction m with
    | zero => simp
    | succ m ih =>
      intro hm
      rw [List.range_succ, List.map_append, List.sum_append, ih (by omega)]
      simp only [List.map_cons, List.map_nil, List.sum_cons, List.sum_nil, hf m (by omega)]
      (repeat' split) <;> omega
  rw [this n (by omega), if_pos hp]

theorem int_pos {n k : Nat} (hk : k < n) : selectedPositions n (Item.int (k : Int)) = some [k] := by
  simp only [selectedPositions, normIdx]
  rw [if_pos (by omega)]
  simp

theorem blockSize_ints (s : List Nat) (is : List Item)
    (h : is ∈ product (s.map fun n => (List.range n).map fun (k : Nat) => Item.int k)) :
    blockSize is s = 1 := by
  induction s generalizing is with
  | nil => simp [product] at h; subst h; rfl
  | cons n s ih =>
    simp only [List.map_cons, product, List.mem_flatMap, List.mem_map] at h
    obtain ⟨x, ⟨k, hk, rfl⟩, t, ht, rfl⟩ := h
    rw [List.mem_range] at hk
    simp [blockSize, int_pos hk, ih _ ht]

theorem blockSize_full (k : Nat) (s s' : List Nat) (is : List Item) (hs : s.length = k) :
    blockSize (List.replicate k (Item.slice Slice.full) ++ is) (s ++ s') = s.prod * blockSize is s' := by
  induction k generalizing s with
  | zero =>
    have : s = [] := List.length_eq_zero_iff.mp hs
    subst this; simp
  | succ k ih =>
    cases s with
    | nil => simp at hs
    | cons n s =>
      simp only [List.replicate_succ, List.cons_append, blockSize, ih s (by simpa using hs),
        selectedPositions, full_positions, Option.elim_some, List.length_range, List.prod_cons, Nat.mul_assoc]

theorem blockSize_eq {shape : List Nat} {axis : Nat} (hax : axis < shape.length) {is : List Item}
    (h : is ∈ product (choices shape axis)) : blockSize is shape = (shape.take (axis + 1)).prod := by
  rw [choices, product_replicate, List.mem_map] at h
  obtain ⟨t, ht, rfl⟩ := h
  have hl : (shape.take (axis + 1)).length = axis + 1 := by simp; omega
  conv => lhs; rw [← List.take_append_drop (axis + 1) shape]
  rw [blockSize_full _ _ _ _ hl, blockSize_ints _ _ ht, Nat.mul_one]

end SC.Slicing
