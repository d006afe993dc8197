import Verif.Resample.Spec
import Mathlib.Tactic.Linarith
import Mathlib.Tactic.FieldSimp
import Mathlib.Tactic.Ring
/-! # The grid on which signals are resampled -/
namespace SC.Resample

open SC.Axis

theorem foldl_min_spec (l : List ℚ) (x : ℚ) : (l.foldl min x = x ∨ l.foldl min x ∈ l) ∧ l.foldl min x ≤ x ∧ ∀ y ∈ l, l.foldl min x ≤ y := by
  induction l generalizing x with
  | nil => simp
  | cons z l ih =>
    simp only [List.foldl_cons]
    obtain ⟨h1, h2, h3⟩ := ih (min x z)
    refine ⟨?_, h2.trans (min_le_left _ _), ?_⟩
    · rcases h1 with h1 | h1
      · rcases min_choice x z with h | h
        · left; rw [h1, h]
        · right; rw [h1, h]; simp
      · right; simp [h1]
    · intro y hy
      rcases List.mem_cons.1 hy with rfl | hy
      · exact h2.trans (min_le_right _ _)
      · exact h3 y hy

theorem foldl_max_spec (l : List ℚ) (x : ℚ) : (l.foldl max x = x ∨ l.foldl max x ∈ l) ∧ x ≤ l.foldl max x ∧ ∀ y ∈ l, y ≤ l.foldl max x := by
  induction l generalizing x with
  | nil => simp
  | cons z l ih =>
    simp only [List.foldl_cons]
    obtain ⟨h1, h2, h3⟩ := ih (max x z)
    refine ⟨?_, (le_max_left _ _).trans h2, ?_⟩
    · rcases h1 with h1 | h1
      · rcases max_choice x z with h | h
        · left; rw [h1, h]
        · right; rw [h1, h]; simp
      · right; simp [h1]
    · intro y hy
      rcases List.mem_cons.1 hy with rfl | hy
      · exact (le_max_right _ _).trans h2
      · exact h3 y hy

theorem minOf_iff (l : List ℚ) (a : ℚ) : minOf l = some a ↔ a ∈ l ∧ ∀ x ∈ l, a ≤ x := by
  cases l with
  | nil => simp [minOf]
  | cons x r =>
    obtain ⟨h1, h2, h3⟩ := foldl_min_spec r x
    simp only [minOf, Option.some.injEq]
    have hm : r.foldl min x ∈ x :: r := by rcases h1 with h | h <;> simp [h]
    have hle : ∀ y ∈ x :: r, r.foldl min x ≤ y := by
      intro y hy
      rcases List.mem_cons.1 hy with rfl | hy
      · exact h2
      · exact h3 y hy
    constructor
    · rintro rfl; exact ⟨hm, hle⟩
    · rintro ⟨a1, a2⟩; exact le_antisymm (hle a a1) (a2 _ hm)

theorem maxOf_iff (l : List ℚ) (a : ℚ) : maxOf l = some a ↔ a ∈ l ∧ ∀ x ∈ l, x ≤ a := by
  cases l with
  | nil => simp [maxOf]
  | cons x r =>
    obtain ⟨h1, h2, h3⟩ := foldl_max_spec r x
    simp only [maxOf, Option.some.injEq]
    have hm : r.foldl max x ∈ x :: r := by rcases h1 with h | h <;> simp [h]
    have hle : ∀ y ∈ x :: r, y ≤ r.foldl max x := by
      intro y hy
      rcases List.mem_cons.1 hy with rfl | hy
      · exact h2
      · exact h3 y hy
    constructor
    · rintro rfl; exact ⟨hm, hle⟩
    · rintro ⟨a1, a2⟩; exact le_antisymm (a2 _ hm) (hle a a1)

theorem after_pos {h : ℚ} (hh : 0 < h) (x y : ℚ) : After h x y ↔ y ≤ x := by
  unfold After
  rw [← sub_nonneg (a := x)]
  exact ⟨fun h0 => by have := mul_nonneg h0 hh.le; rwa [div_mul_cancel₀ _ hh.ne'] at this, fun h0 => div_nonneg h0 hh.le⟩

theorem after_neg {h : ℚ} (hh : h < 0) (x y : ℚ) : After h x y ↔ x ≤ y := by
  rw [← after_pos (neg_pos.2 hh)]
  unfold After
  rw [show (x - y) / h = (y - x) / (-h) by rw [div_neg, ← neg_div, neg_sub]]

/-- The measured limits are those of the specification, for both directions. -/
theorem measured_spec (crop : Bool) (s h : ℚ) (n : Nat) (hn : 0 < n) (hh : h ≠ 0) (first last : List ℚ) (a b : ℚ) :
    (measured crop (decide (s < s + n * h)) false first = some a ∧ measured crop (decide (s < s + n * h)) true last = some b) ↔
      Limits crop h first last a b := by
  have hnq : (0 : ℚ) < n := by exact_mod_cast hn
  rcases lt_or_gt_of_ne hh with hneg | hpos
  · have hd : decide (s < s + n * h) = false := by
      rw [decide_eq_false_iff_not, not_lt]
      have : (n : ℚ) * h < 0 := mul_neg_of_pos_of_neg hnq hneg
      linarith
    rw [hd]
    cases crop <;> simp [measured, Limits, IsFirst, IsLast, after_neg hneg, minOf_iff, maxOf_iff]
  · have hd : decide (s < s + n * h) = true := by
      rw [decide_eq_true_eq]
      have : 0 < (n : ℚ) * h := mul_pos hnq hpos
      linarith
    rw [hd]
    cases crop <;> simp [measured, Limits, IsFirst, IsLast, after_pos hpos, minOf_iff, maxOf_iff]

theorem prog_map (s h r c : ℚ) (n : Nat) : (prog s h n).map (fun p => p * r + c) = prog (s * r + c) (h * r) n := by
  simp only [prog, List.map_map]
  apply List.map_congr_left; intro i _; simp; ring

/-- **C65.**  The new positions are on the grid of the motor, those of the encoder belong to them, and the grid holds the
measured limits as tightly as the step allows.  The offset puts the middle of the expected positions on the middle of the
measured ones. -/
theorem encoder_spec {pos : Ax} {s h : ℚ} {n : Nat} (hp : pos.values = prog s h n) (hn : 3 ≤ n) (hh : h ≠ 0) (res : ℚ) (hr : res ≠ 0)
    (crop : Bool) (first last : List ℚ) (a b : ℚ) (hl : Limits crop (h * res) first last a b) (hab : After (h * res) b a) :
    ∃ (p' enc : Ax) (m : Nat) (k : Int), encoder pos res none crop first last =
        .ok (p', some enc, (a + b) / 2 - res * (s + ((n : ℚ) - 1) * h / 2)) ∧
      p'.values = prog (s - k * h) h (m + 1) ∧
      enc.values = p'.values.map (fun p => p * res + ((a + b) / 2 - res * (s + ((n : ℚ) - 1) * h / 2))) ∧
      (∀ x0, enc.values.head? = some x0 → 0 ≤ (a - x0) / (h * res) ∧ (a - x0) / (h * res) < 1) ∧
      ∀ x1, enc.values.getLast? = some x1 → 0 ≤ (x1 - b) / (h * res) ∧ (x1 - b) / (h * res) < 1 := by
  obtain ⟨N, rfl⟩ : ∃ N, n = N + 2 := ⟨n - 2, by omega⟩
  have hhr : h * res ≠ 0 := mul_ne_zero hh hr
  obtain ⟨enc, he, hprog⟩ := simplify_prog (s * res + 0) (h * res) N
  have e1 : simplify 0 (pos.values.map fun p => p * res + (none : Option ℚ).getD 0) = some enc := by
    rw [hp]; show simplify 0 ((prog s h (N + 2)).map fun p => p * res + 0) = _
    rw [prog_map]; exact he
  have hstop : enc.stop = some (s * res + 0 + ((N + 1 : Nat) : ℚ) * (h * res)) := hprog.stop
  obtain ⟨m1, m2⟩ := (measured_spec crop (s * res + 0) (h * res) (N + 1) (by omega) hhr first last a b).2 hl
  obtain ⟨off, hoff⟩ : ∃ off, off = (a + b) / 2 - (s * res + 0 + (s * res + 0 + ((N + 1 : Nat) : ℚ) * (h * res))) / 2 := ⟨_, rfl⟩
  have hoff' : (a + b) / 2 - res * (s + (((N + 2 : Nat) : ℚ) - 1) * h / 2) = off := by
    rw [hoff]; push_cast; ring
  have hmid : s * res + 0 + off = (a + b) / 2 - ((N : ℚ) + 1) / 2 * (h * res) := by
    rw [hoff]; push_cast; ring
  obtain ⟨enc', he', hprog'⟩ := simplify_prog (s * res + 0 + off) (h * res) N
  have e2 : simplify 0 (enc.values.map (· + off)) = some enc' := by
    rw [hprog.values]
    have := prog_map (s * res + 0) (h * res) 1 off (N + 2)
    simp only [mul_one] at this
    rw [this]; exact he'
  have hvs : (a - (s * res + 0 + off)) / (h * res) ≤ ((N + 2 : Nat) : ℚ) - 2 := by
    have hba : 0 ≤ (b - a) / (h * res) := hab
    have : (a - (s * res + 0 + off)) / (h * res) = ((N : ℚ) + 1) / 2 - (b - a) / (h * res) / 2 := by
      rw [hmid]; field_simp; ring
    rw [this]
    have hN : (1 : ℚ) ≤ N := by
      have : 1 ≤ N := by omega
      exact_mod_cast this
    push_cast
    linarith
  obtain ⟨enc2, s', m, k, n1, n2, n3, n4, n5, n6, n7⟩ := newlimits_spec hprog' (by omega) hhr a b hab hvs
  have hvals : enc2.values.map (fun x => (x - off) / res) = prog (s - k * h) h (m + 1) := by
    rw [n2, n3]
    simp only [prog, List.map_map]
    apply List.map_congr_left
    intro i _
    simp only [Function.comp]
    field_simp
    ring
  obtain ⟨p', hp', hpv⟩ := simplify_exact (enc2.values.map fun x => (x - off) / res) (by
    rw [hvals]; simp [prog])
  have hencv : enc2.values = p'.values.map fun p => p * res + off := by
    rw [hpv, List.map_map]
    conv_lhs => rw [← List.map_id enc2.values]
    apply List.map_congr_left
    intro x _
    simp only [Function.comp, id]
    field_simp
    ring
  refine ⟨p', enc2, m, k, ?_, by rw [hpv, hvals], by rw [hoff']; exact hencv, ?_, ?_⟩
  · unfold encoder
    rw [e1]
    simp only [hprog.start, hstop, m1, m2, Option.getD_none, Option.isNone_none, if_true, Option.isSome_none, hoff']
    rw [← hoff, e2]
    simp only [n1, hp']
    simp
  · intro x0 hx0
    rw [n2, prog_tail, List.head?_cons, Option.some.injEq] at hx0
    subst hx0
    exact ⟨n4, n5⟩
  · intro x1 hx1
    have : enc2.values.getLast? = some (s' + m * (h * res)) := by
      rw [n2]; simp [prog, List.range_succ]
    rw [this, Option.some.injEq] at hx1
    subst hx1
    exact ⟨n6, n7⟩

theorem after_trans {h x y z : ℚ} (h1 : After h x y) (h2 : After h y z) : After h x z := by
  unfold After at *
  have : (x - z) / h = (x - y) / h + (y - z) / h := by rw [← add_div]; congr 1; ring
  rw [this]; exact add_nonneg h1 h2

/-- **C65.**  Without cropping every measured first and last position is inside of the grid. -/
theorem grid_covers {pos : Ax} {s h : ℚ} {n : Nat} (hp : pos.values = prog s h n) (hn : 3 ≤ n) (hh : h ≠ 0) (res : ℚ) (hr : res ≠ 0)
    (first last : List ℚ) (a b : ℚ) (hl : Limits false (h * res) first last a b) (hab : After (h * res) b a) :
    ∃ (p' enc : Ax) (off x0 x1 : ℚ), encoder pos res none false first last = .ok (p', some enc, off) ∧
      enc.values.head? = some x0 ∧ enc.values.getLast? = some x1 ∧ (∀ x ∈ first, After (h * res) x x0) ∧ ∀ x ∈ last, After (h * res) x1 x := by
  obtain ⟨p', enc, m, k, e1, e2, e3, e4, e5⟩ := encoder_spec hp hn hh res hr false first last a b hl hab
  have hne : enc.values ≠ [] := by rw [e3, e2]; simp [prog]
  obtain ⟨x0, hx0⟩ := Option.ne_none_iff_exists'.1 (mt List.head?_eq_none_iff.1 hne)
  obtain ⟨x1, hx1⟩ := Option.ne_none_iff_exists'.1 (mt List.getLast?_eq_none_iff.1 hne)
  have hl' : IsFirst (h * res) first a ∧ IsLast (h * res) last b := hl
  refine ⟨p', enc, _, x0, x1, e1, hx0, hx1, fun x hx => ?_, fun x hx => ?_⟩
  · exact after_trans (hl'.1.2 x hx) (e4 x0 hx0).1
  · exact after_trans (e5 x1 hx1).1 (hl'.2.2 x hx)

/-- **C65.**  When cropping, all points of the grid except for the first and the last are inside of all lines. -/
theorem crop_inside {pos : Ax} {s h : ℚ} {n : Nat} (hp : pos.values = prog s h n) (hn : 3 ≤ n) (hh : h ≠ 0) (res : ℚ) (hr : res ≠ 0)
    (first last : List ℚ) (a b : ℚ) (hl : Limits true (h * res) first last a b) (hab : After (h * res) b a) :
    ∃ (p' enc : Ax) (off : ℚ), encoder pos res none true first last = .ok (p', some enc, off) ∧
      ∀ (j : Nat) (x : ℚ), 0 < j → j + 1 < enc.values.length → enc.values[j]? = some x →
        (∀ y ∈ first, After (h * res) x y) ∧ ∀ y ∈ last, After (h * res) y x := by
  obtain ⟨p', enc, m, k, e1, e2, e3, e4, e5⟩ := encoder_spec hp hn hh res hr true first last a b hl hab
  have hhr : h * res ≠ 0 := mul_ne_zero hh hr
  obtain ⟨off, hoff⟩ : ∃ off, off = (a + b) / 2 - res * (s + ((n : ℚ) - 1) * h / 2) := ⟨_, rfl⟩
  rw [← hoff] at e1 e3
  have hv : enc.values = prog ((s - k * h) * res + off) (h * res) (m + 1) := by rw [e3, e2, prog_map]
  refine ⟨p', enc, off, e1, fun j x hj hj' hx => ?_⟩
  have hl' : IsLast (h * res) first a ∧ IsFirst (h * res) last b := hl
  rw [hv, prog_length] at hj'
  have hxe : x = (s - k * h) * res + off + j * (h * res) := by
    rw [hv] at hx
    simp only [prog, List.getElem?_map, List.getElem?_range (by omega : j < m + 1), Option.map_some, Option.some.injEq] at hx
    exact hx.symm
  have h0 := (e4 ((s - k * h) * res + off) (by rw [hv, prog_tail]; rfl)).2
  have h1 := (e5 ((s - k * h) * res + off + m * (h * res)) (by rw [hv]; simp [prog, List.range_succ])).2
  refine ⟨fun y hy => after_trans (y := a) ?_ (hl'.1.2 y hy), fun y hy => after_trans (hl'.2.2 y hy) ?_⟩
  · unfold After
    have : (x - a) / (h * res) = j - (a - ((s - k * h) * res + off)) / (h * res) := by
      rw [hxe]; field_simp; ring
    rw [this]
    have : (1 : ℚ) ≤ j := by exact_mod_cast hj
    linarith
  · unfold After
    have : (b - x) / (h * res) = (m - j) - ((s - k * h) * res + off + m * (h * res) - b) / (h * res) := by
      rw [hxe]; field_simp; ring
    rw [this]
    have : (j : ℚ) + 1 ≤ m := by
      have : j + 1 ≤ m := by omega
      exact_mod_cast this
    linarith

/-- Cropping keeps the first point, 0, though no line begins before 1/4. -/
theorem crop_outside : (encoder (.plain [0, 1, 2, 3]) 1 none true [1/4, 1/8] [11/4, 23/8]).toOption.map
    (fun r => (r.1.values, r.2.1.map Ax.values, r.2.2)) = some ([0, 1, 2, 3], some [0, 1, 2, 3], 0) := by decide +kernel

/-- With an offset that is given there is never an encoder: the result is an exception or the axis as it was. -/
theorem offset_given (pos : Ax) (res o : ℚ) (crop : Bool) (first last : List ℚ) (p' enc : Ax) (off : ℚ) :
    encoder pos res (some o) crop first last ≠ .ok (p', some enc, off) := by
  intro h
  unfold encoder at h
  simp only [Option.isSome_some, if_true] at h
  repeat' split at h
  all_goals cases h

/-- The exception. -/
def errOf {α : Type} : Except Err α → Option Err
  | .error e => some e
  | .ok _ => none

/-- An offset that is given and right raises. -/
theorem offset_raises : errOf (encoder (.plain [0, 1, 2, 3]) 1 (some 5) false [5] [8]) = some .attributeError := by decide +kernel

/-- Without offset the same measurement finds it. -/
example : (encoder (.plain [0, 1, 2, 3]) 1 none false [5] [8]).toOption.map (fun r => (r.1.values, r.2.1.map Ax.values, r.2.2)) =
    some ([0, 1, 2, 3], some [5, 6, 7, 8], 5) := by decide +kernel

example : Limits false (1 * 1) [5, 4] [8, 9] 4 9 := by
  simp [Limits, IsFirst, IsLast, After]; norm_num

end SC.Resample
