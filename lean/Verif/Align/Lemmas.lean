import Verif.Align.Spec
import Mathlib.Tactic.Linarith
import Mathlib.Tactic.Ring
import Mathlib.Tactic.NormNum
import Mathlib.Tactic.ByContra
/-! # Lemmas for alignment -/
namespace SC.Align
open SC.Py

/-! ## slices -/

theorem sl_eq {n : Nat} {a b : Int} (h0 : 0 ≤ a) (h1 : a ≤ b) (h2 : b ≤ n) : sl n a b = (a, (b - a).toNat) := by
  have e1 : clampBound n 0 n a = a := by
    simp only [clampBound]; repeat' split
    all_goals omega
  have e2 : clampBound n 0 n b = b := by
    simp only [clampBound]; repeat' split
    all_goals omega
  simp only [sl, e1, e2]

/-! ## states -/

/-- The flags follow the extension and something is left. -/
def Extended (s : St) : Prop :=
  s.pad = (decide (0 < s.e1.1) || decide (0 < s.e1.2) || decide (0 < s.e2.1) || decide (0 < s.e2.2)) ∧
  s.crop = (decide (s.e1.1 < 0) || decide (s.e1.2 < 0) || decide (s.e2.1 < 0) || decide (s.e2.2 < 0)) ∧
  1 ≤ (s.imgsize.1 : Int) + s.e1.1 + s.e1.2 ∧ 1 ≤ (s.imgsize.2 : Int) + s.e2.1 + s.e2.2

/-- A consistent state. -/
def Cons (s : St) : Prop := (s.pad = false ∧ s.crop = false) ∨ Extended s

theorem padOf_eq (e : Int × Int) : ((padOf e).1 : Int) = max e.1 0 ∧ ((padOf e).2 : Int) = max e.2 0 := by
  simp only [padOf]; omega

/-- The padded image. -/
theorem pad_spec (cval : Px) (s : St) (hs : Extended s) (img : Img) :
    let p := if s.pad then pad cval s img else img
    (p.h : Int) = max s.e1.1 0 + img.h + max s.e1.2 0 ∧
    (p.w : Int) = max s.e2.1 0 + img.w + max s.e2.2 0 ∧
    ∀ y x : Int, 0 ≤ y → y < p.h → 0 ≤ x → x < p.w →
      p.get y x = rawPixel cval img (y - max s.e1.1 0) (x - max s.e2.1 0) := by
  obtain ⟨hp, -, -, -⟩ := hs
  have a1 := padOf_eq s.e1
  have a2 := padOf_eq s.e2
  by_cases hz : (padOf s.e1).1 = 0 ∧ (padOf s.e1).2 = 0 ∧ (padOf s.e2).1 = 0 ∧ (padOf s.e2).2 = 0
  · have hpp : pad cval s img = img := by simp only [pad, hz, and_self, if_true]
    have hpi : (if s.pad then pad cval s img else img) = img := by rw [hpp, ite_self]
    rw [hpi]
    refine ⟨by omega, by omega, fun y x h1 h2 h3 h4 => ?_⟩
    have m1 : max s.e1.1 0 = 0 := by omega
    have m2 : max s.e2.1 0 = 0 := by omega
    rw [m1, m2, sub_zero, sub_zero, rawPixel, if_pos ⟨h1, h2, h3, h4⟩]
  · have hpt : s.pad = true := by
      rw [hp]
      simp only [Bool.or_eq_true, decide_eq_true_eq]
      omega
    simp only [hpt, if_true, pad, hz, if_false]
    refine ⟨by push_cast; omega, by push_cast; omega, fun y x h1 h2 h3 h4 => ?_⟩
    rw [a1.1, a2.1]
    simp only [rawPixel]
    by_cases hc : max s.e1.1 0 ≤ y ∧ y < max s.e1.1 0 + img.h ∧ max s.e2.1 0 ≤ x ∧ x < max s.e2.1 0 + img.w
    · rw [if_pos hc, if_pos (by omega)]
    · rw [if_neg hc, if_neg (by omega)]

/-- The cropped image. -/
theorem crop_spec (s : St) (hs : Extended s) (img : Img)
    (h1 : (img.h : Int) = max s.e1.1 0 + s.imgsize.1 + max s.e1.2 0)
    (h2 : (img.w : Int) = max s.e2.1 0 + s.imgsize.2 + max s.e2.2 0) :
    let c := if s.crop then crop s img else img
    (c.h : Int) = s.imgsize.1 + s.e1.1 + s.e1.2 ∧ (c.w : Int) = s.imgsize.2 + s.e2.1 + s.e2.2 ∧
    ∀ y x : Int, c.get y x = img.get (y + max (-s.e1.1) 0) (x + max (-s.e2.1) 0) := by
  obtain ⟨-, hc, g1, g2⟩ := hs
  by_cases hz : s.crop = true
  · simp only [hz, if_true, crop]
    have q1 : cropOf s.e1 img.h = (max (-s.e1.1) 0, (img.h : Int) - max (-s.e1.2) 0) := rfl
    have q2 : cropOf s.e2 img.w = (max (-s.e2.1) 0, (img.w : Int) - max (-s.e2.2) 0) := rfl
    by_cases hcond : (cropOf s.e1 img.h).1 ≠ 0 ∨ (cropOf s.e2 img.w).1 ≠ 0 ∨
        (cropOf s.e1 img.h).2 ≠ img.h ∨ (cropOf s.e2 img.w).2 ≠ img.w
    · rw [if_pos hcond, q1, q2]
      have e1 := sl_eq (n := img.h) (a := max (-s.e1.1) 0) (b := (img.h : Int) - max (-s.e1.2) 0)
        (by omega) (by omega) (by omega)
      have e2 := sl_eq (n := img.w) (a := max (-s.e2.1) 0) (b := (img.w : Int) - max (-s.e2.2) 0)
        (by omega) (by omega) (by omega)
      rw [e1, e2]
      refine ⟨?_, ?_, fun y x => rfl⟩ <;> simp only [] <;> omega
    · rw [if_neg hcond]
      rw [q1, q2] at hcond
      simp only [] at hcond
      refine ⟨by omega, by omega, fun y x => ?_⟩
      have m1 : max (-s.e1.1) 0 = 0 := by omega
      have m2 : max (-s.e2.1) 0 = 0 := by omega
      rw [m1, m2, add_zero, add_zero]
  · have hcf : s.crop = false := by simpa using hz
    rw [hcf] at hc
    have hc := hc.symm
    simp only [Bool.or_eq_false_iff, decide_eq_false_iff_not, not_lt] at hc
    simp only [hcf, Bool.false_eq_true, if_false]
    refine ⟨by omega, by omega, fun y x => ?_⟩
    have m1 : max (-s.e1.1) 0 = 0 := by omega
    have m2 : max (-s.e2.1) 0 = 0 := by omega
    rw [m1, m2, add_zero, add_zero]

theorem newFrame_eq (a c : Tr) : newFrame a c = a := by
  simp only [newFrame]
  ext <;> simp

theorem rawFrame_eq (c : Tr) (ts : List Tr) : rawFrame c ts = ts := by
  simp only [rawFrame, newFrame_eq, ite_self, List.map_id']

theorem executeTransform_size (interp : Img → Rat → Rat → Px) (cval : Px) (c t : Tr) (img : Img) :
    (executeTransform interp cval c t img).h = img.h ∧ (executeTransform interp cval c t img).w = img.w := by
  simp only [executeTransform, newFrame_eq, ite_self]
  split <;> exact ⟨rfl, rfl⟩

theorem isInt_int (n : Int) : isInt (n : Rat) = true := by simp [isInt]

/-- An integer translation moves pixels. -/
theorem executeTransform_int (interp : Img → Rat → Rat → Px) (cval : Px) (c t : Tr) (img : Img)
    (n : Int × Int) (ht : IntTr t n) (y x : Int) (hy : 0 ≤ y ∧ y < img.h) (hx : 0 ≤ x ∧ x < img.w) :
    (executeTransform interp cval c t img).get y x = rawPixel cval img (y + n.2) (x + n.1) := by
  obtain ⟨h1, h2⟩ := ht
  simp only [executeTransform, newFrame_eq, ite_self]
  split
  · rename_i h0
    have e1 : n.1 = 0 := by
      have : (n.1 : Rat) = 0 := by rw [← h1, h0]
      exact_mod_cast this
    have e2 : n.2 = 0 := by
      have : (n.2 : Rat) = 0 := by rw [← h2, h0]
      exact_mod_cast this
    rw [e1, e2, add_zero, add_zero, rawPixel, if_pos ⟨hy.1, hy.2, hx.1, hx.2⟩]
  · simp only [shift, h1, h2, sub_neg_eq_add]
    have ey : ((y : Rat) + (n.2 : Rat)) = ((y + n.2 : Int) : Rat) := by push_cast; rfl
    have ex : ((x : Rat) + (n.1 : Rat)) = ((x + n.1 : Int) : Rat) := by push_cast; rfl
    rw [ey, ex, isInt_int, isInt_int]
    have eh : ((img.h : Rat) - 1) = ((img.h - 1 : Int) : Rat) := by push_cast; rfl
    have ew : ((img.w : Rat) - 1) = ((img.w - 1 : Int) : Rat) := by push_cast; rfl
    rw [eh, ew]
    simp only [Rat.intCast_lt_intCast, rawPixel, Bool.and_self, if_true, Rat.floor_intCast]
    have z : ∀ k : Int, ((k : Rat) < 0 ↔ k < 0) := fun k => by exact_mod_cast Iff.rfl
    simp only [z]
    by_cases hc : 0 ≤ y + n.2 ∧ y + n.2 < img.h ∧ 0 ≤ x + n.1 ∧ x + n.1 < img.w
    · rw [if_pos hc, if_neg (by omega)]
    · rw [if_neg hc, if_pos (by omega)]

/-! ## bounds -/

theorem fold_union (f : Tr → Rat × Rat) (a : Rat × Rat) (ts : List Tr) :
    let r := ts.foldl (fun b t => unionB b (f t)) a
    (r.1 ≤ a.1 ∧ a.2 ≤ r.2 ∧ ∀ t ∈ ts, r.1 ≤ (f t).1 ∧ (f t).2 ≤ r.2) ∧
    (r.1 = a.1 ∨ ∃ t ∈ ts, r.1 = (f t).1) ∧ (r.2 = a.2 ∨ ∃ t ∈ ts, r.2 = (f t).2) := by
  induction ts generalizing a with
  | nil => simp
  | cons t ts ih =>
    obtain ⟨⟨h1, h2, h3⟩, h4, h5⟩ := ih (unionB a (f t))
    simp only [List.foldl_cons]
    have u1 : (unionB a (f t)).1 = min a.1 (f t).1 := rfl
    have u2 : (unionB a (f t)).2 = max a.2 (f t).2 := rfl
    generalize unionB a (f t) = a' at h1 h2 h3 h4 h5 u1 u2 ⊢
    rw [u1] at h1 h4
    rw [u2] at h2 h5
    refine ⟨⟨le_trans h1 (min_le_left _ _), le_trans (le_max_left _ _) h2, ?_⟩, ?_, ?_⟩
    · intro u hu
      rcases List.mem_cons.1 hu with rfl | hu
      · exact ⟨le_trans h1 (min_le_right _ _), le_trans (le_max_right _ _) h2⟩
      · exact h3 u hu
    · rcases h4 with h4 | ⟨u, hu, h4⟩
      · rcases min_choice a.1 (f t).1 with hm | hm
        · left; rw [h4, hm]
        · right; exact ⟨t, List.mem_cons_self, by rw [h4, hm]⟩
      · right; exact ⟨u, List.mem_cons_of_mem _ hu, h4⟩
    · rcases h5 with h5 | ⟨u, hu, h5⟩
      · rcases max_choice a.2 (f t).2 with hm | hm
        · left; rw [h5, hm]
        · right; exact ⟨t, List.mem_cons_self, by rw [h5, hm]⟩
      · right; exact ⟨u, List.mem_cons_of_mem _ hu, h5⟩

theorem fold_inter (f : Tr → Rat × Rat) (a : Rat × Rat) (ts : List Tr) :
    let r := ts.foldl (fun b t => interB b (f t)) a
    (a.1 ≤ r.1 ∧ r.2 ≤ a.2 ∧ ∀ t ∈ ts, (f t).1 ≤ r.1 ∧ r.2 ≤ (f t).2) ∧
    (r.1 = a.1 ∨ ∃ t ∈ ts, r.1 = (f t).1) ∧ (r.2 = a.2 ∨ ∃ t ∈ ts, r.2 = (f t).2) := by
  induction ts generalizing a with
  | nil => simp
  | cons t ts ih =>
    obtain ⟨⟨h1, h2, h3⟩, h4, h5⟩ := ih (interB a (f t))
    simp only [List.foldl_cons]
    have u1 : (interB a (f t)).1 = max a.1 (f t).1 := rfl
    have u2 : (interB a (f t)).2 = min a.2 (f t).2 := rfl
    generalize interB a (f t) = a' at h1 h2 h3 h4 h5 u1 u2 ⊢
    rw [u1] at h1 h4
    rw [u2] at h2 h5
    refine ⟨⟨le_trans (le_max_left _ _) h1, le_trans h2 (min_le_left _ _), ?_⟩, ?_, ?_⟩
    · intro u hu
      rcases List.mem_cons.1 hu with rfl | hu
      · exact ⟨le_trans (le_max_right _ _) h1, le_trans h2 (min_le_right _ _)⟩
      · exact h3 u hu
    · rcases h4 with h4 | ⟨u, hu, h4⟩
      · rcases max_choice a.1 (f t).1 with hm | hm
        · left; rw [h4, hm]
        · right; exact ⟨t, List.mem_cons_self, by rw [h4, hm]⟩
      · right; exact ⟨u, List.mem_cons_of_mem _ hu, h4⟩
    · rcases h5 with h5 | ⟨u, hu, h5⟩
      · rcases min_choice a.2 (f t).2 with hm | hm
        · left; rw [h5, hm]
        · right; exact ⟨t, List.mem_cons_self, by rw [h5, hm]⟩
      · right; exact ⟨u, List.mem_cons_of_mem _ hu, h5⟩

/-- The bounds of the union. -/
theorem rawBounds_union (size : Nat × Nat) (t : Tr) (ts : List Tr) :
    let b := rawBounds size true t ts
    (∀ u ∈ t :: ts, b.1.1 ≤ -u.1 ∧ (size.2 : Rat) - 1 - u.1 ≤ b.1.2 ∧
      b.2.1 ≤ -u.2 ∧ (size.1 : Rat) - 1 - u.2 ≤ b.2.2) ∧
    (∃ u ∈ t :: ts, b.1.1 = -u.1) ∧ (∃ u ∈ t :: ts, b.1.2 = (size.2 : Rat) - 1 - u.1) ∧
    (∃ u ∈ t :: ts, b.2.1 = -u.2) ∧ (∃ u ∈ t :: ts, b.2.2 = (size.1 : Rat) - 1 - u.2) := by
  simp only [rawBounds, if_true]
  obtain ⟨⟨a1, a2, a3⟩, a4, a5⟩ := fold_union (fun u => span size.2 u.1) (span size.2 t.1) ts
  obtain ⟨⟨b1, b2, b3⟩, b4, b5⟩ := fold_union (fun u => span size.1 u.2) (span size.1 t.2) ts
  simp only [span, zero_add] at *
  refine ⟨?_, ?_, ?_, ?_, ?_⟩
  · intro u hu
    rcases List.mem_cons.1 hu with rfl | hu
    · exact ⟨a1, by linarith, b1, by linarith⟩
    · have := a3 u hu; have := b3 u hu
      exact ⟨by linarith, by linarith, by linarith, by linarith⟩
  · rcases a4 with h | ⟨u, hu, h⟩
    · exact ⟨t, List.mem_cons_self, h⟩
    · exact ⟨u, List.mem_cons_of_mem _ hu, h⟩
  · rcases a5 with h | ⟨u, hu, h⟩
    · exact ⟨t, List.mem_cons_self, by rw [h]; ring⟩
    · exact ⟨u, List.mem_cons_of_mem _ hu, by rw [h]; ring⟩
  · rcases b4 with h | ⟨u, hu, h⟩
    · exact ⟨t, List.mem_cons_self, h⟩
    · exact ⟨u, List.mem_cons_of_mem _ hu, h⟩
  · rcases b5 with h | ⟨u, hu, h⟩
    · exact ⟨t, List.mem_cons_self, by rw [h]; ring⟩
    · exact ⟨u, List.mem_cons_of_mem _ hu, by rw [h]; ring⟩

/-- The bounds of the intersection. -/
theorem rawBounds_inter (size : Nat × Nat) (t : Tr) (ts : List Tr) :
    let b := rawBounds size false t ts
    (∀ u ∈ t :: ts, -u.1 ≤ b.1.1 ∧ b.1.2 ≤ (size.2 : Rat) - 1 - u.1 ∧
      -u.2 ≤ b.2.1 ∧ b.2.2 ≤ (size.1 : Rat) - 1 - u.2) ∧
    (∃ u ∈ t :: ts, b.1.1 = -u.1) ∧ (∃ u ∈ t :: ts, b.1.2 = (size.2 : Rat) - 1 - u.1) ∧
    (∃ u ∈ t :: ts, b.2.1 = -u.2) ∧ (∃ u ∈ t :: ts, b.2.2 = (size.1 : Rat) - 1 - u.2) := by
  simp only [rawBounds, Bool.false_eq_true, if_false]
  obtain ⟨⟨a1, a2, a3⟩, a4, a5⟩ := fold_inter (fun u => span size.2 u.1) (span size.2 t.1) ts
  obtain ⟨⟨b1, b2, b3⟩, b4, b5⟩ := fold_inter (fun u => span size.1 u.2) (span size.1 t.2) ts
  simp only [span, zero_add] at *
  refine ⟨?_, ?_, ?_, ?_, ?_⟩
  · intro u hu
    rcases List.mem_cons.1 hu with rfl | hu
    · exact ⟨a1, by linarith, b1, by linarith⟩
    · have := a3 u hu; have := b3 u hu
      exact ⟨by linarith, by linarith, by linarith, by linarith⟩
  · rcases a4 with h | ⟨u, hu, h⟩
    · exact ⟨t, List.mem_cons_self, h⟩
    · exact ⟨u, List.mem_cons_of_mem _ hu, h⟩
  · rcases a5 with h | ⟨u, hu, h⟩
    · exact ⟨t, List.mem_cons_self, by rw [h]; ring⟩
    · exact ⟨u, List.mem_cons_of_mem _ hu, by rw [h]; ring⟩
  · rcases b4 with h | ⟨u, hu, h⟩
    · exact ⟨t, List.mem_cons_self, h⟩
    · exact ⟨u, List.mem_cons_of_mem _ hu, h⟩
  · rcases b5 with h | ⟨u, hu, h⟩
    · exact ⟨t, List.mem_cons_self, by rw [h]; ring⟩
    · exact ⟨u, List.mem_cons_of_mem _ hu, by rw [h]; ring⟩

/-- A box of `setextend` that is not reversed gives a consistent state. -/
theorem extended_setextend (s : St) (xmin ymin xmax ymax : Int) (hx : xmin ≤ xmax) (hy : ymin ≤ ymax) :
    Extended (setextend s xmin ymin xmax ymax) := by
  refine ⟨rfl, rfl, ?_, ?_⟩ <;> simp only [setextend] <;> omega

/-- The box of the images is not reversed. -/
theorem box_ordered {size : Nat × Nat} (h1 : 1 ≤ size.1) (h2 : 1 ≤ size.2) {padReq : Bool} {ts : List Tr}
    {xmin ymin xmax ymax : Int} (h : polygoncollectionbounds size padReq ts = .box xmin ymin xmax ymax) :
    xmin ≤ xmax ∧ ymin ≤ ymax := by
  cases ts with
  | nil => simp [polygoncollectionbounds] at h
  | cons t ts =>
    have c1 : (1 : Rat) ≤ size.1 := by exact_mod_cast h1
    have c2 : (1 : Rat) ≤ size.2 := by exact_mod_cast h2
    have key : ∀ a b : Rat, a ≤ b → ⌊a⌋ ≤ ⌈b⌉ := fun a b hab =>
      le_trans (Int.floor_le_floor hab) (Int.floor_le_ceil b)
    cases padReq with
    | true =>
      simp only [polygoncollectionbounds, Bool.not_true, Bool.false_and, Bool.false_eq_true, if_false,
        Bounds.box.injEq] at h
      obtain ⟨rfl, rfl, rfl, rfl⟩ := h
      obtain ⟨hu, -⟩ := rawBounds_union size t ts
      obtain ⟨g1, g2, g3, g4⟩ := hu t List.mem_cons_self
      exact ⟨key _ _ (by linarith), key _ _ (by linarith)⟩
    | false =>
      simp only [polygoncollectionbounds, Bool.not_false, Bool.true_and] at h
      split at h
      · exact absurd h (by simp)
      · rename_i he
        simp only [Bounds.box.injEq] at h
        obtain ⟨rfl, rfl, rfl, rfl⟩ := h
        simp only [rectEmpty, Bool.or_eq_true, decide_eq_true_eq, not_or, not_lt] at he
        exact ⟨key _ _ he.1.1, key _ _ he.1.2⟩

end SC.Align
