import Verif.Crop.Lemmas2
import Mathlib.Data.List.Nodup
import Mathlib.Data.List.Perm.Subperm
/-! # Helper lemmas about counting pixels, and about applying a ROI -/
namespace SC.Crop
open SC.Numpy SC.Py

theorem allIdx_nodup : ∀ s, (allIdx s).Nodup
  | [] => by simp [allIdx]
  | n :: s => by
    unfold allIdx
    rw [List.nodup_flatMap]
    refine ⟨fun i _ => (allIdx_nodup s).map (fun a b h => (List.cons.inj h).2), ?_⟩
    refine List.Pairwise.imp ?_ (List.nodup_range (n := n))
    intro i j hij
    simp only [Function.onFun, List.disjoint_left, List.mem_map, not_exists, not_and]
    rintro _ ⟨x, _, rfl⟩ y _ h
    exact hij (List.cons.inj h).1.symm

theorem inB_set {r s : List Nat} {d j : Nat} (h : InB r s) (hj : j < s.getD d 0) : InB (r.set d j) s := by
  induction r generalizing s d with
  | nil => cases s with
    | nil => exact h
    | cons => exact h.elim
  | cons x r ih => cases s with
    | nil => exact h.elim
    | cons n s =>
      cases d with
      | zero => exact ⟨by simpa using hj, h.2⟩
      | succ d => exact ⟨h.1, ih h.2 (by simpa using hj)⟩

theorem getD_set_self {r : List Nat} {d j : Nat} (h : d < r.length) : (r.set d j).getD d 0 = j := by
  simp [List.getD_eq_getElem?_getD, h]

theorem getD_set_ne {r : List Nat} {d j g : Nat} (h : d ≠ g) : (r.set d j).getD g 0 = r.getD g 0 := by
  simp [List.getD_eq_getElem?_getD, h]

/-- Moving the valid pixels of one slice to another slice. -/
theorem count_le (s : List Nat) (m : List Nat → Bool) (d j j' : Nat) (hd : d < s.length) (hj' : j' < s.getD d 0)
    (h : ∀ r, InB r s → m r = true → r.getD d 0 = j → m (r.set d j') = true) : count s m d j ≤ count s m d j' := by
  unfold count
  have hn : (((allIdx s).filter fun r => decide (r.getD d 0 = j) && m r).map (fun r => r.set d j')).Nodup := by
    apply List.Nodup.map_on
    · intro x hx y hy hxy
      simp only [List.mem_filter, mem_allIdx, Bool.and_eq_true, decide_eq_true_eq] at hx hy
      apply List.ext_getElem?
      intro i
      by_cases hi : d = i
      · subst hi
        have h1 := hx.2.1
        have h2 := hy.2.1
        have l1 := hx.1.length
        have l2 := hy.1.length
        simp only [List.getD_eq_getElem?_getD, List.getElem?_eq_getElem (show d < x.length by omega),
          List.getElem?_eq_getElem (show d < y.length by omega), Option.getD_some] at h1 h2
        rw [List.getElem?_eq_getElem (show d < x.length by omega), List.getElem?_eq_getElem (show d < y.length by omega), h1, h2]
      · have := congrArg (fun l : List Nat => l[i]?) hxy
        simpa [List.getElem?_set, hi] using this
    · exact (allIdx_nodup s).filter _
  have hsub : (((allIdx s).filter fun r => decide (r.getD d 0 = j) && m r).map (fun r => r.set d j')) ⊆
      (allIdx s).filter fun r => decide (r.getD d 0 = j') && m r := by
    intro x hx
    simp only [List.mem_map, List.mem_filter, mem_allIdx, Bool.and_eq_true, decide_eq_true_eq] at hx ⊢
    obtain ⟨r, ⟨h1, h2, h3⟩, rfl⟩ := hx
    exact ⟨inB_set h1 hj', getD_set_self (by rw [h1.length]; exact hd), h r h1 h3 h2⟩
  have := (List.subperm_of_subset hn hsub).length_le
  simpa using this

/-! ## applying a ROI -/

/-- The ROI as numpy indices. -/
def toSel (roi : List (Nat × Nat)) : List Sel := roi.map fun ab => .rng ab.1 ab.2

/-- The ROI as integers. -/
def toInt (roi : List (Nat × Nat)) : List (Int × Int) := roi.map fun ab => ((ab.1 : Int), (ab.2 : Int))

theorem toSel_item (roi : List (Nat × Nat)) : (toSel roi).map Sel.item = indexin (toInt roi) := by
  simp [toSel, toInt, indexin, Sel.item]

theorem toSel_shape : ∀ (s : List Nat) (roi : List (Nat × Nat)), s.length = roi.length →
    selShape s (toSel roi) = roi.map fun ab => ab.2 - ab.1
  | [], [], _ => rfl
  | _ :: s, ab :: roi, h => by
    have := toSel_shape s roi (by simpa using h)
    simp only [toSel, List.map_cons, selShape] at this ⊢
    rw [this]

theorem toSel_ok : ∀ (s : List Nat) (roi : List (Nat × Nat)), s.length = roi.length →
    (∀ g, g < roi.length → (roi.getD g (0, 0)).1 ≤ (roi.getD g (0, 0)).2 ∧ (roi.getD g (0, 0)).2 ≤ s.getD g 0) →
    List.Forall₂ Sel.ok s (toSel roi)
  | [], [], _, _ => List.Forall₂.nil
  | n :: s, ab :: roi, h, hr => by
    refine List.Forall₂.cons ?_ (toSel_ok s roi (by simpa using h) fun g hg => ?_)
    · have := hr 0 (by simp)
      simpa [Sel.ok] using this
    · have := hr (g + 1) (by simpa using hg)
      simpa using this

theorem toSel_src : ∀ (roi : List (Nat × Nat)) (r : List Nat), r.length = roi.length →
    selSrc (toSel roi) r = List.zipWith (fun ab i => ab.1 + i) roi r
  | [], [], _ => rfl
  | ab :: roi, i :: r, h => by
    have := toSel_src roi r (by simpa using h)
    simp only [toSel, List.map_cons, selSrc, List.headD_cons, List.tail_cons] at this ⊢
    rw [this]; simp

theorem set_ok : ∀ (s : List Nat) (l : List Sel) (d i : Nat), List.Forall₂ Sel.ok s l → i < s.getD d 0 →
    List.Forall₂ Sel.ok s (l.set d (.pick i))
  | [], [], _, _, _, _ => by simp
  | n :: s, x :: l, 0, i, h, hi => by
    have h := List.forall₂_cons.1 h
    exact List.Forall₂.cons (by simpa [Sel.ok] using hi) h.2
  | n :: s, x :: l, d + 1, i, h, hi => by
    have h := List.forall₂_cons.1 h
    exact List.Forall₂.cons h.1 (set_ok s l d i h.2 (by simpa using hi))

theorem toSel_set_shape : ∀ (s : List Nat) (roi : List (Nat × Nat)) (d i : Nat), s.length = roi.length → d < s.length →
    selShape s ((toSel roi).set d (.pick i)) = (roi.map fun ab => ab.2 - ab.1).eraseIdx d
  | [], [], _, _, _, h => by simp at h
  | n :: s, ab :: roi, 0, i, h, _ => by
    have := toSel_shape s roi (by simpa using h)
    simp only [toSel, List.map_cons, List.set_cons_zero, selShape, List.eraseIdx_cons_zero] at this ⊢
    exact this
  | n :: s, ab :: roi, d + 1, i, h, hd => by
    have := toSel_set_shape s roi d i (by simpa using h) (by simpa using hd)
    simp only [toSel, List.map_cons, List.set_cons_succ, selShape, List.eraseIdx_cons_succ] at this ⊢
    rw [this]

theorem toSel_set_src : ∀ (roi : List (Nat × Nat)) (r : List Nat) (d i : Nat), r.length + 1 = roi.length → d < roi.length →
    (roi.getD d (0, 0)).1 = 0 →
    selSrc ((toSel roi).set d (.pick i)) r = List.zipWith (fun ab i => ab.1 + i) roi (r.insertIdx d i)
  | [], _, _, _, h, _, _ => by simp at h
  | ab :: roi, r, 0, i, h, _, h0 => by
    have := toSel_src roi r (by simpa using h)
    have h0 : ab.1 = 0 := by simpa using h0
    simp only [toSel, List.map_cons, List.set_cons_zero, selSrc, List.insertIdx_zero, List.zipWith_cons_cons, h0, Nat.zero_add] at this ⊢
    rw [this]
  | ab :: roi, [], d + 1, i, h, hd, _ => by simp only [List.length_cons, List.length_nil] at h hd; omega
  | ab :: roi, x :: r, d + 1, i, h, hd, h0 => by
    have := toSel_set_src roi r d i (by simpa using h) (by simpa using hd) (by simpa using h0)
    simp only [toSel, List.map_cons, List.set_cons_succ, selSrc, List.headD_cons, List.tail_cons, List.insertIdx_succ_cons,
      List.zipWith_cons_cons] at this ⊢
    rw [this]

end SC.Crop
