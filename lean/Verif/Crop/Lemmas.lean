import Verif.Crop.Model
import Verif.Numpy.Lemmas
import Verif.Indexing.MoveLemmas
import Mathlib.Tactic.ByContra
import Mathlib.Tactic.Tauto
/-! Lemmas on indexing with integers and ranges, and on counting pixels (C25). -/
namespace SC.Crop
open SC.Numpy SC.Py

/-! ## indexing -/

/-- an integer, a range, or everything -/
inductive Sel where
  | pick (i : Nat)
  | rng (a b : Nat)
  | full

def Sel.item : Sel → Item
  | .pick i => .int i
  | .rng a b => .slice ⟨some (a : Int), some (b : Int), none⟩
  | .full => .slice Slice.full

def Sel.ok (n : Nat) : Sel → Prop
  | .pick i => i < n
  | .rng a b => a ≤ b ∧ b ≤ n
  | .full => True

def Sel.res (n : Nat) : Sel → Res
  | .pick i => .pick i
  | .rng a b => .span ((List.range (b - a)).map (a + ·))
  | .full => .span (List.range n)

/-- shape of the result -/
def selShape : List Nat → List Sel → List Nat
  | _ :: s, .pick _ :: l => selShape s l
  | _ :: s, .rng a b :: l => (b - a) :: selShape s l
  | n :: s, .full :: l => n :: selShape s l
  | _, _ => []

/-- source of an element of the result -/
def selSrc : List Sel → List Nat → List Nat
  | [], _ => []
  | .pick i :: l, r => i :: selSrc l r
  | .rng a _ :: l, r => (a + r.headD 0) :: selSrc l r.tail
  | .full :: l, r => r.headD 0 :: selSrc l r.tail

theorem rng_positions (n a b : Nat) (h : a ≤ b) (hb : b ≤ n) :
    (Slice.mk (some (a : Int)) (some (b : Int)) none).positions n = some ((List.range (b - a)).map (a + ·)) := by
  have h1 : (Slice.mk (some (a : Int)) (some (b : Int)) none).indices n = some ((a : Int), (b : Int), 1) := by
    have c1 : clampBound n 0 n (a : Int) = a := by
      unfold clampBound
      have : ¬ ((a : Int) < 0) := by omega
      have h3 : ¬ ((n : Int) < a) := by omega
      simp [this, h3]
    have c2 : clampBound n 0 n (b : Int) = b := by
      unfold clampBound
      have : ¬ ((b : Int) < 0) := by omega
      have h3 : ¬ ((n : Int) < b) := by omega
      simp [this, h3]
    simp [Slice.indices, boundOr, c1, c2]
  have h2 : rangeLen (a : Int) (b : Int) 1 = b - a := by simp [rangeLen]
  simp only [Slice.positions, h1, Option.map_some, rangeList, h2, List.map_map]
  congr 1
  apply List.map_congr_left
  intro i _
  simp only [Function.comp_apply]; omega

theorem resolve_sel : ∀ (s : List Nat) (l : List Sel), List.Forall₂ Sel.ok s l →
    resolve (l.map Sel.item) s = some (List.zipWith Sel.res s l)
  | [], [], _ => rfl
  | n :: s, x :: l, h => by
    have h := List.forall₂_cons.1 h
    have ih := resolve_sel s l h.2
    cases x with
    | pick i =>
      have : normIdx n (i : Int) = some i := by
        have := h.1
        simp only [Sel.ok] at this
        simp [normIdx, this]
      simp [Sel.item, resolve, resolve1, this, ih, Sel.res]
    | rng a b =>
      have := rng_positions n a b h.1.1 h.1.2
      simp [Sel.item, resolve, resolve1, this, ih, Sel.res]
    | full =>
      simp [Sel.item, resolve, resolve1, SC.Indexing.full_positions, ih, Sel.res]

theorem many_sel : ∀ (s : List Nat) (l : List Sel), (List.zipWith Sel.res s l).any Res.isMany = false
  | [], _ => by simp
  | _ :: _, [] => by simp
  | n :: s, x :: l => by
    have ih := many_sel s l
    cases x <;> simp [Sel.res, Res.isMany, ih]

theorem dims_sel : ∀ (s : List Nat) (l : List Sel), List.Forall₂ Sel.ok s l →
    (List.zipWith Sel.res s l).filterMap Res.dimLen? = selShape s l
  | [], [], _ => rfl
  | n :: s, x :: l, h => by
    have h := List.forall₂_cons.1 h
    have ih := dims_sel s l h.2
    cases x <;> simp [Sel.res, Res.dimLen?, selShape, ih, List.filterMap_cons]

theorem walk_sel : ∀ (s : List Nat) (l : List Sel), List.Forall₂ Sel.ok s l → ∀ r, InB r (selShape s l) →
    walk (List.zipWith Sel.res s l) 0 r = selSrc l r
  | [], [], _, r, _ => rfl
  | n :: s, x :: l, h, r, hr => by
    have h := List.forall₂_cons.1 h
    have ih := walk_sel s l h.2
    cases x with
    | pick i => simp [Sel.res, walk, selSrc, ih r hr]
    | rng a b =>
      match r, hr with
      | i :: r, hr =>
        obtain ⟨h1, h2⟩ := hr
        simp [Sel.res, walk, selSrc, ih r h2, List.getD, h1]
    | full =>
      match r, hr with
      | i :: r, hr =>
        obtain ⟨h1, h2⟩ := hr
        simp [Sel.res, walk, selSrc, ih r h2, List.getD, h1]

theorem npGet_sel {α : Type} (a : Arr α) (l : List Sel) (h : List.Forall₂ Sel.ok a.shape l) :
    ∃ b, npGet a (l.map Sel.item) = some b ∧ b.shape = selShape a.shape l ∧
      ∀ r, InB r b.shape → b.get r = a.get (selSrc l r) := by
  rw [npGet_of_resolve (resolve_sel _ _ h), indexRes_basic _ (many_sel _ _)]
  refine ⟨_, rfl, dims_sel _ _ h, ?_⟩
  intro r hr
  simp only at hr
  rw [dims_sel _ _ h] at hr
  simp only [walk_sel _ _ h r hr]

/-! ## the index of sliceinfo -/

theorem countConsuming_append (a b : List Item) : countConsuming (a ++ b) = countConsuming a + countConsuming b := by
  simp [countConsuming]

theorem countConsuming_replicate (n : Nat) : countConsuming (List.replicate n (.slice Slice.full)) = n := by
  induction n with
  | zero => rfl
  | succ n ih => rw [List.replicate_succ, countConsuming, List.filter_cons_of_pos rfl, List.length_cons]; exact congrArg (· + 1) ih

theorem sliceItems_expand (ndim sd i : Nat) (hsd : sd < ndim) :
    npExpand (sliceItems ndim sd i) ndim =
      some (List.replicate sd (.slice Slice.full) ++ .int i :: List.replicate (ndim - 1 - sd) (.slice Slice.full)) := by
  unfold sliceItems
  by_cases h0 : sd = 0
  · subst h0
    rw [if_pos rfl]
    have h1 : ¬ (1 > ndim) := by omega
    have hc : countConsuming [Item.int i, Item.ellipsis] = 1 := rfl
    have hf : [Item.int (i : Int), Item.ellipsis].findIdx? (· == .ellipsis) = some 1 := by
      simp [List.findIdx?_cons]
    simp only [npExpand, hc, h1, if_false, hf]
    simp
  · rw [if_neg h0]
    by_cases h1 : sd = ndim - 1
    · rw [if_pos h1]
      have h2 : ¬ (1 > ndim) := by omega
      have hc : countConsuming [Item.ellipsis, Item.int i] = 1 := rfl
      have hf : [Item.ellipsis, Item.int (i : Int)].findIdx? (· == .ellipsis) = some 0 := by
        simp [List.findIdx?_cons]
      have e : ndim - 1 - sd = 0 := by omega
      simp only [npExpand, hc, h2, if_false, hf, e]
      simp [h1]
    · rw [if_neg h1, npExpand_self]
      · simp
      · have e : countConsuming [Item.int i] = 1 := rfl
        rw [countConsuming_append, countConsuming_append, countConsuming_replicate, countConsuming_replicate, e]
        omega
      · simp

def fulls : List Nat → List Sel
  | [] => []
  | _ :: s => .full :: fulls s

theorem fulls_ok : ∀ s, List.Forall₂ Sel.ok s (fulls s)
  | [] => List.Forall₂.nil
  | _ :: s => List.Forall₂.cons trivial (fulls_ok s)

theorem fulls_shape : ∀ s, selShape s (fulls s) = s
  | [] => rfl
  | _ :: s => by simp [fulls, selShape, fulls_shape s]

theorem fulls_item : ∀ s, (fulls s).map Sel.item = List.replicate s.length (.slice Slice.full)
  | [] => rfl
  | _ :: s => by simp [fulls, Sel.item, fulls_item s, List.replicate_succ]

theorem fulls_src : ∀ (s r : List Nat), r.length = s.length → selSrc (fulls s) r = r
  | [], r, h => by rw [List.length_eq_zero_iff.1 h]; rfl
  | _ :: s, y :: r, h => by simp [fulls, selSrc, fulls_src s r (by simpa using h)]

theorem fulls_pick_shape (n i : Nat) (sB : List Nat) : ∀ sA,
    selShape (sA ++ n :: sB) (fulls sA ++ .pick i :: fulls sB) = sA ++ sB
  | [] => by simp [fulls, selShape, fulls_shape]
  | _ :: s => by simp [fulls, selShape, fulls_pick_shape n i sB s]

theorem fulls_pick_src (i : Nat) (sB : List Nat) : ∀ (sA r : List Nat), r.length = sA.length + sB.length →
    selSrc (fulls sA ++ .pick i :: fulls sB) r = r.insertIdx sA.length i
  | [], r, h => by simp [fulls, selSrc, fulls_src sB r (by simpa using h)]
  | _ :: s, y :: r, h => by
    simp [fulls, selSrc, fulls_pick_src i sB s r (by simp at h; omega)]
  | _ :: s, [], h => by simp at h; omega

theorem sliceItems_get {α : Type} (a : Arr α) (sd i : Nat) (sA sB : List Nat) (n : Nat)
    (hs : a.shape = sA ++ n :: sB) (hsd : sA.length = sd) (hi : i < n) :
    ∃ b, npGet a (sliceItems a.shape.length sd i) = some b ∧ b.shape = sA ++ sB ∧
      ∀ r, InB r (sA ++ sB) → b.get r = a.get (r.insertIdx sd i) := by
  have hlen : a.shape.length = sA.length + 1 + sB.length := by rw [hs]; simp; omega
  have hex := sliceItems_expand a.shape.length sd i (by omega)
  have hl : (List.replicate sd (Item.slice Slice.full) ++ Item.int i :: List.replicate (a.shape.length - 1 - sd) (Item.slice Slice.full)) =
      (fulls sA ++ .pick i :: fulls sB).map Sel.item := by
    have e : a.shape.length - 1 - sd = sB.length := by omega
    rw [e, ← hsd, List.map_append, List.map_cons, fulls_item, fulls_item]; rfl
  have hok : List.Forall₂ Sel.ok a.shape (fulls sA ++ .pick i :: fulls sB) := by
    rw [hs]
    exact List.rel_append (fulls_ok sA) (List.forall₂_cons.2 ⟨hi, fulls_ok sB⟩)
  obtain ⟨b, h1, h2, h3⟩ := npGet_sel a _ hok
  rw [hs, fulls_pick_shape] at h2
  refine ⟨b, ?_, h2, ?_⟩
  · rw [npGet, hex, hl]
    have := resolve_sel _ _ hok
    obtain ⟨hc, he⟩ := resolve_count this
    rw [npGet, npExpand_self hc he] at h1
    exact h1
  · intro r hr
    rw [h3 r (by rw [h2]; exact hr), fulls_pick_src i sB sA r (by rw [hr.length]; simp), hsd]

theorem sliceShape_eq (sA sB : List Nat) (n : Nat) : sliceShape (sA ++ n :: sB) sA.length = sA ++ sB := by
  unfold sliceShape
  by_cases h0 : sA.length = 0
  · rw [List.length_eq_zero_iff.1 h0]; simp
  · rw [if_neg h0]
    by_cases h1 : sA.length = (sA ++ n :: sB).length - 1
    · rw [if_pos h1]
      have : sB = [] := by
        rw [List.length_append, List.length_cons] at h1
        exact List.length_eq_zero_iff.1 (by omega)
      subst this
      simp
    · rw [if_neg h1]
      simp

theorem eraseIdx_mid (sA sB : List Nat) (n : Nat) : (sA ++ n :: sB).eraseIdx sA.length = sA ++ sB := by
  rw [List.eraseIdx_append_of_length_le (le_refl _)]; simp

/-! ## all indices, and the count -/

theorem mem_allIdx : ∀ (s r : List Nat), r ∈ allIdx s ↔ InB r s
  | [], r => by cases r <;> simp [allIdx, InB]
  | n :: s, r => by
    cases r with
    | nil => simp [allIdx, InB]
    | cons i r => simp [allIdx, InB, mem_allIdx s r]

theorem count_pos (s : List Nat) (mask : List Nat → Bool) (d j : Nat) :
    count s mask d j ≠ 0 ↔ ∃ r, InB r s ∧ mask r = true ∧ r.getD d 0 = j := by
  unfold count
  rw [ne_eq, List.length_eq_zero_iff, List.filter_eq_nil_iff]
  simp only [mem_allIdx, Bool.and_eq_true, decide_eq_true_eq]
  constructor
  · intro h
    by_contra hc
    exact h (fun r hr hm => hc ⟨r, hr, hm.2, hm.1⟩)
  · rintro ⟨r, h1, h2, h3⟩ h
    exact h r h1 ⟨h3, h2⟩

theorem mem_nonzeroFrom : ∀ (bs : List Bool) (k j : Nat), j ∈ nonzeroFrom k bs ↔ k ≤ j ∧ bs[j - k]? = some true
  | [], k, j => by simp [nonzeroFrom]
  | b :: bs, k, j => by
    have ih := mem_nonzeroFrom bs (k + 1) j
    by_cases hj : j = k
    · subst hj
      have : j ∉ nonzeroFrom (j + 1) bs := by rw [ih]; omega
      cases b <;> simp [nonzeroFrom, this]
    · have e : k < j → j - k = (j - (k + 1)) + 1 := by omega
      by_cases hk : k < j
      · have hk' : k + 1 ≤ j := hk
        cases b <;> simp [nonzeroFrom, ih, hj, e hk, le_of_lt hk, hk']
      · have : j ∉ nonzeroFrom (k + 1) bs := by rw [ih]; omega
        have h2 : ¬ k ≤ j := by omega
        cases b <;> simp [nonzeroFrom, this, hj, h2]

theorem nonzeroFrom_sorted : ∀ (bs : List Bool) (k : Nat), (nonzeroFrom k bs).Pairwise (· < ·)
  | [], k => by simp [nonzeroFrom]
  | b :: bs, k => by
    have ih := nonzeroFrom_sorted bs (k + 1)
    cases b with
    | false => simpa [nonzeroFrom] using ih
    | true =>
      simp only [nonzeroFrom, if_true, List.pairwise_cons]
      refine ⟨?_, ih⟩
      intro j hj
      rw [mem_nonzeroFrom] at hj
      omega

/-- First and last flag. -/
theorem first_last (bs : List Bool) :
    (true ∉ bs ∧ (nonzeroFrom 0 bs).head? = none) ∨
    ∃ i j, (nonzeroFrom 0 bs).head? = some i ∧ (nonzeroFrom 0 bs).getLast? = some j ∧
      bs[i]? = some true ∧ bs[j]? = some true ∧ ∀ k, bs[k]? = some true → i ≤ k ∧ k ≤ j := by
  cases h : nonzeroFrom 0 bs with
  | nil =>
    left
    refine ⟨?_, rfl⟩
    intro hm
    obtain ⟨k, hk⟩ := List.getElem?_of_mem hm
    have : k ∈ nonzeroFrom 0 bs := by rw [mem_nonzeroFrom]; exact ⟨by omega, by simpa using hk⟩
    rw [h] at this; simp at this
  | cons i l =>
    right
    have hne : (i :: l) ≠ [] := by simp
    refine ⟨i, (i :: l).getLast hne, rfl, List.getLast?_eq_getLast_of_ne_nil hne, ?_, ?_, ?_⟩
    · have : i ∈ nonzeroFrom 0 bs := by rw [h]; simp
      rw [mem_nonzeroFrom] at this; simpa using this.2
    · have : (i :: l).getLast hne ∈ nonzeroFrom 0 bs := by rw [h]; exact List.getLast_mem hne
      rw [mem_nonzeroFrom] at this; simpa using this.2
    · intro k hk
      have hm : k ∈ nonzeroFrom 0 bs := by rw [mem_nonzeroFrom]; exact ⟨by omega, by simpa using hk⟩
      have hs := nonzeroFrom_sorted bs 0
      rw [h] at hm hs
      constructor
      · rcases List.mem_cons.1 hm with rfl | h'
        · exact le_refl _
        · exact le_of_lt ((List.pairwise_cons.1 hs).1 k h')
      · obtain ⟨p, hp⟩ : ∃ p, i :: l = p ++ [(i :: l).getLast hne] := ⟨_, (List.dropLast_append_getLast hne).symm⟩
        rw [hp] at hm hs
        rcases List.mem_append.1 hm with h' | h'
        · have := (List.pairwise_append.1 hs).2.2 k h' _ (List.mem_singleton.2 rfl)
          exact le_of_lt this
        · exact le_of_eq (List.mem_singleton.1 h')

end SC.Crop
