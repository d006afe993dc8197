import Verif.Numpy.Lemmas
import Verif.Indexing.Model
import Mathlib.Data.List.InsertIdx
import Mathlib.Data.List.Perm.Basic
/-! # Helper lemmas: moving one axis, adding new axes -/
namespace SC.Indexing
open SC.Py SC.Numpy

/-- The axes list of `move_axis`. -/
theorem moveAxes_getElem? {n i1 i2 k : Nat} (h1 : i1 < n) (h2 : i2 < n) (hk : k < n) :
    (((List.range n).eraseIdx i1).insertIdx i2 i1)[k]? =
      some (if k = i2 then i1 else
        let m := if k < i2 then k else k - 1
        if m < i1 then m else m + 1) := by
  have hl : ((List.range n).eraseIdx i1).length = n - 1 := by
    rw [List.length_eraseIdx_of_lt (by simpa using h1)]; simp
  rw [List.getElem?_insertIdx, hl]
  by_cases hk2 : k = i2
  · subst hk2; simp; omega
  · simp only [hk2, if_false]
    by_cases hlt : k < i2
    · simp only [hlt, if_true, List.getElem?_eraseIdx]
      split <;> (rw [List.getElem?_range]; omega)
    · simp only [hlt, if_false, List.getElem?_eraseIdx]
      split <;> (rw [List.getElem?_range]; omega)

theorem moveAxes_perm {n i1 i2 : Nat} (h1 : i1 < n) (h2 : i2 < n) :
    (((List.range n).eraseIdx i1).insertIdx i2 i1).Perm (List.range n) := by
  have hl : ((List.range n).eraseIdx i1).length = n - 1 := by
    rw [List.length_eraseIdx_of_lt (by simpa using h1)]; simp
  refine (List.perm_insertIdx i1 _ (by omega)).trans ?_
  have := List.getElem_cons_eraseIdx_perm (l := List.range n) (n := i1) (by simpa using h1)
  simpa using this

theorem map_getD_range (s : List Nat) : (List.range s.length).map (fun k => s.getD k 0) = s := by
  apply List.ext_getElem?
  intro i
  by_cases h : i < s.length
  · simp [h]
  · simp [h]

theorem applyOps_nil {α : Type} (a : Arr α) : applyOps a [] = some a := rfl

theorem applyOps_append {α : Type} (a : Arr α) (o o' : List Op) :
    applyOps a (o ++ o') = (applyOps a o).bind fun b => applyOps b o' := by
  induction o generalizing a with
  | nil => rfl
  | cons x o ih =>
    simp only [List.cons_append, applyOps]
    cases x.apply a with
    | none => rfl
    | some b => simp [ih]

/-- `moveOps` moves the distinguished dimension. -/
theorem moveOps_isAt {α : Type} {a : Arr α} {i1 i2 m : Nat} {s : List Nat}
    {f : Nat → List Nat → α} (h : IsAt a i1 m s f) (h2 : i2 ≤ s.length) :
    ∃ b, applyOps a (moveOps (s.length + 1) i1 i2) = some b ∧ IsAt b i2 m s f := by
  by_cases he : i1 = i2
  · subst he; exact ⟨a, by simp [moveOps, moveAxis, applyOps], h⟩
  · have h1 := h.le
    have hn : a.shape.length = s.length + 1 := by
      rw [h.shape, List.length_insertIdx_of_le_length h1]
    have hperm := moveAxes_perm (n := s.length + 1) (i1 := i1) (i2 := i2) (by omega) (by omega)
    have hlen := hperm.length_eq
    simp only [List.length_range] at hlen
    have hnd : (((List.range (s.length + 1)).eraseIdx i1).insertIdx i2 i1).Nodup :=
      hperm.nodup_iff.mpr List.nodup_range
    simp only [moveOps, moveAxis, if_neg he, applyOps, Op.apply]
    refine ⟨_, by
      rw [Numpy.transpose, if_pos (by rw [hn]; exact List.isPerm_iff.mpr hperm)]; rfl, h2, ?_, ?_⟩
    · simp only
      rw [List.map_insertIdx, ← List.eraseIdx_map, ← hn, map_getD_range, h.shape,
        List.eraseIdx_insertIdx_self, getD_insertIdx_self h1]
    · intro j r hj hr
      have hrl := hr.length
      simp only
      rw [← h.get j r hj hr]
      congr 1
      apply List.ext_getElem?
      intro i
      rw [hlen, List.getElem?_map]
      by_cases hi : i < s.length + 1
      · rw [List.getElem?_range hi]
        simp only [Option.map_some]
        -- position of `i` in the axes list
        have key : ∀ k, k < s.length + 1 →
            (((List.range (s.length + 1)).eraseIdx i1).insertIdx i2 i1)[k]? = some i →
            (((List.range (s.length + 1)).eraseIdx i1).insertIdx i2 i1).idxOf i = k := by
          intro k hk hki
          obtain ⟨hk', hki⟩ := List.getElem?_eq_some_iff.mp hki
          rw [← hki]; exact hnd.idxOf_getElem k hk'
        by_cases hii : i = i1
        · rw [key i2 (by omega) (by
            rw [moveAxes_getElem? (by omega) (by omega) (by omega)]; simp [hii])]
          rw [getD_insertIdx_self (by omega), hii, List.getElem?_insertIdx_self, if_pos (by omega)]
        · have hk : (if (if i < i1 then i else i - 1) < i2 then (if i < i1 then i else i - 1)
              else (if i < i1 then i else i - 1) + 1) < s.length + 1 := by
            split <;> split <;> omega
          rw [key _ hk (by
            rw [moveAxes_getElem? (by omega) (by omega) hk]
            congr 1
            dsimp only
            (repeat' split) <;> omega)]
          rw [List.getD_eq_getElem?_getD, List.getElem?_insertIdx, List.getElem?_insertIdx]
          by_cases hlt : i < i1
          · simp only [hlt, if_true]
            by_cases hlt2 : i < i2
            · simp only [hlt2, if_true]
              rw [List.getElem?_eq_getElem (by omega)]; rfl
            · have e1 : ¬ (i + 1 < i2) := by omega
              have e2 : ¬ (i + 1 = i2) := by omega
              simp only [hlt2, if_false, e1, e2]
              simp only [Nat.add_sub_cancel]
              rw [List.getElem?_eq_getElem (by omega)]; rfl
          · simp only [hlt, if_false, hii]
            by_cases hlt2 : i - 1 < i2
            · simp only [hlt2, if_true]
              rw [List.getElem?_eq_getElem (by omega)]; rfl
            · have e1 : ¬ (i - 1 + 1 < i2) := by omega
              have e2 : ¬ (i - 1 + 1 = i2) := by omega
              simp only [hlt2, if_false, e1, e2]
              simp only [Nat.add_sub_cancel]
              rw [List.getElem?_eq_getElem (by omega)]; rfl
      · rw [List.getElem?_eq_none (by simpa using hi), List.getElem?_eq_none]
        · rfl
        · rw [List.length_insertIdx_of_le_length (by omega)]; omega

/-! ## Adding new axes -/

/-- Shape with the new axes of `mask` (`true`: new) filled in. -/
def fill : List Bool → List Nat → List Nat
  | [], _ => []
  | true :: mk, s => 1 :: fill mk s
  | false :: mk, n :: s => n :: fill mk s
  | false :: _, [] => []

/-- Coordinates without those along new axes. -/
def dropM : List Bool → List Nat → List Nat
  | [], _ => []
  | true :: mk, _ :: r => dropM mk r
  | false :: mk, i :: r => i :: dropM mk r
  | _ :: _, [] => []

def nold (mk : List Bool) : Nat := (mk.filter (!·)).length

theorem fill_length {mk : List Bool} {s : List Nat} (h : nold mk = s.length) :
    (fill mk s).length = mk.length := by
  induction mk generalizing s with
  | nil => rfl
  | cons b mk ih =>
    cases b
    · cases s with
      | nil => simp [nold] at h
      | cons n s => simp [fill, ih (s := s) (by simpa [nold] using h)]
    · simp [fill, ih (s := s) (by simpa [nold] using h)]

theorem dropM_inB {mk : List Bool} {s r : List Nat} (h : nold mk = s.length)
    (hr : InB r (fill mk s)) : InB (dropM mk r) s := by
  induction mk generalizing s r with
  | nil =>
    cases s with
    | nil => cases r <;> simp_all [fill, dropM, InB]
    | cons n s => simp [nold] at h
  | cons b mk ih =>
    cases b
    · cases s with
      | nil => simp [nold] at h
      | cons n s =>
        cases r with
        | nil => simp [fill, InB] at hr
        | cons i r => exact ⟨hr.1, ih (by simpa [nold] using h) hr.2⟩
    · cases r with
      | nil => simp [fill, InB] at hr
      | cons i r => exact ih (by simpa [nold] using h) hr.2

theorem fill_insert {mk : List Bool} {s : List Nat} {p m : Nat} (h : nold mk = s.length)
    (hp : p ≤ mk.length) :
    fill (mk.insertIdx p false) (s.insertIdx (nold (mk.take p)) m) = (fill mk s).insertIdx p m := by
  induction mk generalizing s p with
  | nil =>
    have : p = 0 := by simpa using hp
    subst this
    cases s <;> simp_all [fill, nold]
  | cons b mk ih =>
    cases p with
    | zero => simp [fill, nold]
    | succ p =>
      cases b
      · cases s with
        | nil => simp [nold] at h
        | cons n s =>
          simpa [fill, nold] using ih (s := s) (p := p) (by simpa [nold] using h) (by simpa using hp)
      · simpa [fill, nold] using ih (s := s) (p := p) (by simpa [nold] using h) (by simpa using hp)

theorem dropM_insert {mk : List Bool} {r : List Nat} {p j : Nat} (h : mk.length = r.length)
    (hp : p ≤ mk.length) :
    dropM (mk.insertIdx p false) (r.insertIdx p j) = (dropM mk r).insertIdx (nold (mk.take p)) j := by
  induction mk generalizing r p with
  | nil =>
    have : p = 0 := by simpa using hp
    subst this
    cases r <;> simp_all [dropM, nold]
  | cons b mk ih =>
    cases r with
    | nil => simp at h
    | cons i r =>
      cases p with
      | zero => simp [dropM, nold]
      | succ p =>
        cases b <;>
          simpa [dropM, nold] using ih (r := r) (p := p) (by simpa using h) (by simpa using hp)

/-- Positions of the full slice. -/
theorem full_positions (n : Nat) : Slice.full.positions n = some (List.range n) := by
  have h1 : Slice.full.indices n = some (0, (n : Int), 1) := by
    simp [Slice.full, Slice.indices, boundOr]
  have h2 : rangeLen 0 (n : Int) 1 = n := by simp [rangeLen]
  simp only [Slice.positions, h1, Option.map_some, rangeList, h2, List.map_map]
  congr 1
  apply List.ext_getElem?
  intro i
  simp only [List.getElem?_map]
  cases (List.range n)[i]? <;> simp

/-- The checked form of the index `newaxis`/`slice(None)` described by a mask. -/
def maskRes : List Bool → List Nat → List Res
  | [], _ => []
  | true :: mk, s => .new :: maskRes mk s
  | false :: mk, n :: s => .span (List.range n) :: maskRes mk s
  | false :: _, [] => []

def maskItems (mk : List Bool) : List Item := mk.map fun b => if b then Item.newaxis else full

theorem resolve_mask {mk : List Bool} {s : List Nat} (h : nold mk = s.length) :
    resolve (maskItems mk) s = some (maskRes mk s) := by
  induction mk generalizing s with
  | nil =>
    cases s with
    | nil => rfl
    | cons n s => simp [nold] at h
  | cons b mk ih =>
    cases b
    · cases s with
      | nil => simp [nold] at h
      | cons n s =>
        have := ih (s := s) (by simpa [nold] using h)
        simp only [maskItems, List.map_cons] at this ⊢
        simp only [Bool.false_eq_true, if_false]
        rw [resolve_cons (by rfl), this]
        simp [full, resolve1, full_positions, maskRes]
    · have := ih (s := s) (by simpa [nold] using h)
      simp only [maskItems, List.map_cons] at this ⊢
      simp [resolve, this, maskRes]

theorem maskRes_any (mk : List Bool) (s : List Nat) : (maskRes mk s).any Res.isMany = false := by
  induction mk generalizing s with
  | nil => rfl
  | cons b mk ih =>
    cases b
    · cases s with
      | nil => rfl
      | cons n s => simp only [maskRes, List.any_cons, ih]; rfl
    · simp only [maskRes, List.any_cons, ih]; rfl

theorem maskRes_dims {mk : List Bool} {s : List Nat} (h : nold mk = s.length) :
    (maskRes mk s).filterMap Res.dimLen? = fill mk s := by
  induction mk generalizing s with
  | nil => rfl
  | cons b mk ih =>
    cases b
    · cases s with
      | nil => simp [nold] at h
      | cons n s =>
        simp [maskRes, fill, Res.dimLen?,
          ih (s := s) (by simpa [nold] using h)]
    · simp [maskRes, fill, Res.dimLen?,
        ih (s := s) (by simpa [nold] using h)]

theorem walk_mask {mk : List Bool} {s r : List Nat} (h : nold mk = s.length)
    (hr : InB r (fill mk s)) : walk (maskRes mk s) 0 r = dropM mk r := by
  induction mk generalizing s r with
  | nil => rfl
  | cons b mk ih =>
    cases b
    · cases s with
      | nil => simp [nold] at h
      | cons n s =>
        cases r with
        | nil => simp [fill, InB] at hr
        | cons i r =>
          have hi : i < n := hr.1
          simp only [maskRes, walk, dropM, List.headD_cons, List.tail_cons]
          rw [ih (s := s) (by simpa [nold] using h) hr.2]
          congr 1
          rw [List.getD_eq_getElem?_getD, List.getElem?_range hi]; rfl
    · cases r with
      | nil => simp [fill, InB] at hr
      | cons i r =>
        simp only [maskRes, walk, dropM, List.tail_cons]
        exact ih (by simpa [nold] using h) hr.2

/-- Applying the index of new axes. -/
theorem npGet_mask {α : Type} {y : Arr α} {mk : List Bool} (h : nold mk = y.shape.length) :
    ∃ z, npGet y (maskItems mk) = some z ∧ z.shape = fill mk y.shape ∧
      ∀ r, InB r (fill mk y.shape) → z.get r = y.get (dropM mk r) := by
  refine ⟨_, by rw [npGet_of_resolve (resolve_mask h), indexRes_basic _ (maskRes_any _ _)], ?_, ?_⟩
  · exact maskRes_dims h
  · intro r hr
    simp only [walk_mask h hr]

end SC.Indexing
