import Verif.XiaStats.Model
import Verif.Naming.Lemmas
namespace SC.XiaStats
open SC.Naming SC.Xia

variable {V : Type} [Inhabited V]

/-- `nstats` rows of `ndet` values for every spectrum. -/
def Shaped (nstats ndet : Nat) (stats : List (List (List V))) : Prop :=
  ∀ m ∈ stats, m.length = nstats ∧ ∀ r ∈ m, r.length = ndet

theorem chunk_flatten {k : Nat} (ls : List (List V)) (h : ∀ l ∈ ls, l.length = k) :
    chunk ls.length k ls.flatten = ls := by
  induction ls with
  | nil => rfl
  | cons a ls ih =>
    have ha := h a (by simp)
    have ih := ih (fun l hl => h l (by simp [hl]))
    simp only [chunk] at ih ⊢
    rw [List.length_cons, List.range_succ_eq_map, List.map_cons, List.map_map]
    congr 1
    · simp [← ha]
    · conv_rhs => rw [← ih]
      refine List.map_congr_left ?_
      intro i _
      simp only [Function.comp, List.flatten_cons]
      rw [Nat.succ_mul, Nat.add_comm, ← ha, ← List.drop_drop, List.drop_left]

theorem chunk_length {n k : Nat} (row : List V) : (chunk n k row).length = n := by simp [chunk]

theorem flatten_getD {k : Nat} (ls : List (List V)) (h : ∀ l ∈ ls, l.length = k) (a d : Nat) (hd : d < k) :
    ls.flatten.getD (a * k + d) default = (ls.getD a []).getD d default := by
  induction ls generalizing a with
  | nil => simp
  | cons l ls ih =>
    have hl := h l (by simp)
    cases a with
    | zero =>
      simp only [List.flatten_cons, Nat.zero_mul, Nat.zero_add, List.getD_cons_zero]
      rw [List.getD_eq_getElem?_getD, List.getElem?_append_left (by omega), List.getD_eq_getElem?_getD]
    | succ a =>
      simp only [List.flatten_cons, List.getD_cons_succ]
      rw [← ih (fun l hl => h l (by simp [hl])), List.getD_eq_getElem?_getD, List.getD_eq_getElem?_getD,
        List.getElem?_append_right (by rw [Nat.succ_mul]; omega)]
      congr 2
      rw [Nat.succ_mul]
      omega

theorem range_chunks (n k : Nat) : List.range (n * k) = ((List.range n).map (fun a => (List.range k).map (fun d => a * k + d))).flatten := by
  induction n with
  | zero => simp
  | succ n ih =>
    rw [Nat.succ_mul, List.range_add, ih, List.range_succ, List.map_append, List.flatten_append]
    simp

theorem transpose_eq (ndet : Nat) (f : Nat → Nat → V) (nstats : Nat) :
    transpose ndet ((List.range nstats).map (fun a => (List.range ndet).map (f a))) =
      (List.range ndet).map (fun d => (List.range nstats).map (fun a => f a d)) := by
  unfold transpose
  refine List.map_congr_left ?_
  intro d hd
  rw [List.map_map]
  refine List.map_congr_left ?_
  intro a _
  have := List.mem_range.1 hd
  simp [List.getD_eq_getElem?_getD, this]

theorem saveOrder_eq (nstats ndet : Nat) :
    saveOrder nstats ndet = ((List.range ndet).map (fun d => (List.range nstats).map (fun a => a * ndet + d))).flatten := by
  unfold saveOrder
  rw [range_chunks]
  have h := chunk_flatten (k := ndet) ((List.range nstats).map (fun a => (List.range ndet).map (fun d => a * ndet + d))) (by
    intro l hl
    obtain ⟨a, _, rfl⟩ := List.mem_map.1 hl
    simp)
  rw [List.length_map, List.length_range] at h
  rw [h, transpose_eq]

theorem list_eq_range {α : Type} (l : List α) (n : Nat) (x : α) (h : l.length = n) : l = (List.range n).map (fun i => l.getD i x) := by
  refine List.ext_getElem (by simp [h]) ?_
  intro i h1 h2
  simp [List.getD_eq_getElem?_getD, h1]

/-- One row of the statistics file. -/
theorem saved_row (nstats ndet : Nat) (s : List (List V)) (hr : ∀ r ∈ s, r.length = ndet) :
    take s.flatten (saveOrder nstats ndet) =
      ((List.range ndet).map (fun d => (List.range nstats).map (fun a => (s.getD a []).getD d default))).flatten := by
  rw [saveOrder_eq, take, List.map_flatten, List.map_map]
  congr 1
  refine List.map_congr_left ?_
  intro d hd
  simp only [Function.comp, List.map_map]
  refine List.map_congr_left ?_
  intro a _
  exact flatten_getD s hr a d (List.mem_range.1 hd)

theorem read_row (ndet n : Nat) (f : Nat → Nat → V) :
    transpose n (chunk ndet n ((List.range ndet).map (fun d => (List.range n).map (fun a => f a d))).flatten) =
      (List.range n).map (fun a => (List.range ndet).map (fun d => f a d)) := by
  have h := chunk_flatten (k := n) ((List.range ndet).map (fun d => (List.range n).map (fun a => f a d))) (by
    intro l hl
    obtain ⟨a, _, rfl⟩ := List.mem_map.1 hl
    simp)
  rw [List.length_map, List.length_range] at h
  rw [h]
  exact transpose_eq n (fun d a => f a d) ndet

theorem rebuild (nstats ndet : Nat) (s : List (List V)) (hs : s.length = nstats) (hr : ∀ r ∈ s, r.length = ndet) :
    (List.range nstats).map (fun a => (List.range ndet).map (fun d => (s.getD a []).getD d default)) = s := by
  conv_rhs => rw [list_eq_range s nstats [] hs]
  refine List.map_congr_left ?_
  intro a ha
  have ha' : a < s.length := by rw [hs]; exact List.mem_range.1 ha
  have hm : (s.getD a []).length = ndet := by
    rw [List.getD_eq_getElem?_getD, List.getElem?_eq_getElem ha']
    exact hr _ (List.getElem_mem ha')
  exact (list_eq_range (s.getD a []) ndet default hm).symm

theorem toNumber_pad (w i : Nat) : toNumber (pad w i) = some i := by
  have h2 : ¬ (['x', 'i', 'a'].isPrefixOf (pad w i) = true) := by
    have hne := pad_ne_nil w i
    obtain ⟨c, cs, hc⟩ := List.exists_cons_of_ne_nil hne
    have := pad_digit w i c (by simp [hc])
    rw [hc]
    intro h
    simp only [List.isPrefixOf, Bool.and_eq_true, beq_iff_eq] at h
    rw [← h.1] at this
    exact absurd this (by decide)
  have h3 : (pad w i).all Char.isDigit = true := List.all_eq_true.2 (pad_digit w i)
  simp only [toNumber, h2, h3, Bool.false_eq_true, if_false, pad_ne_nil, ne_eq, not_false_eq_true, and_self, if_true, pad_value]

/-- The number of a detector given with the prefix `xia` is the same. -/
theorem toNumber_xia_pad (w i : Nat) : toNumber (['x', 'i', 'a'] ++ pad w i) = some i := by
  have h3 : (pad w i).all Char.isDigit = true := List.all_eq_true.2 (pad_digit w i)
  have h2 : ['x', 'i', 'a'].isPrefixOf (['x', 'i', 'a'] ++ pad w i) = true := by simp [List.isPrefixOf]
  have h4 : (['x', 'i', 'a'] ++ pad w i).drop 3 = pad w i := rfl
  simp only [toNumber, h2, h4, h3, pad_ne_nil, ne_eq, not_false_eq_true, and_self, if_true, pad_value]

theorem toNumber_default (i : Nat) : toNumber (xiaparselabel (defaultLabel i)).2 = some i := by
  have h1 : (xiaparselabel (defaultLabel i)).2 = pad 2 i := by
    simp [xiaparselabel, defaultLabel, List.isPrefixOf]
  rw [h1, toNumber_pad]

theorem indexOf_range (n i : Nat) : indexOf (List.range n) i = if i < n then some i else none := by
  unfold indexOf
  split
  · next h =>
    rw [List.findIdx?_eq_some_iff_getElem]
    refine ⟨by simpa using h, by simp, ?_⟩
    intro j hj
    simp; omega
  · next h =>
    rw [List.findIdx?_eq_none_iff]
    intro x hx
    have := List.mem_range.1 hx
    simp; omega

end SC.XiaStats
