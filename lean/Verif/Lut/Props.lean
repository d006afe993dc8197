import Verif.Lut.Lemmas
import Mathlib.Tactic.NormNum
import Mathlib.Tactic.Linarith
import Mathlib.Tactic.FieldSimp
import Mathlib.Tactic.Ring
import Mathlib.Algebra.Order.Ring.Rat
/-! # C11: lookup tables -/
namespace SC.Lut
open SC.ListTools

variable {K : Type} [Field K] [LinearOrder K]

/-- Specification: the points of a table, sorted by key, are those of the partial function `m`. -/
def Holds (s : Lut K) (m : K → Option K) : Prop :=
  ∃ xs ys, s.x = some xs ∧ s.y = some ys ∧ xs.length = ys.length ∧ xs.Pairwise (· < ·) ∧
    ∀ k v, (k, v) ∈ xs.zip ys ↔ m k = some v

theorem holds_of_rep {s : Lut K} {m : K → Option K} (h : Rep s m) (hx : s.x ≠ none) : Holds s m := by
  rcases h with ⟨h1, _⟩ | ⟨xs, ys, h1, h2, h3, h4, h5, h6, h7⟩
  · exact absurd h1 hx
  · refine ⟨xs, ys, h1, h2, h3, h5, ?_⟩
    intro k v
    rw [← h7, firstValue, Option.map_eq_some_iff]
    constructor
    · intro hm
      cases hf : (xs.zip ys).find? (fun p => decide (p.1 = k)) with
      | none =>
        have := List.find?_eq_none.mp hf _ hm
        simp at this
      | some p =>
        refine ⟨p, rfl, ?_⟩
        have hp := List.mem_of_find?_eq_some hf
        have hk : p.1 = k := by simpa using List.find?_some hf
        obtain ⟨i, hi, e⟩ := List.mem_iff_getElem.mp hp
        obtain ⟨j, hj, e'⟩ := List.mem_iff_getElem.mp hm
        simp only [List.length_zip] at hi hj
        simp only [List.getElem_zip] at e e'
        have e1 : xs[i] = k := by rw [← hk, ← e]
        have e2 : xs[j] = k := by rw [Prod.mk.injEq] at e'; exact e'.1
        have hij : i = j := by
          rcases Nat.lt_trichotomy i j with h | h | h
          · have := List.pairwise_iff_getElem.mp h5 i j (by omega) (by omega) h
            rw [e1, e2] at this; exact absurd this (lt_irrefl _)
          · exact h
          · have := List.pairwise_iff_getElem.mp h5 j i (by omega) (by omega) h
            rw [e1, e2] at this; exact absurd this (lt_irrefl _)
        subst hij
        rw [Prod.mk.injEq] at e'
        rw [← e, ← e'.2]
    · rintro ⟨p, hp, rfl⟩
      have hk : p.1 = k := by simpa using List.find?_some hp
      rw [← hk]
      exact List.mem_of_find?_eq_some hp

/-- **C11.**  After any sequence of `add` and `replace` calls on a cleared table (each with at least
one point) nothing was raised, the keys are strictly increasing and the points are exactly those of
the specified table: sums for additions, new values overruling for replacements. -/
theorem lut_table (d : K) (ops : List (Op K)) (hne : ops ≠ [])
    (hops : ∀ o ∈ ops, o.x.length = o.y.length ∧ o.x ≠ []) :
    ∃ s, run (clear d) ops = some s ∧ s.default = d ∧
      Holds s (table (fun _ => none) (ops.map fun o => (o.add, o.x.zip o.y))) := by
  obtain ⟨s, h1, h2, h3⟩ := run_rep (clear d) _ (rep_clear d) ops hops
  refine ⟨s, h1, h2, holds_of_rep h3 ?_⟩
  -- not empty: the last call stored something
  intro hx
  obtain ⟨o, os, rfl⟩ := List.exists_cons_of_ne_nil hne
  have key : ∀ (os : List (Op K)) (s0 s : Lut K), s0.x ≠ none → run s0 os = some s → s.x ≠ none := by
    intro os
    induction os with
    | nil => intro s0 s h e; simp only [run, Option.some.injEq] at e; rw [← e]; exact h
    | cons o os ih =>
      intro s0 s h e
      simp only [run] at e
      cases hn : newData s0 o.x o.y o.add with
      | mk s1 er =>
        rw [hn] at e
        cases er with
        | some _ => simp at e
        | none =>
          refine ih s1 s ?_ e
          simp only [newData] at hn
          split at hn
          · simp at hn
          · split at hn
            · simp at hn
            · simp only [Prod.mk.injEq, and_true] at hn
              rw [← hn]; simp
  obtain ⟨a, b⟩ := hops o (by simp)
  obtain ⟨s1, e1, hd1, hr1⟩ := newData_rep (clear d) _ (rep_clear d) o.x o.y o.add a b
  simp only [run, e1] at h1
  have hs1 : s1.x ≠ none := by
    have hn := e1
    simp only [newData] at hn
    split at hn
    · simp at hn
    · split at hn
      · simp at hn
      · simp only [Prod.mk.injEq, and_true] at hn
        rw [← hn]; simp
  exact key os s1 s hs1 h1 hx

example : run (clear (0 : Rat)) [⟨true, [2, 1], [10, 20]⟩, ⟨true, [2, 3], [1, 5]⟩, ⟨false, [3], [7]⟩] =
    some ⟨some [1, 2, 3], some [20, 11, 7], some (.interp1d [1, 2, 3] [20, 11, 7]), 0⟩ := by
  norm_num [run, newData, uniq, joined, clear, unique2listsAdd, addLoop, Counter.set, Counter.get, Counter.mem,
    sort2lists, Common.stableSort, Common.orderedInsert, unique2listsFirst, firstLoop]

/-- **C11.**  The tables built by `add` do not depend on the order of the calls. -/
theorem lut_order_independent (d : K) (ops ops' : List (Op K)) (hp : ops.Perm ops')
    (hadd : ∀ o ∈ ops, o.add = true) (hops : ∀ o ∈ ops, o.x.length = o.y.length ∧ o.x ≠ []) :
    run (clear d) ops = run (clear d) ops' := by
  have hops' : ∀ o ∈ ops', o.x.length = o.y.length ∧ o.x ≠ [] := fun o ho => hops o (hp.mem_iff.mpr ho)
  have hadd' : ∀ o ∈ ops', o.add = true := fun o ho => hadd o (hp.mem_iff.mpr ho)
  obtain ⟨s, h1, h2, h3⟩ := run_rep (clear d) _ (rep_clear d) ops hops
  obtain ⟨s', g1, g2, g3⟩ := run_rep (clear d) _ (rep_clear d) ops' hops'
  rw [h1, g1]
  have hm : table (fun _ => none) (ops.map fun o => (o.add, o.x.zip o.y)) =
      table (fun (_ : K) => none) (ops'.map fun o => (o.add, o.x.zip o.y)) := by
    have gen : ∀ (ops : List (Op K)) (m : K → Option K), (∀ o ∈ ops, o.add = true) →
        table m (ops.map fun o => (o.add, o.x.zip o.y)) = fun k =>
          if k ∈ ops.flatMap (fun o => (o.x.zip o.y).map (·.1)) then
            some ((m k).getD 0 + (ops.map fun o => total k (o.x.zip o.y)).sum) else m k := by
      intro ops
      induction ops with
      | nil => intro m _; simp [table]
      | cons o ops ih =>
        intro m ho
        simp only [List.map_cons, table]
        rw [ih _ (fun o h => ho o (by simp [h]))]
        funext k
        simp only [ho o (by simp), if_true, List.flatMap_cons, List.mem_append, List.sum_cons]
        by_cases h1 : k ∈ (o.x.zip o.y).map (·.1)
        · simp only [h1, if_true, true_or, Option.getD_some]
          split
          · rw [add_assoc]
          · next h2 =>
            have hz : (ops.map fun o => total k (o.x.zip o.y)).sum = 0 := by
              apply List.sum_eq_zero
              intro t ht
              obtain ⟨o', ho', rfl⟩ := List.mem_map.mp ht
              exact total_notMem (fun hc => h2 (List.mem_flatMap.mpr ⟨o', ho', hc⟩))
            rw [hz, add_zero]
        · have ht : total k (o.x.zip o.y) = 0 := total_notMem h1
          simp only [h1, if_false, false_or, ht, zero_add]
    rw [gen _ _ hadd, gen _ _ hadd']
    funext k
    have e1 : (ops.map fun o => total k (o.x.zip o.y)).sum = (ops'.map fun o => total k (o.x.zip o.y)).sum :=
      (hp.map _).sum_eq
    have e2 : k ∈ ops.flatMap (fun o => (o.x.zip o.y).map (·.1)) ↔
        k ∈ ops'.flatMap (fun o => (o.x.zip o.y).map (·.1)) := by
      simp only [List.mem_flatMap]
      exact ⟨fun ⟨o, h, h'⟩ => ⟨o, hp.mem_iff.mp h, h'⟩, fun ⟨o, h, h'⟩ => ⟨o, hp.mem_iff.mpr h, h'⟩⟩
    simp only [e1, e2]
  rw [hm] at h3
  exact congrArg some (rep_ext h3 g3 (h2.trans g2.symm))

/-- **C11.**  An empty table returns the default everywhere. -/
theorem lut_call_empty (d x : K) : call (clear d) x = some d := rfl

section
variable (d : K) (ops : List (Op K)) (s : Lut K)
  (hops : ∀ o ∈ ops, o.x.length = o.y.length ∧ o.x ≠ []) (hrun : run (clear d) ops = some s)
  (xs ys : List K) (hx : s.x = some xs) (hy : s.y = some ys)
include hops hrun hx hy

omit hy in
theorem lut_func (hy : s.y = some ys) : xs.length = ys.length ∧ xs ≠ [] ∧ xs.Pairwise (· < ·) ∧
    ∀ x, call s x = some (if xs.length = 1 then ys.getD 0 0 else interp xs ys x) := by
  obtain ⟨s', h1, h2, h3⟩ := run_rep (clear d) _ (rep_clear d) ops hops
  rw [hrun] at h1
  simp only [Option.some.injEq] at h1
  subst h1
  rcases h3 with ⟨g1, _⟩ | ⟨xs', ys', g1, g2, g3, g4, g5, g6, g7⟩
  · rw [hx] at g1; simp at g1
  · rw [hx] at g1; rw [hy] at g2
    simp only [Option.some.injEq] at g1 g2
    subst g1 g2
    refine ⟨g3, g4, g5, ?_⟩
    intro x
    simp only [call, isempty, hx, Option.isNone_some, Bool.false_eq_true, if_false, g6]
    by_cases h : xs.length = 1
    · simp only [h, if_true]
    · simp only [h, if_false]

/-- **C11.**  Called with one of its keys, a table returns the value stored with it. -/
theorem lut_call_key (i : Nat) (hi : i < xs.length) :
    call s xs[i] = some (ys.getD i 0) := by
  obtain ⟨hl, hne, hs, hc⟩ := lut_func d ops s hops hrun xs ys hx hy
  rw [hc]
  by_cases h1 : xs.length = 1
  · have : i = 0 := by omega
    subst this; simp [h1]
  · rw [if_neg h1]
    have g' : ∀ (j : Nat) (hj : j < ys.length), ys.getD j 0 = ys[j] := fun j hj => by simp [hj]
    rcases Nat.lt_or_ge (i + 1) xs.length with h | h
    · have hm := List.pairwise_iff_getElem.mp hs i (i + 1) hi h (by omega)
      rw [interp_seg hl hs h (le_refl _) (le_of_lt hm), g' i (by omega)]
      simp
    · cases i with
      | zero => omega
      | succ i =>
        have hm := List.pairwise_iff_getElem.mp hs i (i + 1) (by omega) hi (by omega)
        rw [interp_seg hl hs hi (le_of_lt hm) (le_refl _), g' _ (by omega)]
        have : xs[i + 1] - xs[i] ≠ 0 := sub_ne_zero.mpr (ne_of_gt hm)
        rw [div_mul_cancel₀ _ this]; simp

/-- **C11.**  Below the first key the first value is returned, above the last key the last one. -/
theorem lut_call_outside (x : K) :
    (x < xs.getD 0 0 → call s x = some (ys.getD 0 0)) ∧
    (xs.getD (xs.length - 1) 0 < x → call s x = some (ys.getD (xs.length - 1) 0)) := by
  obtain ⟨hl, hne, hs, hc⟩ := lut_func d ops s hops hrun xs ys hx hy
  have hpos : 0 < xs.length := List.length_pos_iff.mpr hne
  rw [hc]
  constructor
  · intro h
    split
    · rfl
    · simp only [interp, if_pos h]
  · intro h
    split
    · next h1 => simp [h1]
    · have h0 : ¬ x < xs.getD 0 0 := by
        rw [not_lt]
        refine le_trans ?_ (le_of_lt h)
        have e0 : xs.getD 0 0 = xs[0] := by simp [hpos]
        have e1 : xs.getD (xs.length - 1) 0 = xs[xs.length - 1] := by
          have : xs.length - 1 < xs.length := by omega
          simp [this]
        rw [e0, e1]
        rcases Nat.eq_zero_or_pos (xs.length - 1) with hz | hz
        · simp [hz]
        · exact le_of_lt (List.pairwise_iff_getElem.mp hs 0 (xs.length - 1) hpos (by omega) hz)
      simp only [interp, if_neg h0, if_pos h]

/-- **C11.**  Between two neighbouring keys the value lies on the straight line through the two
points. -/
theorem lut_call_between (i : Nat) (hi : i + 1 < xs.length) (hi' : i + 1 < ys.length) (x : K)
    (h1 : xs[i] ≤ x) (h2 : x ≤ xs[i + 1]) :
    ∃ v, call s x = some v ∧ (v - ys[i]) * (xs[i + 1] - xs[i]) = (ys[i + 1] - ys[i]) * (x - xs[i]) := by
  obtain ⟨hl, hne, hs, hc⟩ := lut_func d ops s hops hrun xs ys hx hy
  rw [hc, if_neg (by omega), interp_seg hl hs hi h1 h2]
  refine ⟨_, rfl, ?_⟩
  have hm := List.pairwise_iff_getElem.mp hs i (i + 1) (by omega) hi (by omega)
  have hne : xs[i + 1] - xs[i] ≠ 0 := sub_ne_zero.mpr (ne_of_gt hm)
  rw [add_sub_cancel_right]
  field_simp

/-- **C11.**  The value between two neighbouring keys is between the two stored values. -/
theorem lut_call_bounded [IsStrictOrderedRing K] (i : Nat) (hi : i + 1 < xs.length) (hi' : i + 1 < ys.length) (x : K)
    (h1 : xs[i] ≤ x) (h2 : x ≤ xs[i + 1]) :
    ∃ v, call s x = some v ∧ min ys[i] ys[i + 1] ≤ v ∧ v ≤ max ys[i] ys[i + 1] := by
  obtain ⟨hl, hne, hs, hc⟩ := lut_func d ops s hops hrun xs ys hx hy
  rw [hc, if_neg (by omega), interp_seg hl hs hi h1 h2]
  refine ⟨_, rfl, ?_⟩
  have hm := List.pairwise_iff_getElem.mp hs i (i + 1) (by omega) hi (by omega)
  have hpos : 0 < xs[i + 1] - xs[i] := sub_pos.mpr hm
  generalize ys[i + 1] = b
  generalize ys[i] = a
  generalize xs[i + 1] = q at *
  generalize xs[i] = p at *
  have ht : (b - a) / (q - p) * (x - p) + a = a + (b - a) * ((x - p) / (q - p)) := by
    field_simp; ring
  rw [ht]
  have t0 : 0 ≤ (x - p) / (q - p) := div_nonneg (sub_nonneg.mpr h1) (le_of_lt hpos)
  have t1 : (x - p) / (q - p) ≤ 1 := (div_le_one hpos).mpr (by linarith)
  generalize (x - p) / (q - p) = t at t0 t1
  rcases le_total a b with h | h
  · rw [min_eq_left h, max_eq_right h]
    have h3 : 0 ≤ (b - a) * t := mul_nonneg (by linarith) t0
    have h4 : (b - a) * t ≤ (b - a) * 1 := mul_le_mul_of_nonneg_left t1 (by linarith)
    constructor <;> linarith
  · rw [min_eq_right h, max_eq_left h]
    have h3 : 0 ≤ (a - b) * t := mul_nonneg (by linarith) t0
    have h4 : (a - b) * t ≤ (a - b) * 1 := mul_le_mul_of_nonneg_left t1 (by linarith)
    constructor <;> linarith
end

/-- **C11.**  Pickling and copying (`__getstate__`, `__setstate__`) restore every table. -/
theorem lut_restore (d : K) (ops : List (Op K)) (s : Lut K)
    (hops : ∀ o ∈ ops, o.x.length = o.y.length ∧ o.x ≠ []) (hrun : run (clear d) ops = some s) :
    restore s = (s, none) := by
  obtain ⟨s', h1, h2, h3⟩ := run_rep (clear d) _ (rep_clear d) ops hops
  rw [hrun] at h1
  simp only [Option.some.injEq] at h1
  subst h1
  have h3' := h3
  rcases h3 with ⟨g1, g2, g3, g4⟩ | ⟨xs, ys, g1, g2, g3, g4, g5, g6, g7⟩
  · cases s with
    | mk x y f d' =>
      simp only at g1 g2 g3
      subst g1 g2 g3
      rfl
  · obtain ⟨s1, e1, hd1, hr1⟩ := newData_rep (clear s.default) _ (rep_clear s.default) xs ys true g3 g4
    simp only [restore, g1, g2, e1]
    congr 1
    refine rep_ext (m := table (fun _ => none) (ops.map fun o => (o.add, o.x.zip o.y))) ?_ h3' hd1
    have hzf : (xs.zip ys).map Prod.fst = xs := List.map_fst_zip (by omega)
    have hnd : ((xs.zip ys).map (·.1)).Nodup := by
      have e : ((xs.zip ys).map (·.1)) = xs := hzf
      rw [e]; exact g5.imp (fun h => ne_of_lt h)
    have : (fun k => if k ∈ (xs.zip ys).map (·.1) then
        if true then some (((fun _ => none : K → Option K) k).getD 0 + total k (xs.zip ys))
        else firstValue k (xs.zip ys) else (fun _ => none : K → Option K) k) =
        table (fun _ => none) (ops.map fun o => (o.add, o.x.zip o.y)) := by
      funext k
      rw [← g7 k]
      simp only [Option.getD_none, zero_add, if_true]
      rw [total_nodup _ _ hnd]
      cases hf : firstValue k (xs.zip ys) with
      | none => simp [firstValue_none.mp hf]
      | some v =>
        have : k ∈ (xs.zip ys).map (·.1) := by
          by_contra hc
          rw [firstValue_none.mpr hc] at hf
          simp at hf
        simp [this]
    rw [← this]; exact hr1

/-- Adding no points to an empty table raises and leaves a table that is neither empty nor callable. -/
theorem lut_add_nothing (d : K) (add : Bool) (x : K) :
    (newData (clear d) [] [] add).2 = some .valueError ∧
    isempty (newData (clear d) [] [] add).1 = false ∧
    call (newData (clear d) [] [] add).1 x = none := by
  cases add <;> simp [newData, uniq, joined, clear, unique2listsAdd, addLoop, sort2lists,
    Common.stableSort, assigned, isempty, unique2listsFirst, firstLoop, call]

/-- Fewer values than keys: the old values are shifted to the wrong keys without an error. -/
theorem lut_length_mismatch :
    ((newData (newData (clear (0 : Rat)) [1, 2] [10, 20] true).1 [3, 4] [30] true).1).y = some [20, 30, 10] ∧
    ((newData (newData (clear (0 : Rat)) [1, 2] [10, 20] true).1 [3, 4] [30] true).1).x = some [1, 3, 4] := by
  norm_num [newData, uniq, joined, clear, unique2listsAdd, addLoop, Counter.set, Counter.get, Counter.mem,
    sort2lists, Common.stableSort, Common.orderedInsert]

/-- An empty table has length one. -/
theorem lut_len_empty (d : K) : len (clear d) = 1 := rfl

end SC.Lut
