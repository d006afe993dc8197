import Verif.Axis.Props
/-! # C24: cropping and expanding axes, interpolation, equality -/
namespace SC.Axis

/-! ## newstart and newend -/

/-- The axis is the arithmetic progression, and it says so. -/
structure IsProg (a : Ax) (s h : Rat) (n : Nat) : Prop where
  values : a.values = prog s h n
  start : a.start = some s
  stop : a.stop = some (s + ((n - 1 : Nat) : Rat) * h)
  startStep : a.startStep = some h
  endStep : a.endStep = some h

theorem prog_tail (s h : Rat) (n : Nat) : prog s h (n + 1) = s :: prog (s + h) h n := by
  simp only [prog, List.range_succ_eq_map, List.map_cons, List.map_map]
  congr 1
  · simp
  · apply List.map_congr_left; intro i _; simp; ring

theorem prog_append (s h : Rat) (n m : Nat) :
    prog s h n ++ prog (s + n * h) h m = prog s h (n + m) := by
  simp only [prog, List.range_add, List.map_append, List.map_map]
  congr 1
  apply List.map_congr_left; intro i _; simp; ring

theorem prog_drop (s h : Rat) (n k : Nat) (hk : k ≤ n) : (prog s h n).drop k = prog (s + k * h) h (n - k) := by
  have := prog_append s h k (n - k)
  rw [show k + (n - k) = n by omega] at this
  rw [← this, List.drop_append_of_le_length (by simp [prog]), List.drop_of_length_le (by simp [prog])]
  rfl

theorem prog_take (s h : Rat) (n k : Nat) (hk : k ≤ n) : (prog s h n).take k = prog s h k := by
  have := prog_append s h k (n - k)
  rw [show k + (n - k) = n by omega] at this
  rw [← this, List.take_append_of_le_length (by simp [prog]), List.take_of_length_le (by simp [prog])]

theorem secondDiff_prog (s h : Rat) (n : Nat) : ∀ d ∈ secondDiff (prog s h n), d = 0 := by
  intro d hd
  obtain ⟨i, hi⟩ := List.getElem?_of_mem hd
  have hlt : i < (secondDiff (prog s h n)).length := (List.getElem?_eq_some_iff.1 hi).1
  have hg : (secondDiff (prog s h n)).getD i 0 = d := by simp [List.getD, hi]
  rw [secondDiff_length, prog_length] at hlt
  rw [← hg, secondDiff_get _ _ (by rw [prog_length]; omega), prog_get _ _ _ _ (by omega), prog_get _ _ _ _ (by omega),
    prog_get _ _ _ _ (by omega), abs_eq_zero]
  push_cast; ring

/-- **C24.**  An arithmetic progression of at least two points becomes a regular axis that says so. -/
theorem simplify_prog (s h : Rat) (n : Nat) : ∃ a, simplify 0 (prog s h (n + 2)) = some a ∧ IsProg a s h (n + 2) := by
  have hne : ((n : Rat) + 1) ≠ 0 := by positivity
  have hreg : simplify 0 (prog s h (n + 2)) =
      (mkRegular s (s + (n + 1 : Nat) * h) ((n + 1 : Nat) : Int)).map .regular := by
    cases n with
    | zero => simp [prog, List.range_succ, simplify]
    | succ n =>
      have hl : (prog s h (n + 1 + 2)).length = n + 3 := by rw [prog_length]
      have hall : (secondDiff (prog s h (n + 1 + 2))).all (fun d => decide (d ≤ 0)) = true := by
        rw [List.all_eq_true]
        intro d hd
        rw [secondDiff_prog s h _ d hd]; simp
      have hlast : (prog s h (n + 1 + 2)).getLastD 0 = s + (n + 1 + 1 : Nat) * h := by
        rw [getLastD_getD, hl, prog_get _ _ _ _ (by omega)]; rfl
      have hsz : (((prog s h (n + 1 + 2)).length : Int) - 1) = ((n + 1 + 1 : Nat) : Int) := by rw [hl]; omega
      rw [← hlast, ← hsz]
      generalize hg : prog s h (n + 1 + 2) = l at *
      have hg2 : l = s :: (s + h) :: (s + h + h) :: prog (s + h + h + h) h n := by
        rw [← hg, prog_tail, prog_tail, prog_tail]
      rw [hg2] at hall ⊢
      simp only [simplify, hall, if_true]
  rw [hreg, regular_inc_agree _ _ _ (by omega)]
  refine ⟨_, rfl, ?_⟩
  have hst : (s + ((n + 1 : Nat) : Rat) * h - s) / ((n + 1 : Nat) : Rat) = h := by push_cast; field_simp; ring
  rw [hst]
  obtain ⟨_, _, _, g4, _⟩ := regularInc_consistent s h (n + 1)
  refine ⟨g4, rfl, ?_, rfl, rfl⟩
  rw [show n + 2 - 1 = n + 1 by omega]
  simp only [Ax.stop, mkRegularInc]; push_cast; congr 1; ring

theorem newstart_eq {a : Ax} {s h : Rat} {n : Nat} (ha : IsProg a s h n) (hh : h ≠ 0) (v : Rat) (k : Int)
    (hk : k = ⌈(s - v) / h⌉) :
    newstart a v = if (n : Int) + k ≤ 0 then some none else
      (simplify 0 (prog (s - k * h) h ((n : Int) + k).toNat)).map some := by
  have hx : (if 0 < k then (((List.range k.toNat).map fun (i : Nat) => s - ((i + 1 : Nat) : Rat) * h).reverse) ++ a.values
        else if k < 0 then a.values.drop (-k).toNat else a.values) =
      if (n : Int) + k ≤ 0 then [] else prog (s - k * h) h ((n : Int) + k).toNat := by
    by_cases h0 : 0 < k
    · obtain ⟨m, rfl⟩ : ∃ m : Nat, k = m := ⟨k.toNat, by omega⟩
      have hn : ¬ ((n : Int) + m ≤ 0) := by omega
      rw [if_pos h0, if_neg hn, ha.values]
      have e : ((n : Int) + m).toNat = m + n := by omega
      rw [e, ← prog_append]
      have e2 : s - ((m : Int) : Rat) * h + (m : Rat) * h = s := by push_cast; ring
      rw [e2]
      congr 1
      rw [Int.toNat_natCast]
      apply ext_getD
      · simp [prog]
      · intro i hi
        simp only [List.length_reverse, List.length_map, List.length_range] at hi
        rw [prog_get _ _ _ _ hi]
        have hj : m - 1 - i < m := by omega
        simp only [List.getD, List.getElem?_reverse, List.length_map, List.length_range, hi, List.getElem?_map, List.getElem?_range, hj, Option.map_some, Option.getD_some]
        have : ((m - 1 - i : Nat) : Rat) = (m : Rat) - 1 - i := by
          rw [Nat.cast_sub (by omega), Nat.cast_sub (by omega)]; simp
        push_cast
        rw [this]; ring
    · rw [if_neg h0]
      obtain ⟨m, hm⟩ : ∃ m : Nat, k = -(m : Int) := ⟨(-k).toNat, by omega⟩
      subst hm
      by_cases h1 : -(m : Int) < 0
      · rw [if_pos h1, ha.values]
        have e : (- -(m : Int)).toNat = m := by omega
        rw [e]
        by_cases h2 : (n : Int) + -(m : Int) ≤ 0
        · rw [if_pos h2, List.drop_of_length_le (by rw [prog_length]; omega)]
        · rw [if_neg h2, prog_drop _ _ _ _ (by omega)]
          have e1 : ((n : Int) + -(m : Int)).toNat = n - m := by omega
          rw [e1]; congr 1; push_cast; ring
      · have : m = 0 := by omega
        subst this
        rw [if_neg h1, ha.values]
        by_cases h2 : (n : Int) + -((0 : Nat) : Int) ≤ 0
        · have : n = 0 := by omega
          subst this; simp [prog]
        · rw [if_neg h2]
          have e1 : ((n : Int) + -((0 : Nat) : Int)).toNat = n := by omega
          rw [e1]; congr 1; simp
  rw [newstart, ha.startStep, ha.start]
  simp only [hh, if_false, ← hk, hx]
  by_cases h2 : (n : Int) + k ≤ 0
  · simp [h2]
  · have hne : prog (s - k * h) h ((n : Int) + k).toNat ≠ [] := by
      intro h0
      have := congrArg List.length h0
      rw [prog_length] at this
      simp at this; omega
    simp only [h2, if_false, hne]
    cases simplify 0 (prog (s - k * h) h ((n : Int) + k).toNat) <;> rfl

/-- **C24.**  Moving the start of a regular axis (at least one step, step not zero): the new axis lies on
the same grid, keeps its end, begins at the last grid point at or before the new start, and there is
none exactly when that point lies beyond the end. -/
theorem newstart_spec {a : Ax} {s h : Rat} {n : Nat} (ha : IsProg a s h n) (hh : h ≠ 0) (v : Rat) :
    ∃ k : Int, 0 ≤ (v - (s - k * h)) / h ∧ (v - (s - k * h)) / h < 1 ∧
      ((n : Int) + k ≤ 0 → newstart a v = some none) ∧
      (0 < (n : Int) + k → ∃ b, newstart a v = some (some b) ∧ b.values = prog (s - k * h) h ((n : Int) + k).toNat ∧
        (2 ≤ (n : Int) + k → IsProg b (s - k * h) h ((n : Int) + k).toNat)) := by
  have e : ∀ k : Int, (v - (s - k * h)) / h = k - (s - v) / h := by
    intro k; field_simp; ring
  refine ⟨⌈(s - v) / h⌉, ?_, ?_, ?_, ?_⟩
  · rw [e]; linarith [Int.le_ceil ((s - v) / h)]
  · rw [e]; linarith [Int.ceil_lt_add_one ((s - v) / h)]
  · intro hk; rw [newstart_eq ha hh v _ rfl, if_pos hk]
  · intro hk
    rw [newstart_eq ha hh v _ rfl, if_neg (by omega)]
    generalize ⌈(s - v) / h⌉ = k at *
    by_cases h2 : 2 ≤ (n : Int) + k
    · obtain ⟨m, hm⟩ : ∃ m : Nat, ((n : Int) + k).toNat = m + 2 := ⟨((n : Int) + k).toNat - 2, by omega⟩
      rw [hm]
      obtain ⟨b, hb, hp⟩ := simplify_prog (s - k * h) h m
      exact ⟨b, by rw [hb]; rfl, hp.values, fun _ => hp⟩
    · obtain ⟨b, hb, hv⟩ := simplify_exact (prog (s - k * h) h ((n : Int) + k).toNat) (by
        intro h0
        have := congrArg List.length h0
        rw [prog_length] at this
        simp at this; omega)
      exact ⟨b, by rw [hb]; rfl, hv, fun h => absurd h h2⟩

theorem newend_eq {a : Ax} {s h : Rat} {n : Nat} (ha : IsProg a s h n) (hn : 0 < n) (hh : h ≠ 0) (v : Rat) (k : Int)
    (hk : k = ⌈(v - (s + ((n - 1 : Nat) : Rat) * h)) / h⌉) :
    newend a v = if (n : Int) + k ≤ 0 then some none else
      (simplify 0 (prog s h ((n : Int) + k).toNat)).map some := by
  have hx : (if 0 < k then a.values ++ (List.range k.toNat).map fun (i : Nat) => s + ((n - 1 : Nat) : Rat) * h + ((i + 1 : Nat) : Rat) * h
        else if k < 0 then a.values.take (a.values.length - (-k).toNat) else a.values) =
      if (n : Int) + k ≤ 0 then [] else prog s h ((n : Int) + k).toNat := by
    by_cases h0 : 0 < k
    · obtain ⟨m, rfl⟩ : ∃ m : Nat, k = m := ⟨k.toNat, by omega⟩
      have hnn : ¬ ((n : Int) + m ≤ 0) := by omega
      rw [if_pos h0, if_neg hnn, ha.values]
      have e : ((n : Int) + m).toNat = n + m := by omega
      rw [e, ← prog_append, Int.toNat_natCast]
      congr 1
      apply List.map_congr_left
      intro i _
      have : ((n - 1 : Nat) : Rat) = (n : Rat) - 1 := by rw [Nat.cast_sub (by omega)]; simp
      push_cast
      rw [this]; ring
    · rw [if_neg h0]
      obtain ⟨m, hm⟩ : ∃ m : Nat, k = -(m : Int) := ⟨(-k).toNat, by omega⟩
      subst hm
      by_cases h1 : -(m : Int) < 0
      · rw [if_pos h1, ha.values, prog_length]
        have e : (- -(m : Int)).toNat = m := by omega
        rw [e]
        by_cases h2 : (n : Int) + -(m : Int) ≤ 0
        · rw [if_pos h2, show n - m = 0 by omega, List.take_zero]
        · rw [if_neg h2, prog_take _ _ _ _ (by omega)]
          congr 1; omega
      · have : m = 0 := by omega
        subst this
        rw [if_neg h1, ha.values, if_neg (by omega)]
        congr 1
  rw [newend, ha.endStep, ha.stop]
  simp only [hh, if_false, ← hk, hx]
  by_cases h2 : (n : Int) + k ≤ 0
  · simp [h2]
  · have hne : prog s h ((n : Int) + k).toNat ≠ [] := by
      intro h0
      have := congrArg List.length h0
      rw [prog_length] at this
      simp at this; omega
    simp only [h2, if_false, hne]
    cases simplify 0 (prog s h ((n : Int) + k).toNat) <;> rfl

/-- **C24.**  Moving the end: the same, the axis ends at the first grid point at or after the new
end. -/
theorem newend_spec {a : Ax} {s h : Rat} {n : Nat} (ha : IsProg a s h n) (hn : 0 < n) (hh : h ≠ 0) (v : Rat) :
    ∃ k : Int, 0 ≤ (s + ((n : Rat) - 1 + k) * h - v) / h ∧ (s + ((n : Rat) - 1 + k) * h - v) / h < 1 ∧
      ((n : Int) + k ≤ 0 → newend a v = some none) ∧
      (0 < (n : Int) + k → ∃ b, newend a v = some (some b) ∧ b.values = prog s h ((n : Int) + k).toNat ∧
        (2 ≤ (n : Int) + k → IsProg b s h ((n : Int) + k).toNat)) := by
  have hn1 : ((n - 1 : Nat) : Rat) = (n : Rat) - 1 := by rw [Nat.cast_sub (by omega)]; simp
  have e : ∀ k : Int, (s + ((n : Rat) - 1 + k) * h - v) / h = k - (v - (s + ((n - 1 : Nat) : Rat) * h)) / h := by
    intro k; rw [hn1]; field_simp; ring
  refine ⟨⌈(v - (s + ((n - 1 : Nat) : Rat) * h)) / h⌉, ?_, ?_, ?_, ?_⟩
  · rw [e]; linarith [Int.le_ceil ((v - (s + ((n - 1 : Nat) : Rat) * h)) / h)]
  · rw [e]; linarith [Int.ceil_lt_add_one ((v - (s + ((n - 1 : Nat) : Rat) * h)) / h)]
  · intro hk; rw [newend_eq ha hn hh v _ rfl, if_pos hk]
  · intro hk
    rw [newend_eq ha hn hh v _ rfl, if_neg (by omega)]
    generalize ⌈(v - (s + ((n - 1 : Nat) : Rat) * h)) / h⌉ = k at *
    by_cases h2 : 2 ≤ (n : Int) + k
    · obtain ⟨m, hm⟩ : ∃ m : Nat, ((n : Int) + k).toNat = m + 2 := ⟨((n : Int) + k).toNat - 2, by omega⟩
      rw [hm]
      obtain ⟨b, hb, hp⟩ := simplify_prog s h m
      exact ⟨b, by rw [hb]; rfl, hp.values, fun _ => hp⟩
    · obtain ⟨b, hb, hv⟩ := simplify_exact (prog s h ((n : Int) + k).toNat) (by
        intro h0
        have := congrArg List.length h0
        rw [prog_length] at this
        simp at this; omega)
      exact ⟨b, by rw [hb]; rfl, hv, fun h => absurd h h2⟩

/-- **C24.**  New limits of a regular axis with `v ≤ w` in the direction of the axis, `v` at or before
the point before the last: the axis on the same grid whose first and last points enclose the limits as
tightly as possible. -/
theorem newlimits_spec {a : Ax} {s h : Rat} {n : Nat} (ha : IsProg a s h n) (hn : 0 < n) (hh : h ≠ 0)
    (v w : Rat) (hvw : 0 ≤ (w - v) / h) (hv : (v - s) / h ≤ (n : Rat) - 2) :
    ∃ (b : Ax) (s' : Rat) (m : Nat) (k : Int), newlimits a v w = some (some b) ∧ b.values = prog s' h (m + 1) ∧
      s' = s - k * h ∧ 0 ≤ (v - s') / h ∧ (v - s') / h < 1 ∧
      0 ≤ (s' + m * h - w) / h ∧ (s' + m * h - w) / h < 1 := by
  obtain ⟨k, h1, h2, _, h4⟩ := newstart_spec ha hh v
  have e1 : (v - (s - k * h)) / h = (v - s) / h + k := by field_simp; ring
  rw [e1] at h1 h2
  have hk2 : (2 : Int) ≤ (n : Int) + k := by
    have : (2 : Rat) ≤ (n : Rat) + k := by linarith
    exact_mod_cast this
  obtain ⟨b, hb, hbv, hbp⟩ := h4 (by omega)
  have hbp := hbp hk2
  obtain ⟨N, hN⟩ : ∃ N : Nat, ((n : Int) + k).toNat = N := ⟨_, rfl⟩
  rw [hN] at hbp hbv
  have hN2 : 2 ≤ N := by omega
  obtain ⟨j, g1, g2, g3, g4⟩ := newend_spec hbp (by omega) hh w
  have e2 : (s - k * h + ((N : Rat) - 1 + j) * h - w) / h = (N : Rat) - 1 + j + ((s - k * h - v) / h - (w - v) / h) := by
    field_simp; ring
  have e3 : (s - k * h - v) / h = - ((v - s) / h + k) := by field_simp; ring
  have hpos : 0 < (N : Int) + j := by
    have : (0 : Rat) < (N : Rat) + j := by
      rw [e2, e3] at g1; linarith
    exact_mod_cast this
  obtain ⟨c, hc, hcv, _⟩ := g4 hpos
  obtain ⟨m, hm⟩ : ∃ m : Nat, ((N : Int) + j).toNat = m + 1 := ⟨((N : Int) + j).toNat - 1, by omega⟩
  have hmr : (m : Rat) = (N : Rat) - 1 + j := by
    have : (m : Int) = (N : Int) - 1 + j := by omega
    exact_mod_cast this
  refine ⟨c, s - k * h, m, k, ?_, by rw [hcv, hm], rfl, ?_, ?_, ?_, ?_⟩
  · rw [newlimits, hb]; exact hc
  · rw [e1]; exact h1
  · rw [e1]; exact h2
  · rw [hmr]; exact g1
  · rw [hmr]; exact g2

/-! ### where the code departs -/

/-- The crop of an irregular axis counts steps of the size of the first one: a start inside of the range
may leave nothing. -/
theorem newstart_irregular : newstart (.plain [0, 1, 10]) 5 = some none := by
  norm_num [newstart, Ax.startStep, Ax.start, Ax.values]

/-- A start beyond the point before the last leaves one number, whose step is zero, so that setting the
end raises. -/
theorem newlimits_raises : newlimits (.regular (mkRegularInc 0 1 2)) 2 2 = none := by
  decide +kernel

/-! ## interpolation -/

/-- **C24.**  What interpolate gives is a translation, or a reflection, of old and new positions alike;
a strictly monotonic axis becomes strictly increasing. -/
theorem interpolate_spec (xs : List Rat) (hx : 2 ≤ xs.length) (new : List Rat) :
    ∃ c σ : Rat, (σ = 1 ∨ σ = -1) ∧
      interpolate xs (some new) = some (xs.map (fun x => c + σ * x), new.map (fun x => c + σ * x)) ∧
      interpolate xs none = some (xs.map (fun x => c + σ * x), xs.map (fun x => c + σ * x)) ∧
      (xs.Pairwise (· < ·) ∨ xs.Pairwise (· > ·) → (xs.map (fun x => c + σ * x)).Pairwise (· < ·)) := by
  match xs, hx with
  | x :: y :: xs, _ =>
    by_cases hyx : y < x
    · refine ⟨(x :: y :: xs).foldl max x, -1, Or.inr rfl, ?_, ?_, ?_⟩
      · simp only [interpolate, hyx, if_true]
        simp only [neg_mul, one_mul, ← sub_eq_add_neg]
      · simp only [interpolate, hyx, if_true]
        simp only [neg_mul, one_mul, ← sub_eq_add_neg]
      · rintro (h | h)
        · have := (List.pairwise_cons.1 h).1 y (by simp)
          linarith
        · rw [List.pairwise_map]
          exact h.imp (by intro a b hab; linarith)
    · refine ⟨0, 1, Or.inl rfl, ?_, ?_, ?_⟩
      · simp [interpolate, hyx]
      · simp [interpolate, hyx]
      · rintro (h | h)
        · rw [List.pairwise_map]
          exact h.imp (by intro a b hab; linarith)
        · have := (List.pairwise_cons.1 h).1 y (by simp)
          exact absurd this hyx

theorem interpolate_single (x : Rat) (new : Option (List Rat)) : interpolate [x] new = none := rfl

/-! ## equality -/

/-- **C24.**  Axes are equal exactly when they have as many values, NaN at the same positions, and all
other values within the precision of the first one. -/
theorem axisEq_iff (p : Rat) (xs ys : List (Option Rat)) :
    axisEq p xs ys = true ↔ List.Forall₂ (fun a b => match a, b with
      | none, none => True | some a, some b => |a - b| ≤ p | _, _ => False) xs ys := by
  induction xs generalizing ys with
  | nil => cases ys <;> simp [axisEq]
  | cons x xs ih =>
    cases ys with
    | nil => simp [axisEq]
    | cons y ys =>
      rw [List.forall₂_cons, ← ih ys]
      cases x <;> cases y <;> simp [axisEq, List.filterMap_cons]
      tauto

theorem axisEq_refl (p : Rat) (hp : 0 ≤ p) (xs : List (Option Rat)) : axisEq p xs xs = true := by
  rw [axisEq_iff, List.forall₂_same]
  intro x _
  cases x <;> simp [hp]

theorem axisEq_symm (p : Rat) (xs ys : List (Option Rat)) : axisEq p xs ys = axisEq p ys xs := by
  have h : ∀ xs ys, axisEq p xs ys = true → axisEq p ys xs = true := by
    intro xs ys
    rw [axisEq_iff, axisEq_iff]
    intro h
    apply h.flip.imp
    intro a b hab
    cases a <;> cases b <;> simp_all [abs_sub_comm]
  cases h1 : axisEq p xs ys
  · cases h2 : axisEq p ys xs
    · rfl
    · exact absurd (h _ _ h2) (by simp [h1])
  · exact (h _ _ h1).symm

/-- Without precision it is equality. -/
theorem axisEq_zero (xs ys : List (Option Rat)) : axisEq 0 xs ys = true ↔ xs = ys := by
  rw [axisEq_iff]
  constructor
  · intro h
    rw [← List.forall₂_eq_eq_eq]
    apply h.imp
    intro a b hab
    cases a <;> cases b <;> simp_all [sub_eq_zero]
  · rintro rfl
    rw [List.forall₂_same]
    intro x _
    cases x <;> simp

/-- Only the precision of the first axis counts, so that equality is not symmetric, and it is not
transitive. -/
theorem axisEq_not_equivalence :
    (axisEq 1 [some 0] [some 1] = true ∧ axisEq 0 [some 1] [some 0] = false) ∧
      (axisEq 1 [some 0] [some 1] = true ∧ axisEq 1 [some 1] [some 2] = true ∧ axisEq 1 [some 0] [some 2] = false) := by
  decide +kernel

/-! ## concrete cases -/

example : mkRegular 1 4 3 = some ⟨1, 4, 1, 4, [1, 2, 3, 4]⟩ := by decide +kernel
example : IsProg (.inc (mkRegularInc 1 2 3)) 1 2 4 := by
  refine ⟨?_, rfl, ?_, rfl, rfl⟩
  · exact (regularInc_consistent 1 2 3).2.2.2.1
  · norm_num [Ax.stop, mkRegularInc]
example : (mkSegments [0, 2, 8] [2, 3]).map (·.values) = some [0, 1, 2, 4, 6, 8] := by decide +kernel
example : simplify 0 [0, 1, 2, 3, 5, 7, 9] =
    some (.segments ⟨[0, 3, 9], [3, 3], [1, 2], [0, 1, 2, 3, 5, 7, 9]⟩) := by decide +kernel
example : (Seg.setSteps ⟨[0, 3, 9], [3, 3], [1, 2], [0, 1, 2, 3, 5, 7, 9]⟩ [1, 3]).map (·.nsteps) =
    some [3, 2] := by decide +kernel
example : closest [0, 1, 3] (21 / 10) = some 2 := by decide +kernel
example : (newstart (.inc (mkRegularInc 0 1 3)) (3 / 2)).map (Option.map (·.values)) =
    some (some [1, 2, 3]) := by decide +kernel
example : (newlimits (.inc (mkRegularInc 0 1 3)) (-1 / 2) (3 / 2)).map (Option.map (·.values)) =
    some (some [-1, 0, 1, 2]) := by decide +kernel
example : interpolate [3, 2, 0] (some [1]) = some ([0, 1, 3], [2]) := by decide +kernel

end SC.Axis
