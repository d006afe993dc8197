import Verif.Scan.Spec
import Verif.Axis.Props
import Mathlib.Tactic.FieldSimp
import Mathlib.Tactic.Ring
import Mathlib.Tactic.Linarith
/-! # C40: scan geometry -/
namespace SC.Scan

theorem map_range_getD (f : Nat → Rat) {n i : Nat} (h : i < n) : ((List.range n).map f).getD i 0 = f i := by
  simp [List.getD, h]

theorem map_range_head (f : Nat → Rat) {n : Nat} (h : 0 < n) : ((List.range n).map f).head? = some (f 0) := by
  cases n with
  | zero => omega
  | succ n => simp [List.range_succ_eq_map]

theorem map_range_last (f : Nat → Rat) (n : Nat) : ((List.range (n + 1)).map f).getLast? = some (f n) := by
  simp [List.range_succ]

theorem zaplineValues_eq (s e : Rat) {n : Nat} (h : n ≠ 0) : zaplineValues s e n =
    some ((List.range n).map fun (i : Nat) => s + (e - s) / (n : Rat) / 2 + (e - s) / (n : Rat) * (i : Rat)) := by
  simp only [zaplineValues, h, if_false]

theorem zaplineRange_eq (s e : Rat) {n : Nat} (h : n ≠ 0) : zaplineRange s e n =
    some (s + (e - s) / (n : Rat) / 2, e - (e - s) / (n : Rat) / 2) := by
  simp only [zaplineRange, h, if_false]

theorem zaplineScansize_eq (s e : Rat) {n : Nat} (h : n ≠ 0) : zaplineScansize s e n =
    some (e - s - (e - s) / (n : Rat)) := by
  simp only [zaplineScansize, h, if_false]

theorem ascanValues_eq (s e : Rat) {n : Nat} (h : n ≠ 0) : ascanValues s e n =
    some ((List.range (n + 1)).map fun (i : Nat) => s + (e - s) / (n : Rat) * (i : Rat)) := by
  simp only [ascanValues, h, if_false]

theorem ascanPixelsize_eq (s e : Rat) {n : Nat} (h : n ≠ 0) : ascanPixelsize s e n = some ((e - s) / (n : Rat)) := by
  simp only [ascanPixelsize, h, if_false]

theorem zapscan_eq (s e : Rat) {n : Nat} (h : n ≠ 0) : Axis.zapscan s e n =
    some (Axis.mkRegularInc (s + (e - s) / ((n : Int) : Rat) / 2) ((e - s) / ((n : Int) : Rat)) ((n : Int) - 1)) := by
  have hz : ((n : Int)) ≠ 0 := by exact_mod_cast h
  simp only [Axis.zapscan, hz, if_false]

theorem subFast_eq (v : List Rat) {a b : Nat} (h : ¬ (gap a b + 1 = 1)) : subFast v a b =
    some ⟨v.getD a 0 + (v.getD b 0 - v.getD a 0) / (((gap a b + 1 : Nat) : Rat) - 1) / 2,
      v.getD b 0 + (v.getD b 0 - v.getD a 0) / (((gap a b + 1 : Nat) : Rat) - 1) / 2, gap a b + 1⟩ := by
  simp only [subFast, h, if_false]

/-- **zapline**: the values are as many as there are pixels, go from the first to the last pixel
centre as given by `zapline_range`, span `zapline_scansize` and are equally spaced; the outer
edges of the first and last pixel are the start and end of the command. -/
theorem zapline_consistent (s e : Rat) (n : Nat) (hn : 0 < n) :
    ∃ v a b h size, zaplineValues s e n = some v ∧ zaplineRange s e n = some (a, b) ∧
      zaplineScansize s e n = some size ∧ Describes v n a b h ∧ size = b - a ∧
      a - h / 2 = s ∧ b + h / 2 = e ∧ h * n = e - s := by
  have h0 : n ≠ 0 := by omega
  have hq : (n : Rat) ≠ 0 := by exact_mod_cast h0
  refine ⟨_, _, _, (e - s) / n, _, zaplineValues_eq s e h0, zaplineRange_eq s e h0, zaplineScansize_eq s e h0, ⟨by simp, ?_, ?_, ?_⟩, by ring, by ring, by ring, by field_simp⟩
  · rw [map_range_head _ hn]; simp
  · obtain ⟨m, rfl⟩ : ∃ m, n = m + 1 := ⟨n - 1, by omega⟩
    rw [map_range_last]
    congr 1
    have : ((m : Rat) + 1) ≠ 0 := by exact_mod_cast h0
    push_cast
    field_simp
    ring
  · intro i hi
    rw [List.length_map, List.length_range] at hi
    rw [map_range_getD _ hi, map_range_getD _ (by omega)]
    push_cast
    ring

/-- The values of a `zapline` are those of the axis made for it (`zapscan` of process/axis.py). -/
theorem zapline_axis (s e : Rat) (n : Nat) (hn : 0 < n) :
    ∃ a v, Axis.zapscan s e n = some a ∧ zaplineValues s e n = some v ∧ a.values = v := by
  have h0 : n ≠ 0 := by omega
  refine ⟨_, _, zapscan_eq s e h0, zaplineValues_eq s e h0, ?_⟩
  simp only [Axis.mkRegularInc, Int.sub_add_cancel, Int.toNat_natCast]
  apply List.map_congr_left
  intro i _
  push_cast
  ring

/-- **ascan**: the values are one more than the steps, go from the start to the end
(`ascan_range`), span `ascan_scansize` and are spaced by `ascan_pixelsize`. -/
theorem ascan_consistent (s e : Rat) (n : Nat) (hn : 0 < n) :
    ∃ v h, ascanValues s e n = some v ∧ ascanPixelsize s e n = some h ∧
      Describes v (n + 1) (ascanRange s e n).1 (ascanRange s e n).2 h ∧
      ascanScansize s e n = (ascanRange s e n).2 - (ascanRange s e n).1 ∧
      (ascanRange s e n).1 = s ∧ (ascanRange s e n).2 = e := by
  have h0 : n ≠ 0 := by omega
  have hq : (n : Rat) ≠ 0 := by exact_mod_cast h0
  refine ⟨_, _, ascanValues_eq s e h0, ascanPixelsize_eq s e h0,
    ⟨by simp, ?_, ?_, ?_⟩, rfl, rfl, rfl⟩
  · rw [map_range_head _ (by omega)]; simp [ascanRange]
  · rw [map_range_last]
    congr 1
    simp only [ascanRange]
    field_simp
    ring
  · intro i hi
    rw [List.length_map, List.length_range] at hi
    rw [map_range_getD _ hi, map_range_getD _ (by omega)]
    push_cast
    ring

/-- The values of an `ascan` are those of the axis made for it. -/
theorem ascan_axis (s e : Rat) (n : Nat) (hn : 0 < n) :
    ∃ a v, Axis.ascan s e n = some a ∧ ascanValues s e n = some v ∧ a.values = v := by
  obtain ⟨a, h1, h2, h3, h4⟩ := Axis.ascan_spec s e n hn
  have h0 : n ≠ 0 := by omega
  refine ⟨a, _, h1, ascanValues_eq s e h0, ?_⟩
  rw [h3]
  simp only [Axis.prog]
  apply List.map_congr_left
  intro i _
  ring

/-- Without pixels or steps nothing is computed. -/
theorem zapline_empty (s e : Rat) : zaplineValues s e 0 = none ∧ zaplineRange s e 0 = none ∧
    zaplineScansize s e 0 = none ∧ ascanValues s e 0 = none ∧ ascanPixelsize s e 0 = none := by
  simp [zaplineValues, zaplineRange, zaplineScansize, ascanValues, ascanPixelsize]

/-- **Finding**: `zapline_pixelsize` is the spacing of the pixels only for a scan that does not
move. -/
theorem zapline_pixelsize_iff (s e : Rat) (n : Nat) (hn : 1 < n) (v : List Rat) (hv : zaplineValues s e n = some v) :
    (∃ h, zaplinePixelsize s e n = some h ∧ Spaced h v) ↔ s = e := by
  have h0 : n ≠ 0 := by omega
  have hq : (n : Rat) ≠ 0 := by exact_mod_cast h0
  have h1 : (n : Rat) - 1 ≠ 0 := by
    intro h
    have : (n : Rat) = (1 : Nat) := by push_cast; linarith
    have : n = 1 := by exact_mod_cast this
    omega
  simp only [zaplineValues, h0, if_false, Option.some.injEq] at hv
  subst hv
  simp only [zaplinePixelsize, h1, if_false, Option.some.injEq]
  constructor
  · rintro ⟨h, rfl, hs⟩
    have := hs 0 (by simp; omega)
    rw [map_range_getD _ (by omega), map_range_getD _ (by omega)] at this
    push_cast at this
    have h2 : (e - s) / (n : Rat) = (e - s) / ((n : Rat) - 1) := by linarith
    rw [div_eq_div_iff hq h1] at h2
    linarith
  · rintro rfl
    refine ⟨_, rfl, ?_⟩
    intro i hi
    rw [List.length_map, List.length_range] at hi
    rw [map_range_getD _ hi, map_range_getD _ (by omega)]
    simp

/-- **Sub-map**: the chosen pixels are nearest to the borders of the wanted range. -/
theorem subIndices_nearest (v : List Rat) (pos half : Rat) (hv : v ≠ []) :
    ∃ a b, subIndices v pos half = some (a, b) ∧ a < v.length ∧ b < v.length ∧
      (∀ j, j < v.length → |v.getD a 0 - (pos - half)| ≤ |v.getD j 0 - (pos - half)|) ∧
      (∀ j, j < v.length → |v.getD b 0 - (pos + half)| ≤ |v.getD j 0 - (pos + half)|) := by
  obtain ⟨a, h1, h2, h3, -⟩ := Axis.closest_spec v (pos - half) hv
  obtain ⟨b, h4, h5, h6, -⟩ := Axis.closest_spec v (pos + half) hv
  exact ⟨a, b, by simp only [subIndices, h1, h4], h2, h5, h3, h6⟩

/-- **Sub-map**: the plan is made from the pixels nearest to the borders of the wanted ranges of
the two motors. -/
theorem submap_spec (fast slow : Line) (pf hf ps hs : Rat) (h1 : 0 < fast.n) (h2 : 0 < slow.n) :
    ∃ fv sv fa fb sa sb, zaplineValues fast.start fast.stop fast.n = some fv ∧
      ascanValues slow.start slow.stop slow.n = some sv ∧
      submapPlan fast slow pf hf ps hs = some ⟨subFast fv fa fb, subSlow sv sa sb, subSlice fa fb, subSlice sa sb⟩ ∧
      fa < fv.length ∧ fb < fv.length ∧ sa < sv.length ∧ sb < sv.length ∧
      (∀ j, j < fv.length → |fv.getD fa 0 - (pf - hf)| ≤ |fv.getD j 0 - (pf - hf)|) ∧
      (∀ j, j < fv.length → |fv.getD fb 0 - (pf + hf)| ≤ |fv.getD j 0 - (pf + hf)|) ∧
      (∀ j, j < sv.length → |sv.getD sa 0 - (ps - hs)| ≤ |sv.getD j 0 - (ps - hs)|) ∧
      (∀ j, j < sv.length → |sv.getD sb 0 - (ps + hs)| ≤ |sv.getD j 0 - (ps + hs)|) := by
  have e1 := zaplineValues_eq fast.start fast.stop (Nat.pos_iff_ne_zero.mp h1)
  have e2 := ascanValues_eq slow.start slow.stop (Nat.pos_iff_ne_zero.mp h2)
  obtain ⟨fa, fb, e3, a1, a2, a3, a4⟩ := subIndices_nearest ((List.range fast.n).map _) pf hf
    (by intro h; have := congrArg List.length h; simp at this; omega : ((List.range fast.n).map fun (i : Nat) =>
      fast.start + (fast.stop - fast.start) / (fast.n : Rat) / 2 + (fast.stop - fast.start) / (fast.n : Rat) * (i : Rat)) ≠ [])
  obtain ⟨sa, sb, e4, b1, b2, b3, b4⟩ := subIndices_nearest ((List.range (slow.n + 1)).map _) ps hs
    (by intro h; have := congrArg List.length h; simp at this : ((List.range (slow.n + 1)).map fun (i : Nat) =>
      slow.start + (slow.stop - slow.start) / (slow.n : Rat) * (i : Rat)) ≠ [])
  refine ⟨_, _, fa, fb, sa, sb, e1, e2, ?_, a1, a2, b1, b2, a3, a4, b3, b4⟩
  simp only [submapPlan, e1, e2, e3, e4, Option.bind_eq_bind, Option.bind_some, pure]

/-- The slow motor of the new command visits the chosen positions of the old one, in the order
from the lower to the upper border. -/
theorem subSlow_values (s e : Rat) (n : Nat) (v : List Rat) (hv : ascanValues s e n = some v) (a b : Nat)
    (ha : a < v.length) (hb : b < v.length) (hab : a ≠ b) :
    ascanValues (subSlow v a b).start (subSlow v a b).stop (subSlow v a b).n = some (between v a b) := by
  have h0 : n ≠ 0 := by
    rintro rfl
    simp [ascanValues] at hv
  simp only [ascanValues, h0, if_false, Option.some.injEq] at hv
  subst hv
  rw [List.length_map, List.length_range] at ha hb
  have hg : gap a b ≠ 0 := by simp only [gap]; split <;> omega
  have hgq : ((gap a b : Nat) : Rat) ≠ 0 := by exact_mod_cast hg
  simp only [ascanValues, subSlow, hg, if_false, Option.some.injEq, between]
  apply List.map_congr_left
  intro i hi
  rw [List.mem_range] at hi
  have hi2 : (if a ≤ b then a + i else a - i) < n + 1 := by
    simp only [gap] at hi
    split at hi <;> split <;> omega
  rw [map_range_getD _ ha, map_range_getD _ hb, map_range_getD _ hi2]
  by_cases h : a ≤ b
  · have e1 : gap a b = b - a := by simp only [gap]; split <;> omega
    have e2 : ((gap a b : Nat) : Rat) = b - a := by rw [e1, Nat.cast_sub h]
    rw [e2] at hgq ⊢
    simp only [h, if_true]
    push_cast
    field_simp
    ring
  · have e1 : gap a b = a - b := by simp only [gap]; split <;> omega
    have e2 : ((gap a b : Nat) : Rat) = a - b := by rw [e1, Nat.cast_sub (by omega)]
    have e3 : ((a - i : Nat) : Rat) = a - i := by
      rw [Nat.cast_sub]
      simp only [gap] at hi
      split at hi <;> omega
    rw [e2] at hgq ⊢
    simp only [h, if_false, e3]
    field_simp
    ring

/-- The slice returned for increasing indices selects the chosen pixels. -/
theorem subSlice_up (n a b : Nat) (hab : a ≤ b) (hb : b < n) :
    (Py.Slice.mk (some (subSlice a b).1) (some (subSlice a b).2.1) (some (subSlice a b).2.2)).positions n
      = some (List.range' a (b + 1 - a)) := by
  have h1 : ¬ a > b := by omega
  simp only [subSlice, h1, if_false, Py.Slice.positions, Py.Slice.indices, Option.getD_some, Py.boundOr, Py.clampBound]
  have e1 : ¬ ((1 : Int) = 0) := by omega
  have e2 : ¬ ((1 : Int) < 0) := by omega
  have e3 : ¬ ((a : Int) < 0) := by omega
  have e4 : ¬ ((n : Int) < (a : Int)) := by omega
  have e5 : ¬ ((b : Int) + 1 < 0) := by omega
  have e6 : ¬ ((n : Int) < (b : Int) + 1) := by omega
  simp only [e1, e2, e3, e4, e5, e6, if_false, Option.map_some, Option.some.injEq, Py.rangeList, List.map_map]
  have hl : Py.rangeLen (a : Int) ((b : Int) + 1) 1 = b + 1 - a := by
    simp only [Py.rangeLen]
    rw [if_pos (by omega)]
    omega
  rw [hl]
  apply List.ext_getElem
  · simp
  · intro i h1 h2
    simp at h1 h2
    simp
    omega

/-- **Finding**: for decreasing indices (a scan from high to low positions) the last two of the
chosen pixels are missing from the slice. -/
theorem subSlice_down (n a b : Nat) (hab : b < a) (ha : a < n) :
    (Py.Slice.mk (some (subSlice a b).1) (some (subSlice a b).2.1) (some (subSlice a b).2.2)).positions n
      = some ((List.range (a - b - 1)).map fun i => a - i) := by
  have h1 : a > b := hab
  simp only [subSlice, h1, if_true, Py.Slice.positions, Py.Slice.indices, Option.getD_some, Py.boundOr, Py.clampBound]
  have e1 : ¬ ((-1 : Int) = 0) := by omega
  have e2 : ((-1 : Int) < 0) := by omega
  have e3 : ¬ ((a : Int) < 0) := by omega
  have e3' : ¬ ((a : Int) < -1) := by omega
  have e4 : ¬ ((n : Int) - 1 < (a : Int)) := by omega
  have e5 : ¬ ((b : Int) + 1 < 0) := by omega
  have e5' : ¬ ((b : Int) + 1 < -1) := by omega
  have e6 : ¬ ((n : Int) - 1 < (b : Int) + 1) := by omega
  simp only [e1, e2, e3, e3', e4, e5, e5', e6, if_false, if_true, Option.map_some, Option.some.injEq, Py.rangeList, List.map_map]
  have hl : Py.rangeLen (a : Int) ((b : Int) + 1) (-1) = a - b - 1 := by
    simp only [Py.rangeLen]
    rw [if_neg (by omega), if_pos (by omega)]
    simp only [Int.neg_neg, Int.ediv_one]
    omega
  rw [hl]
  apply List.map_congr_left
  intro i hi
  rw [List.mem_range] at hi
  simp only [Function.comp]
  omega

/-- **Finding**: the fast motor of the new command is shifted by half a pixel at both ends, where the
start should be shifted the other way: for a moving scan the new pixel centres do not start
at the chosen pixel. -/
theorem subFast_wrong (s e : Rat) (n : Nat) (v : List Rat) (hv : zaplineValues s e n = some v) (a b : Nat)
    (ha : a < v.length) (hb : b < v.length) (hab : a ≠ b) (hse : s ≠ e) :
    ∃ l w, subFast v a b = some l ∧ zaplineValues l.start l.stop l.n = some w ∧ w.length = (between v a b).length ∧
      w.head? ≠ some (v.getD a 0) := by
  have h0 : n ≠ 0 := by
    rintro rfl
    simp [zaplineValues] at hv
  have hq : (n : Rat) ≠ 0 := by exact_mod_cast h0
  simp only [zaplineValues, h0, if_false, Option.some.injEq] at hv
  subst hv
  rw [List.length_map, List.length_range] at ha hb
  have hg : gap a b ≠ 0 := by simp only [gap]; split <;> omega
  have h1 : ¬ (gap a b + 1 = 1) := by omega
  have hgq : ((gap a b : Nat) : Rat) ≠ 0 := by exact_mod_cast hg
  have hgq1 : ((gap a b : Nat) : Rat) + 1 ≠ 0 := by
    have : (0 : Rat) ≤ (gap a b : Nat) := Nat.cast_nonneg _
    linarith
  refine ⟨_, _, subFast_eq _ h1, zaplineValues_eq _ _ (Nat.succ_ne_zero _), by simp [between], ?_⟩
  rw [map_range_head _ (Nat.succ_pos _), map_range_getD _ ha, map_range_getD _ hb]
  simp only [ne_eq, Option.some.injEq]
  intro h
  have hd : (s + (e - s) / n / 2 + (e - s) / n * b) - (s + (e - s) / n / 2 + (e - s) / n * a) = (e - s) / n * ((b : Rat) - a) := by ring
  push_cast at h
  have hne : (e - s) / n * ((b : Rat) - a) ≠ 0 := by
    have h2 : e - s ≠ 0 := fun q => hse (by linarith)
    have h3 : (b : Rat) - a ≠ 0 := by
      intro q
      apply hab
      have : (b : Rat) = a := by linarith
      exact_mod_cast this.symm
    exact mul_ne_zero (div_ne_zero h2 hq) h3
  have hG : (0 : Rat) < (gap a b : Nat) := by
    have : 0 < gap a b := by omega
    exact_mod_cast this
  generalize hX : (e - s) / n * ((b : Rat) - a) = X at *
  generalize hA : s + (e - s) / n / 2 + (e - s) / n * (a : Rat) = A at *
  generalize hB : s + (e - s) / n / 2 + (e - s) / n * (b : Rat) = B at *
  have hB2 : B = A + X := by linarith
  subst hB2
  have e1 : ((gap a b : Nat) : Rat) + 1 - 1 = (gap a b : Nat) := by ring
  rw [e1] at h
  field_simp at h
  have : X * (2 * (gap a b : Nat) + 1) = 0 := by
    nlinarith
  rcases mul_eq_zero.mp this with h | h
  · exact hne h
  · linarith

end SC.Scan
