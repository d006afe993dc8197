import Verif.Outlier.Model
import Mathlib.Tactic.Ring
import Mathlib.Tactic.Linarith
import Mathlib.Tactic.FieldSimp
import Mathlib.Data.List.Sort
/-! # C92: outliers and tiles -/
namespace SC.Outlier

theorem median_ok {x : List Rat} (h : x ≠ []) : ∃ m, Diode.median x = .ok m ∧ Diode.IsMedian x m := Diode.median_spec x h

theorem slice0_eq (l : List Nat) (k : Int) :
    ∃ n, slice0 l k = l.take n ∧ n = if 0 ≤ k then k.toNat else l.length - (-k).toNat := by
  unfold slice0
  split
  · exact ⟨_, rfl, rfl⟩
  · exact ⟨_, rfl, rfl⟩

/-- What the fixed number of outliers says. -/
theorem fixed_eq {x : List Rat} {nsigma : Rat} {normal : Bool} {k : Int} (hk : k ≠ 0) {m : Rat} (hm : Diode.median x = .ok m) :
    outliers x nsigma normal k = (List.range x.length).map fun i =>
      (slice0 (Overlay.argsort ((deviations x m).map fun d => -d)) k).contains i := by
  unfold outliers
  rw [hm]
  simp only [hk, ne_eq, not_false_eq_true, if_true]

theorem argsort_perm (v : List Rat) : (Overlay.argsort v).Perm (List.range v.length) := Common.stableSort_perm _ _

theorem countP_contains (n : Nat) (l : List Nat) (hl : l.Nodup) (hs : ∀ i ∈ l, i < n) :
    (List.range n).countP (fun i => l.contains i) = l.length := by
  rw [List.countP_eq_length_filter]
  have hp : ((List.range n).filter fun i => l.contains i).Perm l := by
    rw [List.perm_ext_iff_of_nodup (List.nodup_range.filter _) hl]
    intro a
    simp only [List.mem_filter, List.mem_range, List.contains_iff_mem]
    exact ⟨fun h => h.2, fun h => ⟨hs a h, h⟩⟩
  exact hp.length_eq

/-- As many outliers as asked for (at most all values); a negative number leaves that many values. -/
theorem fixed_count (x : List Rat) (nsigma : Rat) (normal : Bool) (k : Int) (hk : k ≠ 0) :
    (outliers x nsigma normal k).countP id = if 0 ≤ k then min k.toNat x.length else x.length - (-k).toNat := by
  by_cases hx : x = []
  · subst hx
    simp [outliers, Diode.median]
  · obtain ⟨m, hm, _⟩ := median_ok hx
    rw [fixed_eq hk hm, List.countP_map]
    have hp := argsort_perm ((deviations x m).map fun d => -d)
    have hlen : ((deviations x m).map fun d => -d).length = x.length := by simp [deviations]
    rw [hlen] at hp
    obtain ⟨n, hn, hn'⟩ := slice0_eq (Overlay.argsort ((deviations x m).map fun d => -d)) k
    rw [hn]
    have hal : (Overlay.argsort ((deviations x m).map fun d => -d)).length = x.length := by rw [hp.length_eq]; simp
    have hnd : (Overlay.argsort ((deviations x m).map fun d => -d)).Nodup := hp.nodup_iff.mpr List.nodup_range
    have key := countP_contains x.length ((Overlay.argsort ((deviations x m).map fun d => -d)).take n)
      (hnd.sublist (List.take_sublist _ _))
      (fun i hi => List.mem_range.mp (hp.mem_iff.mp (List.mem_of_mem_take hi)))
    change (List.range x.length).countP (fun i => (List.take n _).contains i) = _
    rw [key, List.length_take, hal, hn', hal]
    split
    · rfl
    · omega

/-- The outliers deviate at least as much from the median as the other values. -/
theorem fixed_largest (x : List Rat) (nsigma : Rat) (normal : Bool) (k : Int) (hk : k ≠ 0) {i j : Nat} {a b : Rat}
    (ha : x[i]? = some a) (hb : x[j]? = some b) (hi : (outliers x nsigma normal k)[i]? = some true)
    (hj : (outliers x nsigma normal k)[j]? = some false) :
    ∃ m, Diode.IsMedian x m ∧ |b - m| ≤ |a - m| := by
  have hx : x ≠ [] := by rintro rfl; simp at ha
  obtain ⟨m, hm, hmed⟩ := median_ok hx
  refine ⟨m, hmed, ?_⟩
  have hil : i < x.length := (List.getElem?_eq_some_iff.mp ha).1
  have hjl : j < x.length := (List.getElem?_eq_some_iff.mp hb).1
  rw [fixed_eq hk hm] at hi hj
  simp [hil, hjl] at hi hj
  obtain ⟨n, hn, _⟩ := slice0_eq (Overlay.argsort ((deviations x m).map fun d => -d)) k
  rw [hn] at hi hj
  have hlen : ((deviations x m).map fun d => -d).length = x.length := by simp [deviations]
  have hs : (Overlay.argsort ((deviations x m).map fun d => -d)).Pairwise
      (fun i j => ((deviations x m).map fun d => -d).getD i 0 ≤ ((deviations x m).map fun d => -d).getD j 0) :=
    Common.stableSort_sorted _ _
  have hj2 : j ∈ (Overlay.argsort ((deviations x m).map fun d => -d)).drop n := by
    have : j ∈ Overlay.argsort ((deviations x m).map fun d => -d) :=
      (argsort_perm _).mem_iff.mpr (by rw [hlen]; exact List.mem_range.mpr hjl)
    rw [← List.take_append_drop n (Overlay.argsort _)] at this
    rcases List.mem_append.mp this with h | h
    · exact absurd h hj
    · exact h
  rw [← List.take_append_drop n (Overlay.argsort ((deviations x m).map fun d => -d)), List.pairwise_append] at hs
  have := hs.2.2 i hi j hj2
  have gi : ((deviations x m).map fun d => -d).getD i 0 = -|a - m| := by
    simp [deviations, List.getD_eq_getElem?_getD, ha]
  have gj : ((deviations x m).map fun d => -d).getD j 0 = -|b - m| := by
    simp [deviations, List.getD_eq_getElem?_getD, hb]
  rw [gi, gj] at this
  linarith

theorem factor_eq (normal : Bool) : factor normal = if normal then 1.4826 else 1 := by cases normal <;> norm_num [factor]

/-- Otherwise an outlier deviates more than so many times the median deviation. -/
theorem mad_spec (x : List Rat) (nsigma : Rat) (normal : Bool) (hx : x ≠ []) :
    ∃ m mad, Diode.IsMedian x m ∧ Diode.IsMedian (x.map fun v => |v - m|) mad ∧
      ∀ (i : Nat) (a : Rat), x[i]? = some a → ((outliers x nsigma normal 0)[i]? = some true ↔
        mad ≠ 0 ∧ nsigma * ((if normal then 1.4826 else 1) * mad) < |a - m|) ∧ (outliers x nsigma normal 0).length = x.length := by
  obtain ⟨m, hm, hmed⟩ := median_ok hx
  have hd : deviations x m ≠ [] := by simp [deviations, hx]
  obtain ⟨m2, hm2, hmed2⟩ := median_ok hd
  have hf : 0 < factor normal := by cases normal <;> simp [factor] <;> norm_num
  have hnn : 0 ≤ m2 := by
    have h1 := hmed2.1
    by_contra hneg
    rw [not_le] at hneg
    have : (deviations x m).countP (fun a => decide (a ≤ m2)) = 0 := by
      rw [List.countP_eq_zero]
      intro a ha
      simp only [deviations, List.mem_map] at ha
      obtain ⟨v, _, rfl⟩ := ha
      have := abs_nonneg (v - m)
      simp only [decide_eq_true_eq, not_le]
      linarith
    rw [this] at h1
    have : (deviations x m).length = 0 := by omega
    exact hd (List.length_eq_zero_iff.mp this)
  refine ⟨m, m2, hmed, hmed2, ?_⟩
  intro i a ha
  rw [← factor_eq]
  unfold outliers
  rw [hm]
  simp only [ne_eq, not_true_eq_false, if_false, hm2]
  by_cases h0 : m2 = 0
  · simp [h0, List.getElem?_replicate]
  · have hpos : 0 < factor normal * m2 := mul_pos hf (lt_of_le_of_ne hnn (Ne.symm h0))
    simp only [hpos.ne', if_false]
    refine ⟨?_, by simp [deviations]⟩
    simp only [List.getElem?_map, deviations, ha, Option.map_some, Option.some.injEq, decide_eq_true_eq, h0, not_false_eq_true,
      true_and, gt_iff_lt, ne_eq]
    rw [lt_div_iff₀ hpos]

/-- At most half of the values are outliers, unless the limit is below the median deviation. -/
theorem mad_half (x : List Rat) (nsigma : Rat) (normal : Bool) (hn' : 1 ≤ nsigma * (if normal then 1.4826 else 1)) :
    2 * (outliers x nsigma normal 0).countP id ≤ x.length := by
  have hn : 1 ≤ nsigma * factor normal := by rw [factor_eq]; exact hn'
  by_cases hx : x = []
  · subst hx; simp [outliers, Diode.median]
  · obtain ⟨m, hm, hmed⟩ := median_ok hx
    have hd : deviations x m ≠ [] := by simp [deviations, hx]
    obtain ⟨m2, hm2, hmed2⟩ := median_ok hd
    have hf : 0 < factor normal := by cases normal <;> simp [factor] <;> norm_num
    unfold outliers
    rw [hm]
    simp only [ne_eq, not_true_eq_false, if_false, hm2]
    split
    · rw [List.countP_map]
      have : x.countP (id ∘ fun _ => false) = 0 := by rw [List.countP_eq_zero]; simp
      omega
    · rename_i h0
      have hlen : (deviations x m).length = x.length := by simp [deviations]
      rw [List.countP_map]
      have hle : (deviations x m).countP (id ∘ fun d => decide (d / (factor normal * m2) > nsigma)) ≤
          (deviations x m).countP (fun a => !decide (a ≤ m2)) := by
        apply List.countP_mono_left
        intro d hdm h
        simp only [Function.comp, id, decide_eq_true_eq, gt_iff_lt] at h
        simp only [Bool.not_eq_true', decide_eq_false_iff_not, not_le]
        have hdn : 0 ≤ d := by
          simp only [deviations, List.mem_map] at hdm
          obtain ⟨v, _, rfl⟩ := hdm
          exact abs_nonneg _
        by_contra hc
        rw [not_lt] at hc
        have hm2n : 0 ≤ m2 := hdn.trans hc
        have hm2p : 0 < m2 := lt_of_le_of_ne hm2n fun e => h0 (by rw [← e, mul_zero])
        have hpos : 0 < factor normal * m2 := mul_pos hf hm2p
        rw [lt_div_iff₀ hpos] at h
        have : m2 ≤ nsigma * (factor normal * m2) := by nlinarith
        linarith
      have hsplit := List.length_eq_countP_add_countP (l := deviations x m) (fun a => decide (a ≤ m2))
      have e : (deviations x m).countP (fun a => !decide (a ≤ m2)) = (deviations x m).countP (fun a => decide (¬ decide (a ≤ m2) = true)) := by
        congr 1; funext a; cases decide (a ≤ m2) <;> rfl
      have h1 := hmed2.1
      rw [e] at hle
      omega

/-- When more than half of the values are the same there are no outliers, however far the others are. -/
theorem mad_constant (x : List Rat) (c nsigma : Rat) (normal : Bool) (h : x.length < 2 * x.countP (fun a => decide (a = c))) :
    ∀ b ∈ outliers x nsigma normal 0, b = false := by
  by_cases hx : x = []
  · subst hx; simp [outliers, Diode.median]
  · obtain ⟨m, hm, hmed⟩ := median_ok hx
    have hd : deviations x m ≠ [] := by simp [deviations, hx]
    obtain ⟨m2, hm2, hmed2⟩ := median_ok hd
    -- a median of a list with a majority value is that value
    have maj : ∀ (l : List Rat) (c m : Rat), l.length < 2 * l.countP (fun a => decide (a = c)) → Diode.IsMedian l m → m = c := by
      intro l c m hl hmm
      rcases lt_trichotomy m c with hlt | heq | hgt
      · exfalso
        have h1 := hmm.1
        have hsplit := List.length_eq_countP_add_countP (l := l) (fun a => decide (a ≤ m))
        have : l.countP (fun a => decide (a = c)) ≤ l.countP (fun a => decide (¬ decide (a ≤ m) = true)) := by
          apply List.countP_mono_left
          intro a _ ha
          simp only [decide_eq_true_eq] at ha ⊢
          subst ha
          linarith
        omega
      · exact heq
      · exfalso
        have h1 := hmm.2
        have hsplit := List.length_eq_countP_add_countP (l := l) (fun a => decide (m ≤ a))
        have : l.countP (fun a => decide (a = c)) ≤ l.countP (fun a => decide (¬ decide (m ≤ a) = true)) := by
          apply List.countP_mono_left
          intro a _ ha
          simp only [decide_eq_true_eq] at ha ⊢
          subst ha
          linarith
        omega
    have hmc : m = c := maj x c m h hmed
    have hm0 : m2 = 0 := by
      apply maj (deviations x m) 0 m2 _ hmed2
      have hc : (deviations x m).countP (fun a => decide (a = 0)) = x.countP (fun a => decide (a = c)) := by
        unfold deviations
        rw [List.countP_map]
        congr 1
        funext a
        simp [hmc, sub_eq_zero]
      rw [hc]
      simpa [deviations] using h
    intro b hb
    unfold outliers at hb
    rw [hm] at hb
    simp only [ne_eq, not_true_eq_false, if_false, hm2, hm0, mul_zero, if_true, List.mem_map] at hb
    obtain ⟨_, _, rfl⟩ := hb
    rfl

theorem middle_affine (a b : Rat) (s : List Rat) (hs : s ≠ []) :
    Diode.middle (s.map fun v => a * v + b) = a * Diode.middle s + b := by
  have hpos : 0 < s.length := List.length_pos_iff.mpr hs
  have g : ∀ i, i < s.length → (s.map fun v => a * v + b).getD i 0 = a * s.getD i 0 + b := by
    intro i hi
    simp [List.getD_eq_getElem?_getD, hi]
  unfold Diode.middle
  rw [List.length_map, g _ (by omega), g _ (by omega)]
  split
  · rfl
  · ring

theorem median_affine (a b : Rat) (ha : 0 < a) (x : List Rat) :
    Diode.median (x.map fun v => a * v + b) = (Diode.median x).map fun m => a * m + b := by
  cases x with
  | nil => rfl
  | cons v x =>
    have hs : (List.map (fun v => a * v + b) (v :: x)).mergeSort (fun p q => decide (p ≤ q))
        = ((v :: x).mergeSort (fun p q => decide (p ≤ q))).map fun v => a * v + b := by
      rw [List.map_mergeSort]
      intro p _ q _
      simp only [decide_eq_decide]
      constructor <;> intro h <;> nlinarith
    have hne : (v :: x).mergeSort (fun p q => decide (p ≤ q)) ≠ [] := by
      intro h
      have := congrArg List.length h
      simp at this
    unfold Diode.median
    rw [hs, if_neg (by simp), if_neg (by simp), middle_affine a b _ hne]
    rfl

/-- Outliers do not depend on the unit nor on the origin. -/
theorem affine_invariant (x : List Rat) (a b nsigma : Rat) (normal : Bool) (ha : 0 < a) (k : Int) :
    outliers (x.map fun v => a * v + b) nsigma normal k = outliers x nsigma normal k := by
  by_cases hx : x = []
  · subst hx; rfl
  · obtain ⟨m, hm, _⟩ := median_ok hx
    have hm' : Diode.median (x.map fun v => a * v + b) = .ok (a * m + b) := by rw [median_affine a b ha, hm]; rfl
    have hdev : deviations (x.map fun v => a * v + b) (a * m + b) = (deviations x m).map fun d => a * d := by
      simp only [deviations, List.map_map]
      apply List.map_congr_left
      intro v _
      simp only [Function.comp]
      rw [show a * v + b - (a * m + b) = a * (v - m) by ring, abs_mul, abs_of_pos ha]
    have hd : deviations x m ≠ [] := by simp [deviations, hx]
    obtain ⟨m2, hm2, _⟩ := median_ok hd
    have hm2' : Diode.median ((deviations x m).map fun d => a * d) = .ok (a * m2) := by
      have := median_affine a 0 ha (deviations x m)
      simp only [add_zero] at this
      rw [this, hm2]; rfl
    have hsort : Overlay.argsort (((deviations x m).map fun d => a * d).map fun d => -d)
        = Overlay.argsort ((deviations x m).map fun d => -d) := by
      unfold Overlay.argsort
      simp only [List.length_map]
      have := Common.stableSort_map (fun i => ((deviations x m).map fun d => -d).getD i 0)
        (fun i => (((deviations x m).map fun d => a * d).map fun d => -d).getD i 0) (fun i : Nat => i) (by
          intro i j
          have g : ∀ i, (((deviations x m).map fun d => a * d).map fun d => -d).getD i 0 = a * ((deviations x m).map fun d => -d).getD i 0 := by
            intro i
            simp only [List.getD_eq_getElem?_getD, List.getElem?_map]
            cases (deviations x m)[i]? <;> simp
          rw [g, g]
          constructor <;> intro h <;> nlinarith) (List.range (deviations x m).length)
      simpa using this.symm
    unfold outliers
    rw [hm, hm']
    simp only [hdev, hsort, hm2, hm2', List.length_map]
    split
    · rfl
    · by_cases h0 : factor normal * m2 = 0
      · have h0' : factor normal * (a * m2) = 0 := by rw [mul_left_comm, h0, mul_zero]
        simp [h0, h0']
      · have h0' : factor normal * (a * m2) ≠ 0 := by rw [mul_left_comm]; exact mul_ne_zero ha.ne' h0
        simp only [h0, h0', if_false, List.map_map]
        apply List.map_congr_left
        intro d _
        simp only [Function.comp, decide_eq_decide]
        rw [mul_left_comm, mul_div_mul_left _ _ ha.ne']

example : outliers [1, 2, 100] 3 true 0 = [false, false, true] := by
  have h1 : Diode.median ([1, 2, 100] : List Rat) = .ok 2 := by
    unfold Diode.median
    rw [if_neg (by simp)]
    norm_num [Diode.middle, List.mergeSort]
  have h2 : Diode.median ([1, 0, 98] : List Rat) = .ok 1 := by
    unfold Diode.median
    rw [if_neg (by simp)]
    norm_num [Diode.middle, List.mergeSort, List.merge]
  have h3 : deviations [1, 2, 100] 2 = [1, 0, 98] := by norm_num [deviations]
  unfold outliers
  rw [h1]
  simp only [h3, h2]
  norm_num [factor]
example : (outliers [1, 2, 3, 100, 2] 3 true 2).countP id = 2 := fixed_count _ _ _ _ (by decide)
example : 2 * (outliers [1, 2, 3, 100, 2] 3 true 0).countP id ≤ 5 := mad_half _ _ _ (by norm_num)
example : ∀ b ∈ outliers [1, 1, 1, 100] 3 true 0, b = false := mad_constant _ 1 _ _ (by decide +kernel)

end SC.Outlier

namespace SC.Tile

theorem write_miss {α : Type} (ws : List (Int × α)) (mem : Mem α) (a : Int) (h : ∀ w ∈ ws, w.1 ≠ a) : write mem ws a = mem a := by
  induction ws generalizing mem with
  | nil => rfl
  | cons w ws ih =>
    unfold write at *
    rw [List.foldl_cons, ih _ fun w' h' => h w' (List.mem_cons_of_mem _ h')]
    simp [(h w List.mem_cons_self).symm]

theorem write_hit {α : Type} (ws : List (Int × α)) (mem : Mem α) (a : Int) (v : α) (hv : ∀ w ∈ ws, w.1 = a → w.2 = v)
    (he : ∃ w ∈ ws, w.1 = a) : write mem ws a = v := by
  induction ws generalizing mem with
  | nil => simp at he
  | cons w ws ih =>
    have hv' := fun w' h' => hv w' (List.mem_cons_of_mem _ h')
    by_cases hr : ∃ w' ∈ ws, w'.1 = a
    · unfold write at *
      rw [List.foldl_cons]
      exact ih _ hv' hr
    · have hw : w.1 = a := by
        obtain ⟨w', hm, e⟩ := he
        rcases List.mem_cons.mp hm with rfl | hm
        · exact e
        · exact absurd ⟨w', hm, e⟩ hr
      have := write_miss ws (fun b => if b = w.1 then w.2 else mem b) a fun w' h' e => hr ⟨w', h', e⟩
      unfold write at *
      rw [List.foldl_cons, this]
      simp [hw, hv w List.mem_cons_self hw]

/-- Different elements have different addresses. -/
def Inj (d : View) : Prop :=
  ∀ i j i' j', i < d.n0 → j < d.n1 → i' < d.n0 → j' < d.n1 → d.addr i j = d.addr i' j' → i = i' ∧ j = j'

theorem rows_spec {α : Type} {mem mem' : Mem α} {s : Src α} {d : View} {reps : Nat} (hd : Inj d)
    (h : tileRows mem s d reps = some mem') :
    (∀ i j, i < d.n0 → j < d.n1 → mem' (d.addr i j) = s.at_ (i % s.n0) j) ∧
    (∀ a, (∀ i j, i < d.n0 → j < d.n1 → a ≠ d.addr i j) → mem' a = mem a) := by
  unfold tileRows at h
  split at h
  · cases h
  · rename_i hsh
    rw [not_or, not_not, not_not] at hsh
    cases h
    have addr : ∀ k i j : Nat, (k * (s.n0 * d.s0) + i * d.s0 + j * d.s1 : Int) = d.addr (k * s.n0 + i) j := by
      intro k i j; simp only [View.addr]; push_cast; ring
    have inn : ∀ k i : Nat, k < reps → i < s.n0 → k * s.n0 + i < d.n0 := by
      intro k i hk hi
      rw [← hsh.1]
      calc k * s.n0 + i < k * s.n0 + s.n0 := by omega
        _ = (k + 1) * s.n0 := by ring
        _ ≤ reps * s.n0 := Nat.mul_le_mul_right _ hk
        _ = s.n0 * reps := Nat.mul_comm _ _
    refine ⟨?_, ?_⟩
    · intro i j hi hj
      have hn0 : 0 < s.n0 := by
        rcases Nat.eq_zero_or_pos s.n0 with h0 | h0
        · rw [← hsh.1, h0] at hi; omega
        · exact h0
      apply write_hit
      · intro w hw e
        simp only [List.mem_flatMap, List.mem_range, List.mem_map] at hw
        obtain ⟨k, hk, i', hi', j', hj', rfl⟩ := hw
        simp only at e ⊢
        rw [addr] at e
        obtain ⟨e1, e2⟩ := hd _ _ _ _ (inn k i' hk hi') hj' hi hj e
        subst e1 e2
        rw [Nat.mul_comm, Nat.mul_add_mod, Nat.mod_eq_of_lt hi']
      · refine ⟨_, List.mem_flatMap.mpr ⟨i / s.n0, ?_, List.mem_flatMap.mpr ⟨i % s.n0, ?_, List.mem_map.mpr ⟨j, ?_, rfl⟩⟩⟩, ?_⟩
        · rw [List.mem_range, Nat.div_lt_iff_lt_mul hn0, Nat.mul_comm, hsh.1]; exact hi
        · rw [List.mem_range]; exact Nat.mod_lt _ hn0
        · rw [List.mem_range]; exact hj
        · simp only
          rw [addr, Nat.div_add_mod']
    · intro a ha
      apply write_miss
      intro w hw e
      simp only [List.mem_flatMap, List.mem_range, List.mem_map] at hw
      obtain ⟨k, hk, i', hi', j', hj', rfl⟩ := hw
      simp only at e
      rw [addr] at e
      exact ha _ _ (inn k i' hk hi') hj' e.symm

/-- Repeating along the first dimension. -/
theorem tile_rows {α : Type} {mem mem' : Mem α} {s : Src α} {d : View} {reps : Nat} (hd : Inj d)
    (h : tile mem s d reps 0 = some mem') :
    (∀ i j, i < d.n0 → j < d.n1 → mem' (d.addr i j) = s.at_ (i % s.n0) j) ∧
    (∀ a, (∀ i j, i < d.n0 → j < d.n1 → a ≠ d.addr i j) → mem' a = mem a) :=
  rows_spec hd h

/-- Repeating along the second dimension. -/
theorem tile_columns {α : Type} {mem mem' : Mem α} {s : Src α} {d : View} {reps : Nat} (hd : Inj d)
    (h : tile mem s d reps 1 = some mem') :
    (∀ i j, i < d.n0 → j < d.n1 → mem' (d.addr i j) = s.at_ i (j % s.n1)) ∧
    (∀ a, (∀ i j, i < d.n0 → j < d.n1 → a ≠ d.addr i j) → mem' a = mem a) := by
  have at_ : ∀ i j, d.T.addr i j = d.addr j i := by intro i j; simp only [View.addr, View.T]; ring
  have hT : Inj d.T := by
    intro i j i' j' h1 h2 h3 h4 e
    rw [at_, at_] at e
    obtain ⟨a, b⟩ := hd j i j' i' h2 h1 h4 h3 e
    exact ⟨b, a⟩
  have := rows_spec hT (s := s.T) (mem := mem) (mem' := mem') (reps := reps) h
  refine ⟨?_, ?_⟩
  · intro i j hi hj
    have := this.1 j i hj hi
    rw [at_] at this
    exact this
  · intro a ha
    apply this.2 a
    intro i j hi hj
    rw [at_]
    exact ha j i hj hi

/-- Repeating on the diagonal: other blocks keep their values. -/
theorem tile_diagonal {α : Type} {mem mem' : Mem α} {s : Src α} {d : View} {reps : Nat} (hd : Inj d)
    (h : tile mem s d reps 2 = some mem') :
    (∀ i j, i < d.n0 → j < d.n1 → mem' (d.addr i j) =
      if i / s.n0 = j / s.n1 then s.at_ (i % s.n0) (j % s.n1) else mem (d.addr i j)) ∧
    (∀ a, (∀ i j, i < d.n0 → j < d.n1 → a ≠ d.addr i j) → mem' a = mem a) := by
  unfold tile at h
  simp only [if_true] at h
  unfold tileDiag at h
  split at h
  · cases h
  · rename_i hsh
    rw [not_or, not_not, not_not] at hsh
    cases h
    have addr : ∀ k i j : Nat, (k * (s.n0 * d.s0) + k * (s.n1 * d.s1) + i * d.s0 + j * d.s1 : Int) = d.addr (k * s.n0 + i) (k * s.n1 + j) := by
      intro k i j; simp only [View.addr]; push_cast; ring
    have inn : ∀ n N : Nat, n * reps = N → ∀ k i : Nat, k < reps → i < n → k * n + i < N := by
      intro n N hN k i hk hi
      rw [← hN]
      calc k * n + i < k * n + n := by omega
        _ = (k + 1) * n := by ring
        _ ≤ reps * n := Nat.mul_le_mul_right _ hk
        _ = n * reps := Nat.mul_comm _ _
    refine ⟨?_, ?_⟩
    · intro i j hi hj
      have hn0 : 0 < s.n0 := by
        rcases Nat.eq_zero_or_pos s.n0 with h0 | h0
        · rw [← hsh.1, h0] at hi; omega
        · exact h0
      have hn1 : 0 < s.n1 := by
        rcases Nat.eq_zero_or_pos s.n1 with h0 | h0
        · rw [← hsh.2, h0] at hj; omega
        · exact h0
      split
      · rename_i hb
        apply write_hit
        · intro w hw e
          simp only [List.mem_flatMap, List.mem_range, List.mem_map] at hw
          obtain ⟨k, hk, i', hi', j', hj', rfl⟩ := hw
          simp only at e ⊢
          rw [addr] at e
          obtain ⟨e1, e2⟩ := hd _ _ _ _ (inn _ _ hsh.1 k i' hk hi') (inn _ _ hsh.2 k j' hk hj') hi hj e
          subst e1 e2
          rw [Nat.mul_comm, Nat.mul_add_mod, Nat.mod_eq_of_lt hi', Nat.mul_comm, Nat.mul_add_mod, Nat.mod_eq_of_lt hj']
        · refine ⟨_, List.mem_flatMap.mpr ⟨i / s.n0, ?_, List.mem_flatMap.mpr ⟨i % s.n0, ?_, List.mem_map.mpr ⟨j % s.n1, ?_, rfl⟩⟩⟩, ?_⟩
          · rw [List.mem_range, Nat.div_lt_iff_lt_mul hn0, Nat.mul_comm, hsh.1]; exact hi
          · rw [List.mem_range]; exact Nat.mod_lt _ hn0
          · rw [List.mem_range]; exact Nat.mod_lt _ hn1
          · simp only
            rw [addr, Nat.div_add_mod']
            rw [hb, Nat.div_add_mod']
      · rename_i hb
        apply write_miss
        intro w hw e
        simp only [List.mem_flatMap, List.mem_range, List.mem_map] at hw
        obtain ⟨k, hk, i', hi', j', hj', rfl⟩ := hw
        simp only at e
        rw [addr] at e
        obtain ⟨e1, e2⟩ := hd _ _ _ _ (inn _ _ hsh.1 k i' hk hi') (inn _ _ hsh.2 k j' hk hj') hi hj e
        apply hb
        rw [← e1, ← e2, Nat.add_comm, Nat.add_mul_div_right _ _ hn0, Nat.div_eq_of_lt hi', Nat.add_comm (k * s.n1),
          Nat.add_mul_div_right _ _ hn1, Nat.div_eq_of_lt hj']
    · intro a ha
      apply write_miss
      intro w hw e
      simp only [List.mem_flatMap, List.mem_range, List.mem_map] at hw
      obtain ⟨k, hk, i', hi', j', hj', rfl⟩ := hw
      simp only at e
      rw [addr] at e
      exact ha _ _ (inn _ _ hsh.1 k i' hk hi') (inn _ _ hsh.2 k j' hk hj') e.symm

/-- Arrays in C order, also with space between the rows, have different addresses. -/
theorem inj_c (n0 n1 w : Nat) (hw : n1 ≤ w) : Inj ⟨n0, n1, w, 1⟩ := by
  intro i j i' j' hi hj hi' hj' e
  simp only [View.addr, mul_one] at e hj hj'
  have e2 : i * w + j = i' * w + j' := by exact_mod_cast e
  have hjw : j < w := by omega
  have hjw' : j' < w := by omega
  have hw0 : 0 < w := by omega
  have h1 : i = i' := by
    have := congrArg (· / w) e2
    simp only [Nat.add_comm _ j, Nat.add_comm _ j', Nat.add_mul_div_right _ _ hw0, Nat.div_eq_of_lt hjw, Nat.div_eq_of_lt hjw'] at this
    omega
  subst h1
  exact ⟨rfl, by omega⟩

example : (tile (fun _ => 0) ⟨1, 2, fun _ j => j + 1⟩ ⟨2, 4, 4, 1⟩ 2 2).map (fun m => (List.range 8).map fun a => m a)
    = some [1, 2, 0, 0, 0, 0, 1, 2] := by decide +kernel
example : (tile (fun _ => 0) ⟨1, 2, fun _ j => j + 1⟩ ⟨1, 4, 4, 1⟩ 2 1).map (fun m => (List.range 4).map fun a => m a)
    = some [1, 2, 1, 2] := by decide +kernel

end SC.Tile
