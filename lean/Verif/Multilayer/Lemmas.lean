import Verif.Multilayer.Spec
import Mathlib.Analysis.SpecialFunctions.Integrals.Basic
import Mathlib.Tactic.Linarith
import Mathlib.Tactic.FieldSimp
import Mathlib.Tactic.Ring
/-! # Attenuation as a sum over the layers -/
namespace SC.Multilayer
open MeasureTheory

/-- The attenuation down to a depth, layer by layer. -/
noncomputable def through : List Layer → ℝ → ℝ → ℝ
  | [], _, _ => 0
  | l :: ls, e, z => l.mu e * max 0 (min z l.t) + through ls e (z - l.t)

theorem Thick.tail {l ls} (h : Thick (l :: ls)) : Thick ls := fun x hx => h x (List.mem_cons_of_mem _ hx)
theorem Thick.head {l ls} (h : Thick (l :: ls)) : 0 ≤ l.t := h l List.mem_cons_self

theorem layerAt_nonpos : ∀ (ls : List Layer) {z : ℝ}, z ≤ 0 → layerAt ls z = none
  | [], _, _ => rfl
  | l :: ls, z, h => by simp [layerAt, h]

theorem muAt_nonpos (ls : List Layer) (e : ℝ) {z : ℝ} (h : z ≤ 0) : muAt ls e z = 0 := by
  simp [muAt, layerAt_nonpos ls h]

theorem muAt_cons (l : Layer) (ls : List Layer) (ht : 0 ≤ l.t) (e z : ℝ) :
    muAt (l :: ls) e z = (Set.Ioc 0 l.t).indicator (fun _ => l.mu e) z + muAt ls e (z - l.t) := by
  by_cases h : z ≤ 0
  · rw [muAt_nonpos _ e h, muAt_nonpos _ e (by linarith)]
    simp [Set.indicator, h.not_gt]
  · push Not at h
    by_cases h2 : z ≤ l.t
    · rw [muAt_nonpos ls e (by linarith : z - l.t ≤ 0)]
      simp [muAt, layerAt, h.not_ge, h2, Set.indicator, h]
    · simp [muAt, layerAt, h.not_ge, h2, Set.indicator]

theorem integrable_step (t c a b : ℝ) :
    IntervalIntegrable ((Set.Ioc 0 t).indicator (fun _ => c)) volume a b := by
  rw [intervalIntegrable_iff]
  exact ((integrableOn_const (by simp)) : IntegrableOn (fun _ => c) _ _).indicator measurableSet_Ioc

theorem muAt_integrable : ∀ (ls : List Layer), Thick ls → ∀ e a b : ℝ, IntervalIntegrable (muAt ls e) volume a b
  | [], _, e, a, b => by
    have : muAt [] e = fun _ => 0 := by funext z; simp [muAt, layerAt]
    rw [this]; exact intervalIntegrable_const
  | l :: ls, h, e, a, b => by
    have : muAt (l :: ls) e = fun z => (Set.Ioc 0 l.t).indicator (fun _ => l.mu e) z + muAt ls e (z - l.t) := by
      funext z; exact muAt_cons l ls h.head e z
    rw [this]
    refine (integrable_step _ _ _ _).add ?_
    have := (muAt_integrable ls h.tail e (a - l.t) (b - l.t)).comp_sub_right l.t
    simpa using this

theorem integral_step (t c z : ℝ) (ht : 0 ≤ t) :
    ∫ x in (0 : ℝ)..z, (Set.Ioc 0 t).indicator (fun _ => c) x = c * max 0 (min z t) := by
  by_cases h : 0 ≤ z
  · rw [intervalIntegral.integral_of_le h, setIntegral_indicator measurableSet_Ioc, Set.Ioc_inter_Ioc]
    have hm : (0 : ℝ) ≤ min z t := le_min h ht
    simp [hm, mul_comm]
  · push Not at h
    rw [intervalIntegral.integral_symm, intervalIntegral.integral_of_le h.le, setIntegral_indicator measurableSet_Ioc]
    have : Set.Ioc z 0 ∩ Set.Ioc 0 t = ∅ := by
      ext x; simp only [Set.mem_inter_iff, Set.mem_Ioc, Set.mem_empty_iff_false, iff_false]; rintro ⟨⟨_, a⟩, b, _⟩; linarith
    have hm : max 0 (min z t) = 0 := max_eq_left (le_trans (min_le_left _ _) h.le)
    simp [this, hm]

theorem integral_muAt : ∀ (ls : List Layer), Thick ls → ∀ e z : ℝ, ∫ x in (0 : ℝ)..z, muAt ls e x = through ls e z
  | [], _, e, z => by simp [muAt, layerAt, through]
  | l :: ls, h, e, z => by
    have : muAt (l :: ls) e = fun z => (Set.Ioc 0 l.t).indicator (fun _ => l.mu e) z + muAt ls e (z - l.t) := by
      funext z; exact muAt_cons l ls h.head e z
    rw [this]
    have hi : IntervalIntegrable (fun x => muAt ls e (x - l.t)) volume 0 z := by
      have := (muAt_integrable ls h.tail e (0 - l.t) (z - l.t)).comp_sub_right l.t
      simpa using this
    rw [intervalIntegral.integral_add (integrable_step _ _ _ _) hi, integral_step _ _ _ h.head,
      intervalIntegral.integral_comp_sub_right (fun x => muAt ls e x) l.t,
      ← intervalIntegral.integral_add_adjacent_intervals (muAt_integrable ls h.tail e (0 - l.t) 0)
        (muAt_integrable ls h.tail e 0 (z - l.t)), integral_muAt ls h.tail e (z - l.t)]
    have h0 : ∫ x in (0 - l.t)..0, muAt ls e x = 0 := by
      apply intervalIntegral.integral_zero_ae
      refine Filter.Eventually.of_forall fun x hx => muAt_nonpos ls e ?_
      rw [Set.uIoc_of_le (by linarith [h.head])] at hx
      exact hx.2
    rw [h0]; simp [through]

theorem integral_muAt_between (ls : List Layer) (h : Thick ls) (e a b : ℝ) :
    ∫ x in a..b, muAt ls e x = through ls e b - through ls e a := by
  rw [← integral_muAt ls h e b, ← integral_muAt ls h e a]
  rw [← intervalIntegral.integral_interval_sub_left (muAt_integrable ls h e 0 b) (muAt_integrable ls h e 0 a)]

/-! ## Depths -/

theorem cumul_cons (l : Layer) (ls : List Layer) : cumul (l :: ls) = 0 :: (cumul ls).map (l.t + ·) := by
  unfold cumul
  have : ∀ (ts : List ℝ) (a b : ℝ), ts.scanl (· + ·) (a + b) = (ts.scanl (· + ·) b).map (a + ·) := by
    intro ts
    induction ts with
    | nil => intro a b; simp
    | cons t ts ih => intro a b; simp [List.scanl_cons, add_assoc, ih]
  rw [List.map_cons, List.scanl_cons]
  congr 1
  have := this (ls.map (·.t)) l.t 0
  simpa using this

theorem cumul_length (ls : List Layer) : (cumul ls).length = ls.length + 1 := by simp [cumul]

/-- The depth of the upper side of a layer. -/
noncomputable def top (ls : List Layer) (k : Nat) : ℝ := (cumul ls).getD k 0

theorem top_zero (ls : List Layer) : top ls 0 = 0 := by
  cases ls with
  | nil => simp [top, cumul]
  | cons l ls => simp [top, cumul_cons]

theorem top_cons (l : Layer) (ls : List Layer) (k : Nat) (h : k ≤ ls.length) :
    top (l :: ls) (k + 1) = l.t + top ls k := by
  have hk : k < (cumul ls).length := by rw [cumul_length]; omega
  simp [top, cumul_cons, List.getD_eq_getElem?_getD, hk]

theorem top_eq : ∀ (ls : List Layer) (k : Nat), k ≤ ls.length → top ls k = ((ls.take k).map (·.t)).sum
  | ls, 0, _ => by simp [top_zero]
  | [], k + 1, h => by simp at h
  | l :: ls, k + 1, h => by
    have h' : k ≤ ls.length := by simpa using h
    rw [top_cons l ls k h', top_eq ls k h']; simp

theorem top_length (ls : List Layer) : top ls ls.length = depth ls := by
  rw [top_eq ls _ le_rfl]; simp [depth]

theorem last_cumul (ls : List Layer) : (cumul ls).getLast?.getD 0 = depth ls := by
  rw [← top_length, top, List.getLast?_eq_getElem?, cumul_length, List.getD_eq_getElem?_getD]; simp

theorem top_succ (ls : List Layer) (k : Nat) (h : k < ls.length) : top ls (k + 1) = top ls k + ls[k].t := by
  rw [top_eq ls _ (by omega), top_eq ls _ h.le, List.take_succ_eq_append_getElem h, List.map_append,
    List.sum_append, List.map_singleton, List.sum_singleton]

theorem top_mono (ls : List Layer) (h : Thick ls) {j k : Nat} (hjk : j ≤ k) (hk : k ≤ ls.length) :
    top ls j ≤ top ls k := by
  induction k, hjk using Nat.le_induction with
  | base => exact le_rfl
  | succ k hjk ih =>
    rw [top_succ ls k (by omega)]
    have := h _ (List.getElem_mem (by omega : k < ls.length))
    linarith [ih (by omega)]

theorem zlayer_eq (ls : List Layer) (z : ℝ) (k : Nat) (hk : k ≤ ls.length)
    (hlo : ∀ j < k, top ls j < z) (hhi : z ≤ top ls k) : zlayer ls z = k := by
  have hlen := cumul_length ls
  unfold zlayer
  have hT : ∀ j (hj : j < (cumul ls).length), (cumul ls)[j] = top ls j := by
    intro j hj; simp [top, List.getD_eq_getElem?_getD, hj]
  rw [List.findIdx_eq (by omega : k < (cumul ls).length)]
  refine ⟨by simp [hT, hhi], fun j hj => ?_⟩
  simp [hT, hlo j hj]

theorem zlayer_nonpos (ls : List Layer) (h : Thick ls) {z : ℝ} (hz : z ≤ 0) : zlayer ls z = 0 :=
  zlayer_eq ls z 0 (by omega) (by simp) (by rw [top_zero]; exact hz)

theorem zlayer_in (ls : List Layer) (h : Thick ls) {z : ℝ} {b : Nat} (hb : b < ls.length)
    (hlo : top ls b < z) (hhi : z ≤ top ls (b + 1)) : zlayer ls z = b + 1 :=
  zlayer_eq ls z (b + 1) (by omega) (fun j hj => lt_of_le_of_lt (top_mono ls h (by omega) hb.le) hlo) hhi

theorem zlayer_out (ls : List Layer) (h : Thick ls) {z : ℝ} (hz : depth ls < z) : zlayer ls z = ls.length + 1 := by
  unfold zlayer
  rw [← cumul_length ls, List.findIdx_eq_length]
  intro x hx
  obtain ⟨j, hj, rfl⟩ := List.mem_iff_getElem.1 hx
  have : (cumul ls)[j] = top ls j := by simp [top, List.getD_eq_getElem?_getD, hj]
  have hle : top ls j ≤ top ls ls.length := top_mono ls h (by rw [cumul_length] at hj; omega) le_rfl
  rw [top_length] at hle
  simp only [decide_eq_false_iff_not, this]
  linarith

/-- Every depth is before, in, or behind the sample. -/
theorem depth_cases (ls : List Layer) (z : ℝ) :
    z ≤ 0 ∨ (∃ b, b < ls.length ∧ top ls b < z ∧ z ≤ top ls (b + 1)) ∨ depth ls < z := by
  by_cases h0 : z ≤ 0
  · exact .inl h0
  push Not at h0
  by_cases h1 : depth ls < z
  · exact .inr (.inr h1)
  push Not at h1
  refine .inr (.inl ?_)
  have hex : ∃ k, k ≤ ls.length ∧ z ≤ top ls k := ⟨ls.length, le_rfl, by rw [top_length]; exact h1⟩
  classical
  obtain ⟨hk, hz⟩ := Nat.find_spec hex
  have hpos : Nat.find hex ≠ 0 := by
    intro e; rw [e, top_zero] at hz; linarith
  obtain ⟨b, hb⟩ := Nat.exists_eq_succ_of_ne_zero hpos
  refine ⟨b, by omega, ?_, by rw [hb] at hz; exact hz⟩
  have := Nat.find_min hex (m := b) (by omega)
  by_contra hc
  push Not at hc
  exact this ⟨by omega, hc⟩

theorem layerAt_in : ∀ (ls : List Layer), Thick ls → ∀ {z : ℝ} {b : Nat} (hb : b < ls.length),
    top ls b < z → z ≤ top ls (b + 1) → layerAt ls z = some ls[b]
  | l :: ls, h, z, 0, hb, hlo, hhi => by
    rw [top_zero] at hlo
    rw [top_cons l ls 0 (by omega), top_zero] at hhi
    simp [layerAt, hlo.not_ge, (by linarith : z ≤ l.t)]
  | l :: ls, h, z, b + 1, hb, hlo, hhi => by
    have hb' : b < ls.length := by simpa using hb
    rw [top_cons l ls b (by omega)] at hlo
    rw [top_cons l ls (b + 1) (by omega)] at hhi
    have h0 : 0 ≤ top ls b := by rw [← top_zero ls]; exact top_mono ls h.tail (by omega) (by omega)
    have ht := h.head
    have := layerAt_in ls h.tail (z := z - l.t) hb' (by linarith) (by linarith)
    simp only [layerAt, if_neg (by linarith : ¬ z ≤ 0), if_neg (by linarith : ¬ z ≤ l.t), this]
    simp

theorem layerAt_out : ∀ (ls : List Layer), Thick ls → ∀ {z : ℝ}, depth ls < z → layerAt ls z = none
  | [], _, z, _ => rfl
  | l :: ls, h, z, hz => by
    have hd : depth (l :: ls) = l.t + depth ls := by simp [depth]
    have hp : 0 ≤ depth ls := by
      rw [← top_length, ← top_zero ls]; exact top_mono ls h.tail (by omega) le_rfl
    have ht := h.head
    rw [hd] at hz
    simp only [layerAt, if_neg (by linarith : ¬ z ≤ 0), if_neg (by linarith : ¬ z ≤ l.t)]
    exact layerAt_out ls h.tail (by linarith)

/-! ## Attenuation in a layer -/

theorem through_nonpos : ∀ (ls : List Layer), Thick ls → ∀ (e : ℝ) {z : ℝ}, z ≤ 0 → through ls e z = 0
  | [], _, _, _, _ => rfl
  | l :: ls, h, e, z, hz => by
    have : max 0 (min z l.t) = 0 := max_eq_left (le_trans (min_le_left _ _) hz)
    simp [through, this, through_nonpos ls h.tail e (by linarith [h.head] : z - l.t ≤ 0)]

/-- What is above a layer. -/
noncomputable def above (ls : List Layer) (e : ℝ) (b : Nat) : ℝ := ((ls.take b).map fun l => l.mu e * l.t).sum

theorem through_in : ∀ (ls : List Layer), Thick ls → ∀ (e : ℝ) {z : ℝ} {b : Nat} (hb : b < ls.length),
    top ls b ≤ z → z ≤ top ls (b + 1) → through ls e z = above ls e b + ls[b].mu e * (z - top ls b)
  | l :: ls, h, e, z, 0, hb, hlo, hhi => by
    rw [top_zero] at hlo
    rw [top_cons l ls 0 (by omega), top_zero] at hhi
    have hz : z ≤ l.t := by linarith
    simp [through, min_eq_left hz, max_eq_right hlo, through_nonpos ls h.tail e (by linarith : z - l.t ≤ 0), above,
      top_zero]
  | l :: ls, h, e, z, b + 1, hb, hlo, hhi => by
    have hb' : b < ls.length := by simpa using hb
    rw [top_cons l ls b (by omega)] at hlo ⊢
    rw [top_cons l ls (b + 1) (by omega)] at hhi
    have h0 : 0 ≤ top ls b := by rw [← top_zero ls]; exact top_mono ls h.tail (by omega) (by omega)
    have ht := h.head
    have := through_in ls h.tail e (z := z - l.t) hb' (by linarith) (by linarith)
    simp only [through, min_eq_right (by linarith : l.t ≤ z), max_eq_right ht, this, above, List.take_succ_cons,
      List.map_cons, List.sum_cons, List.getElem_cons_succ]
    ring

theorem above_length (ls : List Layer) (e : ℝ) : above ls e ls.length = (ls.map fun l => l.mu e * l.t).sum := by
  simp [above]

theorem above_succ (ls : List Layer) (e : ℝ) (b : Nat) (hb : b < ls.length) :
    above ls e (b + 1) = above ls e b + ls[b].mu e * ls[b].t := by
  rw [above, above, List.take_succ_eq_append_getElem hb, List.map_append, List.sum_append, List.map_singleton,
    List.sum_singleton]

theorem through_out : ∀ (ls : List Layer), Thick ls → ∀ (e : ℝ) {z : ℝ}, depth ls ≤ z →
    through ls e z = above ls e ls.length
  | [], _, _, _, _ => by simp [through, above]
  | l :: ls, h, e, z, hz => by
    have hd : depth (l :: ls) = l.t + depth ls := by simp [depth]
    have hp : 0 ≤ depth ls := by
      rw [← top_length, ← top_zero ls]; exact top_mono ls h.tail (by omega) le_rfl
    have ht := h.head
    rw [hd] at hz
    have := through_out ls h.tail e (z := z - l.t) (by linarith)
    simp only [through, min_eq_right (by linarith : l.t ≤ z), max_eq_right ht, this, above_length]
    simp

theorem sum_range_eq (n : Nat) (f : Nat → ℝ) : ((List.range n).map f).sum = ∑ i ∈ Finset.range n, f i := by
  induction n with
  | zero => rfl
  | succ n ih => rw [List.range_succ, Finset.sum_range_succ]; simp [ih]

theorem linatt_in (ls : List Layer) (e : ℝ) (b : Nat) (hb : b < ls.length) :
    (linatt ls e).getD (b + 1) 0 = ls[b].mu e := by
  simp [linatt, List.getD_eq_getElem?_getD, hb, List.getElem?_append_left]

theorem corAt_eq (ls : List Layer) (e : ℝ) (b : Nat) (hb : b < ls.length) :
    corAt ls e b = above ls e b - ls[b].mu e * top ls b := by
  have key : ∀ k, k ≤ ls.length →
      (∑ a ∈ Finset.range k, ((linatt ls e).getD (a + 1) 0 - (linatt ls e).getD (b + 1) 0) *
        ((ls.map (·.t)).getD a 0)) = above ls e k - ls[b].mu e * top ls k := by
    intro k
    induction k with
    | zero => intro _; simp [above, top_zero]
    | succ k ih =>
      intro hk
      have hk' : k < ls.length := by omega
      rw [Finset.sum_range_succ, ih hk'.le, linatt_in ls e k hk', linatt_in ls e b hb, above_succ ls e k hk',
        top_succ ls k hk']
      have : (ls.map (·.t)).getD k 0 = ls[k].t := by simp [List.getD_eq_getElem?_getD, hk']
      rw [this]; ring
  have hsum : corAt ls e b = ∑ a ∈ Finset.range (b + 1),
      ((linatt ls e).getD (a + 1) 0 - (linatt ls e).getD (b + 1) 0) * ((ls.map (·.t)).getD a 0) := by
    unfold corAt
    rw [sum_range_eq, ← Finset.sum_filter]
    congr 1
    ext a
    simp only [Finset.mem_filter, Finset.mem_range]
    omega
  rw [hsum, key (b + 1) hb, above_succ ls e b hb, top_succ ls b hb]
  ring

theorem cumulcor_in (ls : List Layer) (e : ℝ) (b : Nat) (hb : b < ls.length) :
    (cumulcor ls e).getD (b + 1) 0 = above ls e b - ls[b].mu e * top ls b := by
  rw [← corAt_eq ls e b hb]
  simp [cumulcor, List.getD_eq_getElem?_getD, hb, List.getElem?_append_left]

theorem cumulcor_out (ls : List Layer) (e : ℝ) :
    (cumulcor ls e).getD (ls.length + 1) 0 = above ls e ls.length := by
  rw [above_length]
  simp [cumulcor, List.getD_eq_getElem?_getD]

theorem linatt_out (ls : List Layer) (e : ℝ) : (linatt ls e).getD (ls.length + 1) 0 = 0 := by
  simp [linatt, List.getD_eq_getElem?_getD]

theorem cumAtt_through (ls : List Layer) (h : Thick ls) (z e : ℝ) : cumAtt ls z e = through ls e z := by
  unfold cumAtt
  rcases depth_cases ls z with hz | ⟨b, hb, hlo, hhi⟩ | hz
  · rw [zlayer_nonpos ls h hz, through_nonpos ls h e hz]; simp [linatt, cumulcor]
  · rw [zlayer_in ls h hb hlo hhi, through_in ls h e hb hlo.le hhi, linatt_in ls e b hb, cumulcor_in ls e b hb]; ring
  · rw [zlayer_out ls h hz, through_out ls h e hz.le, linatt_out, cumulcor_out]; ring

end SC.Multilayer
