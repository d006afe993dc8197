import Verif.Multilayer.Lemmas
/-! # The analytical rate is an integral -/
namespace SC.Multilayer
open MeasureTheory

theorem zexit_eq (m : Sample) : zexit m = exitAt m := by
  unfold zexit exitAt; rw [last_cumul]

theorem transmission_through (ls : List Layer) (h : Thick ls) (zi zj cos e : ℝ) :
    transmission ls zi zj cos e = Real.exp (-(through ls e zj - through ls e zi) / cos) := by
  unfold transmission; rw [cumAtt_through ls h, cumAtt_through ls h]

theorem left_through (ls : List Layer) (h : Thick ls) (e cos a b : ℝ) :
    left ls e cos a b = Real.exp (-(through ls e b - through ls e a) / cos) := by
  unfold left; rw [integral_muAt_between ls h]

theorem nearest_spec (en0 : List ℝ) {x : ℝ} (hx : x ∈ en0) : en0[nearest en0 x]? = some x := by
  have hex : ∃ e ∈ en0, decide (∀ e' ∈ en0, |e - x| ≤ |e' - x|) = true := ⟨x, hx, by simp⟩
  have hlt : nearest en0 x < en0.length := List.findIdx_lt_length.2 hex
  have hp := List.findIdx_getElem (w := hlt)
  rw [List.getElem?_eq_getElem hlt]
  have h := of_decide_eq_true hp x hx
  simp only [sub_self, abs_zero] at h
  have : |en0[nearest en0 x] - x| = 0 := le_antisymm h (abs_nonneg _)
  rw [abs_eq_zero, sub_eq_zero] at this
  exact congrArg some this

theorem probAt_chance (m : Sample) (h : Thick m.layers) (en0 : List ℝ) {e0 : ℝ} (he : e0 ∈ en0) (k : Line) (z : ℝ) :
    probAt m en0 z e0 k = chance m.layers e0 k z := by
  unfold probAt chance
  rw [nearest_spec en0 he]
  rcases depth_cases m.layers z with hz | ⟨b, hb, hlo, hhi⟩ | hz
  · rw [zlayer_nonpos _ h hz, layerAt_nonpos _ hz]; rfl
  · rw [zlayer_in _ h hb hlo hhi, layerAt_in _ h hb hlo hhi]; simp [hb]
  · rw [zlayer_out _ h hz, layerAt_out _ h hz]; simp

/-- The intensity from a depth, without the chance. -/
noncomputable def seen (m : Sample) (e0 e1 z : ℝ) : ℝ :=
  left m.layers e0 m.cosin 0 z * left m.layers e1 m.cosout z (exitAt m)

theorem seen_pos (m : Sample) (e0 e1 z : ℝ) : 0 < seen m e0 e1 z := mul_pos (Real.exp_pos _) (Real.exp_pos _)

/-- The exponent of `seen` in a layer. -/
theorem seen_in (m : Sample) (h : Thick m.layers) (e0 e1 : ℝ) {z : ℝ} {b : Nat} (hb : b < m.layers.length)
    (hlo : top m.layers b ≤ z) (hhi : z ≤ top m.layers (b + 1)) :
    seen m e0 e1 z =
      Real.exp ((m.layers[b].mu e1 / m.cosout - m.layers[b].mu e0 / m.cosin) * z) *
      (Real.exp ((above m.layers e1 b - m.layers[b].mu e1 * top m.layers b) / m.cosout -
        (above m.layers e0 b - m.layers[b].mu e0 * top m.layers b) / m.cosin) *
      (if m.reflection then 1 else Real.exp (-(above m.layers e1 m.layers.length / m.cosout)))) := by
  unfold seen
  rw [left_through _ h, left_through _ h, through_in _ h e0 hb hlo hhi, through_in _ h e1 hb hlo hhi,
    through_nonpos _ h e0 le_rfl]
  unfold exitAt
  cases m.reflection with
  | true =>
    simp only [if_true, through_nonpos _ h e1 le_rfl, mul_one]
    rw [← Real.exp_add, ← Real.exp_add]; congr 1; ring
  | false =>
    simp only [Bool.false_eq_true, if_false, through_out _ h e1 le_rfl]
    rw [← Real.exp_add, ← Real.exp_add, ← Real.exp_add]; congr 1; ring

theorem integral_exp_lin (c a b : ℝ) (hc : c ≠ 0) :
    ∫ z in a..b, Real.exp (c * z) = (Real.exp (c * b) - Real.exp (c * a)) / c := by
  rw [intervalIntegral.integral_comp_mul_left (fun x => Real.exp x) hc, integral_exp]
  simp [div_eq_inv_mul]

theorem seen_congr (m : Sample) (h : Thick m.layers) (e0 e1 : ℝ) {b : Nat} (hb : b < m.layers.length) :
    ∀ z ∈ Set.uIcc (top m.layers b) (top m.layers (b + 1)), seen m e0 e1 z =
      Real.exp ((m.layers[b].mu e1 / m.cosout - m.layers[b].mu e0 / m.cosin) * z) *
      (Real.exp ((above m.layers e1 b - m.layers[b].mu e1 * top m.layers b) / m.cosout -
        (above m.layers e0 b - m.layers[b].mu e0 * top m.layers b) / m.cosin) *
      (if m.reflection then 1 else Real.exp (-(above m.layers e1 m.layers.length / m.cosout)))) := by
  intro z hz
  rw [Set.uIcc_of_le (top_mono _ h (by omega) (by omega))] at hz
  exact seen_in m h e0 e1 hb hz.1 hz.2

theorem seen_integrable (m : Sample) (h : Thick m.layers) (e0 e1 : ℝ) {b : Nat} (hb : b < m.layers.length) :
    IntervalIntegrable (seen m e0 e1) volume (top m.layers b) (top m.layers (b + 1)) := by
  refine IntervalIntegrable.congr (f := fun z =>
      Real.exp ((m.layers[b].mu e1 / m.cosout - m.layers[b].mu e0 / m.cosin) * z) *
      (Real.exp ((above m.layers e1 b - m.layers[b].mu e1 * top m.layers b) / m.cosout -
        (above m.layers e0 b - m.layers[b].mu e0 * top m.layers b) / m.cosin) *
      (if m.reflection then 1 else Real.exp (-(above m.layers e1 m.layers.length / m.cosout))))) ?_ ?_
  · intro z hz
    exact (seen_congr m h e0 e1 hb z (Set.uIoc_subset_uIcc hz)).symm
  · exact (by fun_prop : Continuous fun z : ℝ =>
      Real.exp ((m.layers[b].mu e1 / m.cosout - m.layers[b].mu e0 / m.cosin) * z) *
      (Real.exp ((above m.layers e1 b - m.layers[b].mu e1 * top m.layers b) / m.cosout -
        (above m.layers e0 b - m.layers[b].mu e0 * top m.layers b) / m.cosin) *
      (if m.reflection then (1 : ℝ) else
        Real.exp (-(above m.layers e1 m.layers.length / m.cosout))))).intervalIntegrable _ _

/-- The corrected thickness of a layer is the integral of what is seen of it. -/
theorem effThickness_eq (m : Sample) (h : Thick m.layers) (e0 e1 : ℝ) {b : Nat} (hb : b < m.layers.length)
    (hc : m.layers[b].mu e1 / m.cosout ≠ m.layers[b].mu e0 / m.cosin) :
    effThickness m e0 e1 b = some (∫ z in (top m.layers b)..(top m.layers (b + 1)), seen m e0 e1 z) := by
  have hc' : m.layers[b].mu e1 / m.cosout - m.layers[b].mu e0 / m.cosin ≠ 0 := sub_ne_zero.2 hc
  rw [intervalIntegral.integral_congr (seen_congr m h e0 e1 hb), intervalIntegral.integral_mul_const,
    integral_exp_lin _ _ _ hc']
  unfold effThickness
  simp only [linatt_in _ _ b hb, cumulcor_in _ _ b hb, cumulcor_out, if_neg hc']
  congr 1
  cases m.reflection
  · simp only [Bool.false_eq_true, if_false, top]; ring
  · simp only [if_true, top]; ring

theorem effThickness_nan (m : Sample) (e0 e1 : ℝ) {b : Nat} (hb : b < m.layers.length)
    (hc : m.layers[b].mu e1 / m.cosout = m.layers[b].mu e0 / m.cosin) : effThickness m e0 e1 b = none := by
  unfold effThickness
  simp only [linatt_in _ _ b hb, hc, sub_self, if_true]

/-- The integral over the sample is the sum over the layers. -/
theorem integral_layers (m : Sample) (h : Thick m.layers) (k : Line) (e0 e1 : ℝ) :
    ∫ z in (0 : ℝ)..(depth m.layers),
      left m.layers e0 m.cosin 0 z * chance m.layers e0 k z * left m.layers e1 m.cosout z (exitAt m) =
    ((List.range m.layers.length).map fun b =>
      (∫ z in (top m.layers b)..(top m.layers (b + 1)), seen m e0 e1 z) *
        ((m.layers.map fun l => l.prob e0 k).getD b 0)).sum := by
  have hin : ∀ b (hb : b < m.layers.length), ∀ z ∈ Set.uIoc (top m.layers b) (top m.layers (b + 1)),
      left m.layers e0 m.cosin 0 z * chance m.layers e0 k z * left m.layers e1 m.cosout z (exitAt m) =
        seen m e0 e1 z * ((m.layers.map fun l => l.prob e0 k).getD b 0) := by
    intro b hb z hz
    rw [Set.uIoc_of_le (top_mono _ h (by omega) (by omega))] at hz
    have : chance m.layers e0 k z = (m.layers.map fun l => l.prob e0 k).getD b 0 := by
      unfold chance; rw [layerAt_in _ h hb hz.1 hz.2]; simp [List.getD_eq_getElem?_getD, hb]
    rw [this]; unfold seen; ring
  have hint : ∀ b, b < m.layers.length → IntervalIntegrable (fun z =>
      left m.layers e0 m.cosin 0 z * chance m.layers e0 k z * left m.layers e1 m.cosout z (exitAt m)) volume
      (top m.layers b) (top m.layers (b + 1)) := by
    intro b hb
    exact ((seen_integrable m h e0 e1 hb).mul_const _).congr (fun z hz => (hin b hb z hz).symm)
  have hsum := intervalIntegral.sum_integral_adjacent_intervals (a := top m.layers) (n := m.layers.length) hint
  rw [top_zero, top_length] at hsum
  rw [← hsum, sum_range_eq]
  refine Finset.sum_congr rfl fun b hb => ?_
  have hb' : b < m.layers.length := Finset.mem_range.1 hb
  rw [← intervalIntegral.integral_mul_const]
  exact intervalIntegral.integral_congr_ae (Filter.Eventually.of_forall fun z hz => hin b hb' z hz)

theorem mapM_some {α β : Type} (f : α → Option β) (g : α → β) : ∀ (l : List α), (∀ a ∈ l, f a = some (g a)) →
    l.mapM f = some (l.map g)
  | [], _ => rfl
  | a :: l, h => by
    rw [List.mapM_cons, h a List.mem_cons_self, mapM_some f g l fun x hx => h x (List.mem_cons_of_mem _ hx)]; rfl

theorem mapM_none {α β : Type} (f : α → Option β) : ∀ (l : List α), (∃ a ∈ l, f a = none) → l.mapM f = none
  | [], h => by simp at h
  | a :: l, h => by
    rw [List.mapM_cons]
    cases hf : f a with
    | none => rfl
    | some x =>
      obtain ⟨c, hc, hn⟩ := h
      rcases List.mem_cons.1 hc with rfl | hc
      · rw [hf] at hn; cases hn
      · rw [mapM_none f l ⟨c, hc, hn⟩]; rfl

theorem rate_some (m : Sample) (j : Nat → Option ℝ) (g : Nat → ℝ) (e0 : ℝ) (k : Line)
    (hj : ∀ b < m.layers.length, j b = some (g b)) :
    rate m j e0 k = some (m.solidangle / m.cosin * ((List.range m.layers.length).map fun b =>
      g b * ((m.layers.map fun l => l.prob e0 k).getD b 0)).sum) := by
  unfold rate
  rw [mapM_some _ (fun b => g b * (m.solidangle / m.cosin) * ((m.layers.map fun l => l.prob e0 k).getD b 0))]
  · simp only [Option.map_some, Option.some.injEq]
    rw [← List.sum_map_mul_left]
    congr 1
    refine List.map_congr_left fun b _ => ?_
    ring
  · intro b hb
    rw [hj b (List.mem_range.1 hb)]; rfl

theorem rate_eff (m : Sample) (h : Thick m.layers) (e0 e1 : ℝ) (k : Line) (hc : NoCancel m e0 e1) :
    rate m (effThickness m e0 e1) e0 k = some (trueRate m k e0 e1) := by
  rw [rate_some m _ (fun b => ∫ z in (top m.layers b)..(top m.layers (b + 1)), seen m e0 e1 z) e0 k
    (fun b hb => effThickness_eq m h e0 e1 hb (hc _ (List.getElem_mem hb))), trueRate, integral_layers m h]

theorem rate_nan (m : Sample) (e0 e1 : ℝ) (k : Line) (hc : ¬ NoCancel m e0 e1) :
    rate m (effThickness m e0 e1) e0 k = none := by
  unfold NoCancel at hc
  push Not at hc
  obtain ⟨l, hl, he⟩ := hc
  obtain ⟨b, hb, rfl⟩ := List.mem_iff_getElem.1 hl
  unfold rate
  rw [mapM_none _ _ ⟨b, List.mem_range.2 hb, by rw [effThickness_nan m e0 e1 hb he]; rfl⟩]; rfl

/-! ## The energies of the lines -/

theorem expanded_filter (m : Sample) (en0 : List ℝ) (p : Line → Bool) (columns : List Line) :
    ((expanded m en0 columns).filter fun q => p q.1) = (columns.filter p).flatMap fun k =>
      (energies m en0 k).map fun e => (k, e) := by
  unfold expanded
  induction columns with
  | nil => rfl
  | cons k ks ih =>
    rw [List.flatMap_cons, List.filter_append, ih]
    cases hp : p k
    · rw [List.filter_cons_of_neg (by simp [hp])]
      have : ((energies m en0 k).map fun e => (k, e)).filter (fun q => p q.1) = [] := by
        rw [List.filter_eq_nil_iff]
        intro q hq
        obtain ⟨e, _, rfl⟩ := List.mem_map.1 hq
        simp [hp]
      rw [this, List.nil_append]
    · rw [List.filter_cons_of_pos hp, List.flatMap_cons]
      congr 1
      rw [List.filter_eq_self]
      intro q hq
      obtain ⟨e, _, rfl⟩ := List.mem_map.1 hq
      exact hp

theorem filter_eq_of_nodup (k : Line) : ∀ (l : List Line), l.Nodup → k ∈ l → (l.filter fun x => decide (x = k)) = [k]
  | a :: l, hn, hk => by
    rw [List.nodup_cons] at hn
    by_cases h : a = k
    · subst h
      rw [List.filter_cons_of_pos (by simp)]
      have : (l.filter fun x => decide (x = a)) = [] := by
        rw [List.filter_eq_nil_iff]; intro x hx; simp only [decide_eq_true_eq]; rintro rfl; exact hn.1 hx
      rw [this]
    · rw [List.filter_cons_of_neg (by simp [h])]
      exact filter_eq_of_nodup k l hn.2 (by
        rcases List.mem_cons.1 hk with rfl | hk
        · exact absurd rfl h
        · exact hk)

theorem diagonal_eq (m : Sample) (en0 : List ℝ) (columns : List Line) (hn : columns.Nodup) (k : Line)
    (hk : k ∈ columns) (hl : (energies m en0 k).length = en0.length) :
    diagonal en0 (expanded m en0 columns) k = .ok (energies m en0 k) := by
  unfold diagonal
  have := expanded_filter m en0 (fun x => decide (x = k)) columns
  rw [filter_eq_of_nodup k columns hn hk] at this
  simp only [this, List.flatMap_cons, List.flatMap_nil, List.append_nil, List.map_map]
  have hid : (energies m en0 k).map (Prod.snd ∘ fun e => (k, e)) = energies m en0 k := by
    rw [show (Prod.snd ∘ fun e : ℝ => (k, e)) = id from rfl, List.map_id]
  rw [hid, if_pos hl]

/-- The fluorescence lines of the columns. -/
def fluos (columns : List Line) : List Line :=
  columns.filter fun k => decide (k ≠ .compton) && decide (k ≠ .rayleigh)

theorem fluos_energies (m : Sample) (en0 : List ℝ) (columns : List Line) (e : ℝ) :
    (fluos columns).flatMap (energies m en0) = (fluos columns).map (energyOf m e) := by
  unfold fluos
  induction columns with
  | nil => rfl
  | cons k ks ih =>
    cases k with
    | fluo i => simp only [ne_eq, reduceCtorEq, not_false_eq_true, decide_true, Bool.and_self, List.filter_cons_of_pos,
        List.flatMap_cons, List.map_cons] at ih ⊢
                rw [ih]; rfl
    | compton => simpa using ih
    | rayleigh => simpa using ih

theorem reduced_eq (m : Sample) (en0 : List ℝ) (columns : List Line) (hn : columns.Nodup)
    (hC : .compton ∈ columns) (hR : .rayleigh ∈ columns) :
    ∃ f, reduced en0 (expanded m en0 columns) = .ok f ∧
      ∀ s (hs : s < en0.length), f s = (fluos columns ++ [Line.compton, Line.rayleigh]).map (energyOf m en0[s]) := by
  have hc := diagonal_eq m en0 columns hn .compton hC (by simp [energies])
  have hr := diagonal_eq m en0 columns hn .rayleigh hR (by simp [energies])
  unfold reduced
  rw [hc, hr]
  refine ⟨_, rfl, fun s hs => ?_⟩
  have := expanded_filter m en0 (fun k => decide (k ≠ .compton) && decide (k ≠ .rayleigh)) columns
  simp only [this]
  rw [List.map_flatMap]
  have hid : (fun k => ((energies m en0 k).map fun e => (k, e)).map Prod.snd) = energies m en0 := by
    funext k
    rw [List.map_map, show (Prod.snd ∘ fun e : ℝ => (k, e)) = id from rfl, List.map_id]
  rw [hid, ← fluos, fluos_energies m en0 columns en0[s], List.map_append]
  simp [energies, energyOf, hs]

theorem erase_fluos : ∀ (columns : List Line), columns.Nodup →
    (columns.erase .compton).erase .rayleigh = fluos columns := by
  intro columns hn
  rw [hn.erase_eq_filter, (hn.filter _).erase_eq_filter, List.filter_filter]
  unfold fluos
  congr 1
  funext k
  cases k <;> rfl

theorem lines_eq (columns : List Line) (hn : columns.Nodup) (hC : .compton ∈ columns) (hR : .rayleigh ∈ columns) :
    (moveLast .compton columns >>= moveLast .rayleigh) = .ok (fluos columns ++ [.compton, .rayleigh]) := by
  have h1 : Line.rayleigh ∈ columns.erase .compton := (List.mem_erase_of_ne (by decide)).2 hR
  simp only [moveLast, hC, if_true, bind, Except.bind]
  rw [if_pos (List.mem_append_left _ h1), List.erase_append_left _ h1, erase_fluos columns hn]
  simp

end SC.Multilayer
