import Verif.Multilayer.Lemmas2
import Verif.Detector.Props
import Verif.Geometry.Model
/-! # C58: attenuation and fluorescence in a multilayer -/
namespace SC.Multilayer
open MeasureTheory

/-! ## Depths and attenuation -/

/-- C58: the index of a depth is 0 before the sample, one more than the number of layers behind it, and otherwise that
of the layer at the depth. -/
theorem zlayer_spec (ls : List Layer) (h : Thick ls) (z : ℝ) :
    (z ≤ 0 → zlayer ls z = 0) ∧ (depth ls < z → 0 < z → zlayer ls z = ls.length + 1) ∧
    (0 < z → z ≤ depth ls → ∃ b, zlayer ls z = b + 1 ∧ ls[b]? = layerAt ls z ∧ (layerAt ls z).isSome) := by
  refine ⟨zlayer_nonpos ls h, fun hz _ => zlayer_out ls h hz, fun h0 hz => ?_⟩
  rcases depth_cases ls z with hz' | ⟨b, hb, hlo, hhi⟩ | hz'
  · linarith
  · exact ⟨b, zlayer_in ls h hb hlo hhi, by rw [layerAt_in ls h hb hlo hhi]; simp [hb],
      by rw [layerAt_in ls h hb hlo hhi]; rfl⟩
  · linarith

/-- C58: the attenuation down to a depth is the integral of the attenuation coefficients on the way, also before and
behind the sample. -/
theorem cumAtt_integral (ls : List Layer) (h : Thick ls) (z e : ℝ) : cumAtt ls z e = ∫ x in (0 : ℝ)..z, muAt ls e x := by
  rw [cumAtt_through ls h, integral_muAt ls h]

/-- C58: before the sample there is no attenuation, behind it that of all layers. -/
theorem cumAtt_ends (ls : List Layer) (h : Thick ls) (z e : ℝ) :
    (z ≤ 0 → cumAtt ls z e = 0) ∧ (depth ls ≤ z → cumAtt ls z e = (ls.map fun l => l.mu e * l.t).sum) := by
  rw [cumAtt_through ls h]
  exact ⟨through_nonpos ls h e, fun hz => by rw [through_out ls h e hz, above_length]⟩

/-- C58: the transmission between two depths is the part of the intensity left. -/
theorem transmission_left (ls : List Layer) (h : Thick ls) (zi zj cos e : ℝ) :
    transmission ls zi zj cos e = left ls e cos zi zj := by
  rw [transmission_through ls h, left_through ls h]

/-- C58: the transmission over two parts of a way is the product of those of the parts, and the way back gives the
inverse. -/
theorem transmission_mul (ls : List Layer) (a b c cos e : ℝ) :
    transmission ls a b cos e * transmission ls b c cos e = transmission ls a c cos e ∧
    transmission ls a b cos e * transmission ls b a cos e = 1 := by
  unfold transmission
  rw [← Real.exp_add, ← Real.exp_add]
  constructor
  · congr 1; ring
  · rw [← Real.exp_zero]; congr 1; ring

/-! ## Rates -/

/-- C58: the numerical method gives the rate of every line for every line of the source. -/
theorem numerical_rates (m : Sample) (h : Thick m.layers) (en0 : List ℝ) (columns : List Line) :
    ratesNumerical m en0 columns = columns.map fun k => (k, en0.map fun e0 => trueRate m k e0 (energyOf m e0 k)) := by
  unfold ratesNumerical
  refine List.map_congr_left fun k _ => ?_
  have hp : pairs m en0 k = en0.map fun e0 => (e0, energyOf m e0 k) := by
    cases k with
    | fluo i => rfl
    | compton => simp only [pairs, energies, energyOf, List.zip_map_right, List.map_prod_right_eq_zip]
                 induction en0 with
                 | nil => rfl
                 | cons e es ih => simp [ih]
    | rayleigh => simp only [pairs, energies, energyOf]
                  induction en0 with
                  | nil => rfl
                  | cons e es ih => simp [ih]
  rw [hp, List.map_map]
  refine Prod.ext rfl (List.map_congr_left fun e0 he => ?_)
  simp only [Function.comp_apply, last_cumul, trueRate]
  rw [mul_comm]
  congr 1
  refine intervalIntegral.integral_congr fun z _ => ?_
  simp only [path]
  rw [transmission_left _ h, transmission_left _ h, probAt_chance m h en0 he, zexit_eq, mul_assoc]

open Classical in
/-- C58: the analytical method gives, for the same lines (scattering at the end), the same rates; the value is lost
where attenuation on the way in and out cancel in a layer. -/
theorem analytical_rates (m : Sample) (h : Thick m.layers) (en0 : List ℝ) (columns : List Line) (hn : columns.Nodup)
    (hC : .compton ∈ columns) (hR : .rayleigh ∈ columns) :
    ∃ lines : List Line, lines.Perm columns ∧ rates m en0 columns = .ok (lines.map fun k => (k, en0.map fun e0 =>
      if NoCancel m e0 (energyOf m e0 k) then some (trueRate m k e0 (energyOf m e0 k)) else none)) := by
  refine ⟨fluos columns ++ [.compton, .rayleigh], ?_, ?_⟩
  · have h1 : columns.Perm (.compton :: .rayleigh :: fluos columns) := by
      have a := List.perm_cons_erase hC
      have hR' : Line.rayleigh ∈ columns.erase .compton := (List.mem_erase_of_ne (by decide)).2 hR
      have b := List.perm_cons_erase hR'
      rw [erase_fluos columns hn] at b
      exact a.trans (b.cons _)
    refine List.Perm.trans ?_ h1.symm
    exact List.perm_append_comm
  · obtain ⟨f, hf, hfs⟩ := reduced_eq m en0 columns hn hC hR
    have hl := lines_eq columns hn hC hR
    unfold rates
    rw [hf]
    cases hm : moveLast .compton columns with
    | error e => rw [hm] at hl; cases hl
    | ok l =>
      rw [hm] at hl
      have hl' : moveLast .rayleigh l = .ok (fluos columns ++ [.compton, .rayleigh]) := hl
      simp only [bind, Except.bind, hl', pure, Except.pure]
      congr 1
      apply List.ext_getElem
      · simp
      · intro i h1 h2
        simp only [List.getElem_map, List.getElem_zipIdx, Nat.zero_add]
        refine Prod.ext rfl ?_
        apply List.ext_getElem
        · simp
        · intro s hs1 hs2
          have hs : s < en0.length := by simpa using hs2
          have hi : i < (fluos columns ++ [Line.compton, Line.rayleigh]).length := by simpa using h2
          simp only [List.getElem_map, List.getElem_zipIdx, Nat.zero_add]
          have he : (f s).getD i 0 = energyOf m en0[s] (fluos columns ++ [Line.compton, Line.rayleigh])[i] := by
            rw [hfs s hs, List.getD_eq_getElem?_getD, List.getElem?_map, List.getElem?_eq_getElem hi]; rfl
          rw [he]
          split
          · rename_i hc; exact rate_eff m h _ _ _ hc
          · rename_i hc; exact rate_nan m _ _ _ hc

/-- C58: both methods agree for every line and every line of the source, wherever the analytical one gives a value. -/
theorem methods_agree (m : Sample) (h : Thick m.layers) (en0 : List ℝ) (columns : List Line) (hn : columns.Nodup)
    (hC : .compton ∈ columns) (hR : .rayleigh ∈ columns) (rs) (hrs : rates m en0 columns = .ok rs)
    (k : Line) (row : List (Option ℝ)) (hk : (k, row) ∈ rs) :
    ∃ row', (k, row') ∈ ratesNumerical m en0 columns ∧ row.length = row'.length ∧
      ∀ (s : Nat) (x : ℝ), row[s]? = some (some x) → row'[s]? = some x := by
  classical
  obtain ⟨lines, hp, he⟩ := analytical_rates m h en0 columns hn hC hR
  rw [hrs, Except.ok.injEq] at he
  subst he
  obtain ⟨k', hk', heq⟩ := List.mem_map.1 hk
  obtain ⟨rfl, rfl⟩ := Prod.mk.inj heq
  rw [numerical_rates m h]
  refine ⟨_, List.mem_map.2 ⟨k', hp.mem_iff.1 hk', rfl⟩, by simp, fun s x hx => ?_⟩
  rw [List.getElem?_map] at hx ⊢
  cases hs : en0[s]? with
  | none => rw [hs] at hx; cases hx
  | some e0 =>
    rw [hs] at hx
    simp only [Option.map_some, Option.some.injEq] at hx ⊢
    split at hx
    · exact Option.some.inj hx
    · cases hx

/-- C58: without the lines of scattering the analytical method fails. -/
theorem no_scattering_fails (m : Sample) (en0 : List ℝ) (h0 : en0 ≠ []) (columns : List Line)
    (hk : .compton ∉ columns ∨ .rayleigh ∉ columns) : ∃ e, rates m en0 columns = .error e := by
  have key : ∀ k, k ∉ columns → diagonal en0 (expanded m en0 columns) k = .error .indexError := by
    intro k hk
    unfold diagonal
    have := expanded_filter m en0 (fun x => decide (x = k)) columns
    have hnil : (columns.filter fun x => decide (x = k)) = [] := by
      rw [List.filter_eq_nil_iff]; intro x hx; simp only [decide_eq_true_eq]; rintro rfl; exact hk hx
    rw [hnil] at this
    simp only [this, List.flatMap_nil, List.map_nil, List.length_nil]
    rw [if_neg]
    intro hc
    exact h0 (List.length_eq_zero_iff.1 hc.symm)
  unfold rates reduced
  rcases hk with hk | hk
  · rw [key _ hk]; exact ⟨_, rfl⟩
  · rw [key _ hk]
    cases diagonal en0 (expanded m en0 columns) .compton with
    | error e => exact ⟨_, rfl⟩
    | ok c => exact ⟨_, rfl⟩

/-- C58 (finding): behind the sample, with the detector under the angle of the beam, the rate of Rayleigh scattering is
lost for all samples. -/
theorem rayleigh_lost (f : Geometry.Flat) (ha : f.angleout = -f.anglein) (m : Sample) (h : Thick m.layers)
    (hin : m.cosin = f.cosnormin) (hout : m.cosout = f.cosnormout) (hl : m.layers ≠ []) (en0 : List ℝ)
    (columns : List Line) (hn : columns.Nodup) (hC : .compton ∈ columns) (hR : .rayleigh ∈ columns) :
    ∃ rs, rates m en0 columns = .ok rs ∧ (.rayleigh, en0.map fun _ => none) ∈ rs := by
  classical
  obtain ⟨lines, hp, he⟩ := analytical_rates m h en0 columns hn hC hR
  refine ⟨_, he, List.mem_map.2 ⟨.rayleigh, hp.mem_iff.2 hR, Prod.ext rfl (List.map_congr_left fun e0 _ => ?_)⟩⟩
  rw [if_neg]
  intro hc
  obtain ⟨l, hl⟩ := List.exists_mem_of_ne_nil _ hl
  apply hc l hl
  have : m.cosout = m.cosin := by
    rw [hin, hout]
    simp only [Geometry.Flat.cosnormin, Geometry.Flat.cosnormout, Geometry.Flat.anglenormin,
      Geometry.Flat.anglenormout, ha]
    congr 2
  simp only [energyOf, this]

/-- The rate without attenuation. -/
noncomputable def thinRate (m : Sample) (k : Line) (e0 : ℝ) : ℝ :=
  m.solidangle / m.cosin * (m.layers.map fun l => l.t * l.prob e0 k).sum

theorem sum_layers (m : Sample) (f : Layer → ℝ) (g : Nat → ℝ) (hg : ∀ b (hb : b < m.layers.length), g b = f m.layers[b]) :
    ((List.range m.layers.length).map g).sum = (m.layers.map f).sum := by
  congr 1
  apply List.ext_getElem
  · simp
  · intro b h1 h2
    have hb : b < m.layers.length := by simpa using h2
    simp only [List.getElem_map, List.getElem_range]
    exact hg b hb

/-- C58: without self-absorption a rate is the sum over the layers of thickness times chance. -/
theorem thin_rates (m : Sample) (en0 : List ℝ) (columns : List Line) :
    ratesThin m en0 columns = columns.map fun k => (k, en0.map fun e0 => some (thinRate m k e0)) := by
  unfold ratesThin
  refine List.map_congr_left fun k _ => Prod.ext rfl (List.map_congr_left fun e0 _ => ?_)
  rw [rate_some m _ (fun b => (m.layers.map (·.t)).getD b 0) e0 k (fun _ _ => rfl), thinRate]
  congr 2
  refine sum_layers m _ _ fun b hb => ?_
  simp [List.getD_eq_getElem?_getD, hb]

/-- The detector on the side where the radiation leaves the sample. -/
def Outwards (m : Sample) : Prop := 0 < m.cosin ∧ (if m.reflection then m.cosout < 0 else 0 < m.cosout)

theorem muAt_nonneg : ∀ (ls : List Layer) (e : ℝ), (∀ l ∈ ls, 0 ≤ l.mu e) → ∀ z, 0 ≤ muAt ls e z
  | [], e, _, z => by simp [muAt, layerAt]
  | l :: ls, e, h, z => by
    unfold muAt layerAt
    split
    · simp
    · split
      · simpa using h l List.mem_cons_self
      · exact muAt_nonneg ls e (fun x hx => h x (List.mem_cons_of_mem _ hx)) _

theorem through_bounds (ls : List Layer) (h : Thick ls) (e : ℝ) (hmu : ∀ l ∈ ls, 0 ≤ l.mu e) {a b : ℝ} (hab : a ≤ b) :
    through ls e a ≤ through ls e b := by
  have := intervalIntegral.integral_nonneg_of_forall (μ := volume) hab (muAt_nonneg ls e hmu)
  rw [integral_muAt_between ls h] at this
  linarith

/-- The attenuation of the whole sample in and out. -/
noncomputable def worst (m : Sample) (e0 e1 : ℝ) : ℝ :=
  (m.layers.map fun l => l.mu e0 * l.t).sum / m.cosin + (m.layers.map fun l => l.mu e1 * l.t).sum / |m.cosout|

theorem seen_bounds (m : Sample) (h : Thick m.layers) (ho : Outwards m) (e0 e1 : ℝ)
    (h0 : ∀ l ∈ m.layers, 0 ≤ l.mu e0) (h1 : ∀ l ∈ m.layers, 0 ≤ l.mu e1) {z : ℝ} (hz0 : 0 ≤ z) (hz : z ≤ depth m.layers) :
    Real.exp (-worst m e0 e1) ≤ seen m e0 e1 z ∧ seen m e0 e1 z ≤ 1 := by
  have a0 := through_bounds m.layers h e0 h0 hz0
  have a1 := through_bounds m.layers h e0 h0 hz
  have b0 := through_bounds m.layers h e1 h1 hz0
  have b1 := through_bounds m.layers h e1 h1 hz
  rw [through_nonpos _ h e0 le_rfl] at a0
  rw [through_nonpos _ h e1 le_rfl] at b0
  rw [through_out _ h e0 le_rfl, above_length] at a1
  rw [through_out _ h e1 le_rfl, above_length] at b1
  unfold seen worst
  rw [left_through _ h, left_through _ h, ← Real.exp_add, Real.exp_le_exp, Real.exp_le_one_iff,
    through_nonpos _ h e0 le_rfl]
  obtain ⟨hi, ho⟩ := ho
  have hA : 0 ≤ through m.layers e0 z / m.cosin := div_nonneg a0 hi.le
  have hA' : through m.layers e0 z / m.cosin ≤ (m.layers.map fun l => l.mu e0 * l.t).sum / m.cosin :=
    div_le_div_of_nonneg_right a1 hi.le
  unfold exitAt
  split at ho
  · rename_i hr
    rw [if_pos hr, through_nonpos _ h e1 le_rfl, abs_of_neg ho]
    have hB : 0 ≤ through m.layers e1 z / (-m.cosout) := div_nonneg b0 (by linarith)
    have hB' : through m.layers e1 z / (-m.cosout) ≤ (m.layers.map fun l => l.mu e1 * l.t).sum / (-m.cosout) :=
      div_le_div_of_nonneg_right b1 (by linarith)
    have e1' : -(0 - through m.layers e1 z) / m.cosout = -(through m.layers e1 z / (-m.cosout)) := by
      rw [div_neg]; ring
    have e0' : -(through m.layers e0 z - 0) / m.cosin = -(through m.layers e0 z / m.cosin) := by ring
    rw [e0', e1']
    constructor <;> linarith
  · rename_i hr
    rw [if_neg hr, through_out _ h e1 le_rfl, above_length, abs_of_pos ho]
    have hB : 0 ≤ ((m.layers.map fun l => l.mu e1 * l.t).sum - through m.layers e1 z) / m.cosout :=
      div_nonneg (by linarith) ho.le
    have hB' : ((m.layers.map fun l => l.mu e1 * l.t).sum - through m.layers e1 z) / m.cosout ≤
        (m.layers.map fun l => l.mu e1 * l.t).sum / m.cosout := div_le_div_of_nonneg_right (by linarith) ho.le
    have e0' : -(through m.layers e0 z - 0) / m.cosin = -(through m.layers e0 z / m.cosin) := by ring
    rw [e0', neg_div]
    constructor <;> linarith

theorem layer_bounds (m : Sample) (h : Thick m.layers) (ho : Outwards m) (e0 e1 : ℝ)
    (h0 : ∀ l ∈ m.layers, 0 ≤ l.mu e0) (h1 : ∀ l ∈ m.layers, 0 ≤ l.mu e1) (b : Nat) (hb : b < m.layers.length) :
    Real.exp (-worst m e0 e1) * m.layers[b].t ≤ ∫ z in (top m.layers b)..(top m.layers (b + 1)), seen m e0 e1 z ∧
    ∫ z in (top m.layers b)..(top m.layers (b + 1)), seen m e0 e1 z ≤ m.layers[b].t := by
  have hle : top m.layers b ≤ top m.layers (b + 1) := top_mono _ h (by omega) (by omega)
  have hb0 : 0 ≤ top m.layers b := by rw [← top_zero m.layers]; exact top_mono _ h (by omega) (by omega)
  have hb1 : top m.layers (b + 1) ≤ depth m.layers := by rw [← top_length]; exact top_mono _ h (by omega) le_rfl
  have hi := seen_integrable m h e0 e1 hb
  have ht := top_succ m.layers b hb
  constructor
  · have := intervalIntegral.integral_mono_on hle (intervalIntegrable_const (c := Real.exp (-worst m e0 e1))) hi
      (fun z hz => (seen_bounds m h ho e0 e1 h0 h1 (hb0.trans hz.1) (hz.2.trans hb1)).1)
    rw [intervalIntegral.integral_const, smul_eq_mul] at this
    calc _ = (top m.layers (b + 1) - top m.layers b) * Real.exp (-worst m e0 e1) := by rw [ht]; ring
      _ ≤ _ := this
  · have := intervalIntegral.integral_mono_on hle hi (intervalIntegrable_const (c := (1 : ℝ)))
      (fun z hz => (seen_bounds m h ho e0 e1 h0 h1 (hb0.trans hz.1) (hz.2.trans hb1)).2)
    rw [intervalIntegral.integral_const, smul_eq_mul] at this
    calc _ ≤ _ := this
      _ = _ := by rw [ht]; ring

/-- C58: a rate is not larger than without self-absorption, and not smaller than with the attenuation of the whole
sample; so it tends to the rate without self-absorption for a thin sample. -/
theorem rate_bounds (m : Sample) (h : Thick m.layers) (ho : Outwards m) (hs : 0 ≤ m.solidangle) (k : Line) (e0 e1 : ℝ)
    (h0 : ∀ l ∈ m.layers, 0 ≤ l.mu e0) (h1 : ∀ l ∈ m.layers, 0 ≤ l.mu e1) (hp : ∀ l ∈ m.layers, 0 ≤ l.prob e0 k) :
    Real.exp (-worst m e0 e1) * thinRate m k e0 ≤ trueRate m k e0 e1 ∧ trueRate m k e0 e1 ≤ thinRate m k e0 := by
  have hg : 0 ≤ m.solidangle / m.cosin := div_nonneg hs ho.1.le
  unfold trueRate thinRate
  rw [integral_layers m h, mul_left_comm, ← sum_layers m (fun l => l.t * l.prob e0 k)
    (fun b => (m.layers.map (·.t)).getD b 0 * ((m.layers.map fun l => l.prob e0 k).getD b 0))
    (fun b hb => by simp [List.getD_eq_getElem?_getD, hb]), ← List.sum_map_mul_left]
  constructor
  · refine mul_le_mul_of_nonneg_left (List.sum_le_sum fun b hb => ?_) hg
    have hb' := List.mem_range.1 hb
    have hP : (m.layers.map fun l => l.prob e0 k).getD b 0 = m.layers[b].prob e0 k := by
      simp [List.getD_eq_getElem?_getD, hb']
    have hT : (m.layers.map (·.t)).getD b 0 = m.layers[b].t := by simp [List.getD_eq_getElem?_getD, hb']
    rw [hP, hT, ← mul_assoc]
    exact mul_le_mul_of_nonneg_right (layer_bounds m h ho e0 e1 h0 h1 b hb').1 (hp _ (List.getElem_mem hb'))
  · refine mul_le_mul_of_nonneg_left (List.sum_le_sum fun b hb => ?_) hg
    have hb' := List.mem_range.1 hb
    have hP : (m.layers.map fun l => l.prob e0 k).getD b 0 = m.layers[b].prob e0 k := by
      simp [List.getD_eq_getElem?_getD, hb']
    have hT : (m.layers.map (·.t)).getD b 0 = m.layers[b].t := by simp [List.getD_eq_getElem?_getD, hb']
    rw [hP, hT]
    exact mul_le_mul_of_nonneg_right (layer_bounds m h ho e0 e1 h0 h1 b hb').2 (hp _ (List.getElem_mem hb'))

/-- C58: for one layer and a detector in front of it, the rate is the one of the textbooks. -/
theorem one_layer (m : Sample) (l : Layer) (hl : m.layers = [l]) (ht : 0 ≤ l.t) (hr : m.reflection = true) (k : Line)
    (e0 e1 : ℝ) (hc : l.mu e0 / m.cosin - l.mu e1 / m.cosout ≠ 0) :
    trueRate m k e0 e1 = m.solidangle / m.cosin * (l.prob e0 k *
      ((1 - Real.exp (-(l.mu e0 / m.cosin - l.mu e1 / m.cosout) * l.t)) / (l.mu e0 / m.cosin - l.mu e1 / m.cosout))) := by
  have h : Thick m.layers := by rw [hl]; intro x hx; rw [List.mem_singleton.1 hx]; exact ht
  have hc' : NoCancel m e0 e1 := by
    intro x hx
    rw [hl, List.mem_singleton] at hx
    subst hx
    intro he; apply hc; rw [he]; ring
  have := rate_eff m h e0 e1 k hc'
  have hb : 0 < m.layers.length := by simp [hl]
  rw [trueRate, integral_layers m h]
  congr 1
  have hone : (List.range m.layers.length) = [0] := by rw [hl]; rfl
  rw [hone]
  have hg : m.layers[0] = l := by simp [hl]
  have ht1 : top m.layers 1 = l.t := by rw [top_succ m.layers 0 hb, top_zero, hg]; ring
  have hne : m.layers[0].mu e1 / m.cosout - m.layers[0].mu e0 / m.cosin ≠ 0 := by
    rw [hg]; intro he; apply hc; linarith
  have hi : ∫ z in (top m.layers 0)..(top m.layers (0 + 1)), seen m e0 e1 z =
      (1 - Real.exp (-(l.mu e0 / m.cosin - l.mu e1 / m.cosout) * l.t)) / (l.mu e0 / m.cosin - l.mu e1 / m.cosout) := by
    rw [intervalIntegral.integral_congr (seen_congr m h e0 e1 hb), intervalIntegral.integral_mul_const,
      integral_exp_lin _ _ _ hne]
    simp only [hr, if_true, mul_one, Nat.zero_add, top_zero, ht1, mul_zero, Real.exp_zero, sub_zero, above, List.take_zero,
      List.map_nil, List.sum_nil, zero_div, hg]
    have hne' : l.mu e1 / m.cosout - l.mu e0 / m.cosin ≠ 0 := by rw [hg] at hne; exact hne
    have hneg : l.mu e1 / m.cosout - l.mu e0 / m.cosin = -(l.mu e0 / m.cosin - l.mu e1 / m.cosout) := by ring
    rw [hneg, div_neg, ← neg_div]
    congr 1; ring
  simp only [List.map_cons, List.map_nil, List.sum_cons, List.sum_nil, add_zero, hi]
  rw [mul_comm]
  congr 1
  simp [hl]

/-! ## Detection -/

theorem pick_eq (m : Sample) (en0 : List ℝ) (f : ℝ → ℝ → ℝ) (P R : List ℝ) (k : Line) :
    pick (en0.map fun e0 => (P ++ (energies m en0 k ++ R)).map (f e0)) (P.length, P.length + (energies m en0 k).length) =
      en0.map fun e0 => f e0 (energyOf m e0 k) := by
  unfold pick
  by_cases h1 : (energies m en0 k).length = 1
  · simp only [h1, if_true, List.map_map]
    refine List.map_congr_left fun e0 he => ?_
    have hget : (P ++ (energies m en0 k ++ R))[P.length]? = some (energyOf m e0 k) := by
      rw [List.getElem?_append_right le_rfl, Nat.sub_self, List.getElem?_append_left (by omega)]
      cases k with
      | fluo i => rfl
      | compton =>
        simp only [energies, List.length_map] at h1
        obtain ⟨a, rfl⟩ := List.length_eq_one_iff.1 h1
        rw [List.mem_singleton] at he; subst he; rfl
      | rayleigh =>
        simp only [energies] at h1
        obtain ⟨a, rfl⟩ := List.length_eq_one_iff.1 h1
        rw [List.mem_singleton] at he; subst he; rfl
    simp only [Function.comp_apply, List.getD_eq_getElem?_getD, List.getElem?_map, hget]; rfl
  · have hk : (energies m en0 k).length = en0.length := by
      cases k with
      | fluo i => exact absurd rfl h1
      | compton => simp [energies]
      | rayleigh => rfl
    have hne : ¬ (P.length + 1 = P.length + (energies m en0 k).length) := by omega
    simp only [hne, if_false]
    apply List.ext_getElem
    · simp [hk]
    · intro i hi1 hi2
      have hi : i < en0.length := by simpa using hi2
      have he : (energies m en0 k)[i]? = some (energyOf m en0[i] k) := by
        cases k with
        | fluo j => exact absurd rfl h1
        | compton => simp [energies, energyOf, hi]
        | rayleigh => simp [energies, energyOf, hi]
      simp only [List.getElem_map, List.getElem_range]
      have hrow : (en0.map fun e0 => (P ++ (energies m en0 k ++ R)).map (f e0)).getD i [] =
          (P ++ (energies m en0 k ++ R)).map (f en0[i]) := by simp [List.getD_eq_getElem?_getD, hi]
      rw [hrow, List.getD_eq_getElem?_getD, List.getElem?_drop, List.getElem?_map,
        List.getElem?_append_right (by omega), Nat.add_sub_cancel_left, List.getElem?_append_left (by omega), he]
      rfl

theorem attenuated_lines (m : Sample) (en0 : List ℝ) (f : ℝ → ℝ → ℝ) (g : Line → ℝ → Option ℝ) :
    ∀ (lines : List Line) (P : List ℝ),
    (((lines.map fun k => (k, en0.map (g k))).zip
      (offsets P.length (lines.map fun k => (energies m en0 k).length))).map fun p =>
        (p.1.1, List.zipWith (fun (r : Option ℝ) x => r.map (· * x)) p.1.2
          (pick (en0.map fun e0 => (P ++ lines.flatMap (energies m en0)).map (f e0)) p.2))) =
      lines.map fun k => (k, en0.map fun e0 => (g k e0).map (· * f e0 (energyOf m e0 k)))
  | [], _ => rfl
  | k :: ks, P => by
    simp only [List.map_cons, offsets, List.zip_cons_cons, List.flatMap_cons]
    rw [pick_eq]
    congr 1
    · refine Prod.ext rfl ?_
      simp only
      rw [List.zipWith_map, List.zipWith_self]
    · have := attenuated_lines m en0 f g ks (P ++ energies m en0 k)
      rw [List.length_append] at this
      simpa only [List.append_assoc] using this

open Classical in
/-- C58: what is detected of a line for a line of the source: its weight, the transmission of the filters before the
sample, the rate from the sample, and at its own energy the transmission of the filters behind the sample and the
absorption of the detector. -/
theorem detected_rates {M : Type} (absorb : M → ℝ → ℝ → ℝ) (d : Detector.State M) (withDet : Bool)
    (m : Sample) (h : Thick m.layers) (en0 weights : List ℝ) (hw : weights.length = en0.length) (columns : List Line)
    (hn : columns.Nodup) (hC : .compton ∈ columns) (hR : .rayleigh ∈ columns) :
    ∃ lines : List Line, lines.Perm columns ∧
      ratesCalc m en0 weights (fun a b => Detector.efficiency absorb d a b withDet) columns =
        .ok (lines.map fun k => (k, (en0.zip weights).map fun p =>
          let e1 := energyOf m p.1 k
          if NoCancel m p.1 e1 then
            some (p.2 * Detector.filterTransmission absorb d p.1 true * trueRate m k p.1 e1 *
              Detector.filterTransmission absorb d e1 false * (if withDet then Detector.attenuation absorb d e1 else 1))
          else none)) := by
  obtain ⟨lines, hp, he⟩ := analytical_rates m h en0 columns hn hC hR
  refine ⟨lines, hp, ?_⟩
  unfold ratesCalc
  rw [he]
  simp only [bind, Except.bind]
  have hfst : (lines.map fun k => (k, en0.map fun e0 => if NoCancel m e0 (energyOf m e0 k) then
      some (trueRate m k e0 (energyOf m e0 k)) else none)).map Prod.fst = lines := by
    rw [List.map_map]; exact List.map_id _
  unfold attenuated
  simp only [hfst]
  rw [if_pos (hp.mem_iff.2 hR)]
  have hatt := attenuated_lines m en0
    (fun e0 e1 => Detector.filterTransmission absorb d e0 true *
      (Detector.filterTransmission absorb d e1 false * (if withDet then Detector.attenuation absorb d e1 else 1)))
    (fun k e0 => if NoCancel m e0 (energyOf m e0 k) then some (trueRate m k e0 (energyOf m e0 k)) else none)
    lines []
  rw [List.length_nil] at hatt
  simp only [List.nil_append] at hatt
  have hrl : energies m en0 .rayleigh = en0 := rfl
  simp only [Detector.efficiency, hrl]
  rw [hatt]
  simp only [pure, Except.pure, List.map_map]
  congr 1
  refine List.map_congr_left fun k _ => Prod.ext rfl ?_
  simp only [Function.comp_apply]
  apply List.ext_getElem
  · simp [hw]
  · intro i h1 h2
    simp only [List.getElem_zipWith, List.getElem_map, List.getElem_zip]
    have hi : i < en0.length := by simp only [List.length_map, List.length_zip] at h2; omega
    by_cases hc : NoCancel m en0[i] (energyOf m en0[i] k)
    · simp only [if_pos hc, Option.map_some, Option.some.injEq]; ring
    · simp only [if_neg hc, Option.map_none]

/-! ## Cases -/

/-- Two layers, 1 and 2 thick, with attenuation 3 and 1/E, the detector in front of the sample. -/
noncomputable def demo : Sample where
  layers := [⟨1, fun _ => 3, fun _ _ => 1⟩, ⟨2, fun e => 1 / e, fun _ k => if k = .compton then 2 else 0⟩]
  reflection := true
  cosin := 1 / 2
  cosout := -1
  solidangle := 1
  lineE := fun i => i + 1
  comptonE := fun e => e / 2

theorem demo_thick : Thick demo.layers := by
  intro l hl; simp only [demo, List.mem_cons, List.not_mem_nil, or_false] at hl
  rcases hl with rfl | rfl <;> norm_num

theorem demo_noCancel {e0 e1 : ℝ} (h0 : 0 < e0) (h1 : 0 < e1) : NoCancel demo e0 e1 := by
  intro l hl; simp only [demo, List.mem_cons, List.not_mem_nil, or_false] at hl
  rcases hl with rfl | rfl
  · norm_num [demo]
  · simp only [demo]
    have := one_div_pos.2 h0
    have := one_div_pos.2 h1
    intro h
    have hd : (1 : ℝ) / e0 / (1 / 2) = 2 * (1 / e0) := by ring
    rw [hd, div_neg, div_one] at h
    linarith

/-- At depth 2 there are 3 from the first layer and a half from the second (at energy 2). -/
example : cumAtt demo.layers 2 2 = 7 / 2 ∧ zlayer demo.layers 2 = 2 := by
  have hz : zlayer demo.layers 2 = 2 := zlayer_in demo.layers demo_thick (b := 1) (by simp [demo])
    (by norm_num [top, cumul, demo]) (by norm_num [top, cumul, demo])
  refine ⟨?_, hz⟩
  rw [cumAtt_through _ demo_thick]
  norm_num [through, demo]

example : Outwards demo ∧ 0 ≤ demo.solidangle := by norm_num [Outwards, demo]

/-- All the lines have a value and the methods agree. -/
example : ∃ rs, rates demo [4, 5] [.rayleigh, .fluo 0, .compton, .fluo 1] = .ok rs ∧
    ∃ x, (Line.compton, [some (trueRate demo .compton 4 2), some x]) ∈ rs := by
  classical
  obtain ⟨lines, hp, he⟩ := analytical_rates demo demo_thick [4, 5] [.rayleigh, .fluo 0, .compton, .fluo 1]
    (by decide) (by decide) (by decide)
  refine ⟨_, he, trueRate demo .compton 5 (5 / 2), List.mem_map.2 ⟨.compton, hp.mem_iff.2 (by decide), ?_⟩⟩
  have h4 : energyOf demo 4 .compton = 2 := by norm_num [energyOf, demo]
  have h5 : energyOf demo 5 .compton = 5 / 2 := by norm_num [energyOf, demo]
  simp only [List.map_cons, List.map_nil, h4, h5, if_pos (demo_noCancel (by norm_num : (0 : ℝ) < 4) (by norm_num : (0 : ℝ) < 2)),
    if_pos (demo_noCancel (by norm_num : (0 : ℝ) < 5) (by norm_num : (0 : ℝ) < 5 / 2))]

/-- The geometry of the finding: the beam and the detector at 45 degrees on both sides. -/
example : ∃ f : Geometry.Flat, f.angleout = -f.anglein ∧ 0 < f.anglein ∧ ¬ f.reflection :=
  ⟨{ anglein := 45, angleout := -45 }, by norm_num, by norm_num, by norm_num [Geometry.Flat.reflection]⟩

end SC.Multilayer
