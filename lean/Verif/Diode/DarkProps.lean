import Verif.Diode.Props
import Verif.Diode.Median
/-! # C54: dark current, oscillator offset and gain from measurements -/
namespace SC.Diode
open SC.Linop (F)

variable {K : Type} [Field K] [LinearOrder K] [IsStrictOrderedRing K]

/-- The rate the code computes is the rate of the chain. -/
theorem rate_of_current {d : Diode K} {R : K} {o : Osc K} (h : Works d R o) (I : K) :
    applyE (opCurrentToCps d) I = .ok (.fin (rateOf o (voltageOf R I))) := by
  rw [iToC h, applyE_linear]; congr 2; simp only [rateOf, voltageOf]; ring

/-- **C54.**  The dark current is calibrated with measured count rates: afterwards the diode without beam
gives the median rate, or the offset of the oscillator when that is larger, and only the dark current
has changed, which is not negative. -/
theorem dark_from_rates {d : Diode K} {R : K} {o : Osc K} (h : Works d R o) (hs : 0 < o.Fmax / o.Vmax * R)
    (r : List K) (hne : r ≠ []) (time : Option K) :
    ∃ m D, IsMedian r m ∧ calibrateDark d (.rate r) time = .ok { d with dark := D } ∧ 0 ≤ D ∧
      rateOf o (voltageOf R D) = max (max m 0) o.F0 := by
  obtain ⟨m, hm, hmed⟩ := median_spec r hne
  have hR := h.rpos
  have hv := slope_ne h
  refine ⟨m, max ((max m 0 - o.F0) / (o.Fmax / o.Vmax * R)) 0, hmed, ?_, le_max_right _ _, ?_⟩
  · simp only [calibrateDark, DarkResp.quantity, hm, Except.bind, cToI h, applyE_linear, finite, Except.map]
    congr 2
    simp only [clip0]
    congr 1
    field_simp
    ring
  · have e : rateOf o (voltageOf R (max ((max m 0 - o.F0) / (o.Fmax / o.Vmax * R)) 0))
        = o.F0 + (o.Fmax / o.Vmax * R) * max ((max m 0 - o.F0) / (o.Fmax / o.Vmax * R)) 0 := by
      simp only [rateOf, voltageOf]; ring
    rw [e, mul_max_of_nonneg _ _ (le_of_lt hs), mul_div_cancel₀ _ (ne_of_gt hs), mul_zero,
      ← max_add_add_left]
    simp

/-- **C54.**  A dark current measured as such is the median, not below zero. -/
theorem dark_from_currents (d : Diode K) (r : List K) (hne : r ≠ []) (time : Option K) :
    ∃ m, IsMedian r m ∧ calibrateDark d (.current r) time = .ok { d with dark := max m 0 } := by
  obtain ⟨m, hm, hmed⟩ := median_spec r hne
  refine ⟨m, hmed, ?_⟩
  simp only [calibrateDark, DarkResp.quantity, hm, Except.map, clip0, max_eq_left (le_max_right m 0)]

/-- **C54**, failing: the dark current cannot be calibrated with counts; plain numbers with an exposure
time are counts. -/
theorem dark_from_counts_fails (d : Diode K) (r : List K) (hne : r ≠ []) (t : K) (ht : t ≠ 0) :
    calibrateDark d (.counts r) (some t) = .error .notImplemented ∧
    calibrateDark d (.number r) (some t) = .error .notImplemented ∧
    calibrateDark d (.counts r) none = .error .runtimeError := by
  obtain ⟨m, hm, -⟩ := median_spec r hne
  have := (diode_counts_fail d t (clip0 m) ht).1
  refine ⟨?_, ?_, rfl⟩ <;>
  · simp [calibrateDark, DarkResp.quantity, hm, Except.bind, this, Except.map]

/-- **C54.**  The offset of the oscillator is calibrated with measured count rates or counts: afterwards
the diode without beam gives the median rate, unless its dark current alone gives more, and only
the offset has changed, which is not negative. -/
theorem offset_from_rates {d : Diode K} {R : K} {o : Osc K} (h : Works d R o) (r : List K) (hne : r ≠ []) :
    (∃ m F, IsMedian r m ∧ calibrateF0 d (.rate r) none = .ok { d with osc := some { o with F0 := F } } ∧ 0 ≤ F ∧
      rateOf { o with F0 := F } (voltageOf R d.dark) = max (max m 0) (o.Fmax * (R * d.dark / o.Vmax))) ∧
    (∀ t, t ≠ 0 → ∃ m F, IsMedian (r.map fun c => c / t) m ∧
      calibrateF0 d (.counts r) (some t) = .ok { d with osc := some { o with F0 := F } } ∧ 0 ≤ F ∧
      rateOf { o with F0 := F } (voltageOf R d.dark) = max (max m 0) (o.Fmax * (R * d.dark / o.Vmax))) := by
  have key : ∀ (q : DarkResp K) (time : Option K) (l : List K), l ≠ [] →
      darkRate q time = (median l).map clip0 →
      ∃ m F, IsMedian l m ∧ calibrateF0 d q time = .ok { d with osc := some { o with F0 := F } } ∧ 0 ≤ F ∧
      rateOf { o with F0 := F } (voltageOf R d.dark) = max (max m 0) (o.Fmax * (R * d.dark / o.Vmax)) := by
    intro q time l hl hq
    obtain ⟨m, hm, hmed⟩ := median_spec l hl
    refine ⟨m, max (max m 0 - o.Fmax * (R * d.dark / o.Vmax)) 0, hmed, ?_, le_max_right _ _, ?_⟩
    · simp only [calibrateF0, hq, hm, Except.map, Except.bind, rate_of_current h, finite, h.osc]
      congr 4
      simp only [clip0, rateOf, voltageOf]
      congr 1
      ring
    · simp only [rateOf, voltageOf]
      rw [add_comm, ← max_add_add_left]
      congr 1 <;> ring
  refine ⟨key _ _ r hne rfl, fun t ht => key _ _ _ (by simpa using hne) ?_⟩
  simp only [darkRate, DarkResp.quantity]
  have : (r.mapM fun a => (applyE (opCountsToCps t) a).bind finite) = Except.ok (ε := Err) (r.map fun c => c / t) := by
    clear hne key
    induction r with
    | nil => rfl
    | cons a r ih =>
      rw [List.mapM_cons, ih]
      have : (applyE (opCountsToCps t) a).bind finite = .ok (a / t) := by
        rw [opCountsToCps, divE_ok ht]
        simp only [Except.map]
        rw [applyE_linear]
        simp only [Except.bind, finite]
        congr 1; ring
      rw [this]; rfl
  rw [this]
  rfl

example : ∃ m D, IsMedian [7, 30, 8] m ∧ calibrateDark exampleDiode (.rate [7, 30, 8]) none = .ok { exampleDiode with dark := D } ∧
    0 ≤ D ∧ rateOf ⟨1000000, 2, 10⟩ (voltageOf 100000 D) = max (max m 0) 2 :=
  dark_from_rates exampleDiode_works (by norm_num) _ (by simp) none

example : IsMedian ([7, 30, 8] : List ℚ) 8 := by unfold IsMedian; decide +kernel

example : ∃ m, IsMedian [3, 5] m ∧ calibrateDark exampleDiode (.current [3, 5]) none = .ok { exampleDiode with dark := max m 0 } :=
  dark_from_currents _ _ (by simp) _

example : calibrateDark exampleDiode (.number [7, 8]) (some 2) = .error .notImplemented :=
  (dark_from_counts_fails exampleDiode [7, 8] (by simp) 2 (by norm_num)).2.1

example := (offset_from_rates exampleDiode_works [7, 30, 8] (by simp)).2 2 (by norm_num)

/-! ## Gain from two measurements -/

theorem mapM_ok {α β : Type} (f : α → Except Err β) (g : α → β) (l : List α) (h : ∀ a ∈ l, f a = .ok (g a)) :
    l.mapM f = .ok (l.map g) := by
  induction l with
  | nil => rfl
  | cons a l ih =>
    rw [List.mapM_cons, h a (by simp), ih (fun b hb => h b (by simp [hb]))]
    rfl

theorem medianRatio_const (x : List K) (f g : K → K) (r : K) (h : ∀ a ∈ x, f a = r * g a) (hne : ∃ a ∈ x, g a ≠ 0) :
    medianRatio (x.map f) (x.map g) = .ok r := by
  unfold medianRatio
  rw [if_neg (by simp)]
  apply median_const
  · obtain ⟨a, ha, h0⟩ := hne
    intro hc
    have : f a / g a ∈ ((x.map f).zip (x.map g)).filterMap fun p => if p.2 = 0 then none else some (p.1 / p.2) := by
      rw [List.mem_filterMap]
      refine ⟨(f a, g a), ?_, by simp [h0]⟩
      rw [List.zip_map_left, List.zip_map_right]
      simp only [List.mem_map, Prod.exists, Prod.map_apply]
      refine ⟨a, g a, ⟨a, a, ?_, rfl⟩, rfl⟩
      rw [List.mem_iff_getElem] at ha ⊢
      obtain ⟨i, hi, rfl⟩ := ha
      exact ⟨i, by simpa using hi, by simp⟩
    rw [hc] at this
    simp at this
  · intro b hb
    rw [List.mem_filterMap] at hb
    obtain ⟨⟨p, q⟩, hpq, hb⟩ := hb
    obtain ⟨i, hi, hq⟩ := List.mem_iff_getElem.mp hpq
    simp only [List.length_zip, List.length_map, min_self] at hi
    simp only [List.getElem_zip, List.getElem_map, Prod.mk.injEq] at hq
    obtain ⟨rfl, rfl⟩ := hq
    simp only at hb
    split at hb
    · cases hb
    · rename_i h0
      injection hb with hb
      rw [← hb, h _ (List.getElem_mem hi)]
      field_simp

/-- **C54.**  The gain is found from measurements: count rates of the diode, and the fluxes or the currents
that caused them, give the gain with which the rates were recorded (rounded), whatever gain was
assumed.  `t` is the diode as it really is. -/
theorem gain_from_response {d : Diode K} {R R' g : K} {o : Osc K} (h : Works d R o)
    (ht : Works { d with gain := g } R' o) (hg : d.gain ≠ 0) (hg' : g ≠ 0) {e : List K} {w : Option (List K)} {cs : K}
    (hc : charge d e w = .ok cs) (x : List K) :
    ((∃ a ∈ x, currentOf cs d.dark a ≠ 0) →
      gainFromResponse d (x.map fun a => rateOf o (voltageOf R' (currentOf cs d.dark a))) (.flux x) e w = d.rounder g) ∧
    ((∃ a ∈ x, a ≠ 0) →
      gainFromResponse d (x.map fun a => rateOf o (voltageOf R' a)) (.current x) e w = d.rounder g) := by
  have hF := h.fmax
  have hV := h.vmax
  have hR := h.rpos
  have hR' := ht.rpos
  have meas : ∀ f : K → K, ((x.map fun a => rateOf o (voltageOf R' (f a))).mapM fun a =>
      (applyE (opCpsToVoltage d) a).bind finite) = Except.ok (ε := Err) (x.map fun a => R' * f a) := by
    intro f
    rw [mapM_ok _ (fun y => (y - o.F0) * o.Vmax / o.Fmax), List.map_map]
    · congr 1
      apply List.map_congr_left
      intro a _
      simp only [Function.comp_apply, rateOf, voltageOf]
      field_simp
      ring
    · intro a _
      rw [cToV h, applyE_linear]
      simp only [Except.bind, finite]
      congr 1
      field_simp
      ring
  -- the ratio of the output resistances
  have ratio : ∀ f : K → K, (∃ a ∈ x, f a ≠ 0) →
      ((match d.unit with
       | .ampere => medianRatio (x.map fun a => R * f a) (x.map fun a => R' * f a)
       | .voltPerAmpere => medianRatio (x.map fun a => R' * f a) (x.map fun a => R * f a)).bind fun r =>
        d.rounder (d.gain * r)) = d.rounder g := by
    rintro f ⟨a, ha, hf⟩
    have r1 := h.rout
    have r2 := ht.rout
    cases hu : d.unit with
    | voltPerAmpere =>
      simp only [rout, hu, Except.ok.injEq] at r1 r2
      rw [← r1, ← r2]
      simp only
      rw [medianRatio_const x (fun a => g * f a) (fun a => d.gain * f a) (g / d.gain)
        (fun a _ => by field_simp) ⟨a, ha, mul_ne_zero hg hf⟩]
      simp only [Except.bind]
      congr 1; field_simp
    | ampere =>
      simp only [rout, hu, vmaxOver] at r1 r2
      cases hv : d.Vmax with
      | none => simp [hv] at r1
      | some v =>
        simp only [hv, divE_ok hg, divE_ok hg', Except.ok.injEq] at r1 r2
        have hv0 : v ≠ 0 := by rintro rfl; simp at r1; exact hR r1.symm
        rw [← r1, ← r2]
        simp only
        rw [medianRatio_const x (fun a => v / d.gain * f a) (fun a => v / g * f a) (g / d.gain)
          (fun a _ => by field_simp)
          ⟨a, ha, mul_ne_zero (div_ne_zero hv0 hg') hf⟩]
        simp only [Except.bind]
        congr 1; field_simp
  refine ⟨fun hx => ?_, fun hx => ?_⟩
  · unfold gainFromResponse
    rw [meas (currentOf cs d.dark)]
    have : voltages d (.flux x) e w = .ok (x.map fun a => R * currentOf cs d.dark a) := by
      apply mapM_ok
      intro a _
      rw [fToV h hc, applyE_linear]
      simp only [Except.bind, finite, currentOf]
      congr 1; ring
    rw [this]
    exact ratio _ hx
  · unfold gainFromResponse
    rw [meas fun a => a]
    have : voltages d (.current x) e w = .ok (x.map fun a => R * a) := by
      apply mapM_ok
      intro a _
      rw [iToV h, applyE_linear]
      simp only [Except.bind, finite]
      congr 1; ring
    rw [this]
    exact ratio _ hx

/-- The rates were recorded with ten times the assumed gain. -/
example : gainFromResponse exampleDiode ([1, 2].map fun a => rateOf ⟨1000000, 2, 10⟩ (voltageOf 1000000 (currentOf (1 / 2) (1 / 1000) a)))
    (.flux [1, 2]) [6] none = .ok 1000000 :=
  (gain_from_response (g := 1000000) (R' := 1000000) exampleDiode_works
    ⟨rfl, by norm_num, rfl, by norm_num, by norm_num⟩ (by norm_num [exampleDiode]) (by norm_num) exampleDiode_charge [1, 2]).1
    ⟨1, by simp, by norm_num [currentOf, exampleDiode]⟩

end SC.Diode
