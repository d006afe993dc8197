import Verif.Diode.Lemmas
import Mathlib.Algebra.Order.Ring.Rat
import Mathlib.Algebra.Field.Rat
import Mathlib.Tactic.NormNum
/-! # C54: the signals of a diode -/
namespace SC.Diode
open SC.Linop (F)

variable {K : Type} [Field K] [LinearOrder K]

section
variable {d : Diode K} {R : K} {o : Osc K} (h : Works d R o)
variable {e : List K} {w : Option (List K)} {cs : K} (hc : charge d e w = .ok cs)
include h hc

/-- **C54.**  The operators give the signals of the chain photons, current, voltage, count rate. -/
theorem diode_signals (flux : K) :
    let I := currentOf cs d.dark flux
    let V := voltageOf R I
    applyE (opFluxToCurrent d e w) flux = .ok (.fin I) ∧
    applyE (opCurrentToVoltage d) I = .ok (.fin V) ∧
    applyE (opVoltageToCps d) V = .ok (.fin (rateOf o V)) ∧
    applyE (opCurrentToCps d) I = .ok (.fin (rateOf o V)) ∧
    applyE (opFluxToVoltage d e w) flux = .ok (.fin V) ∧
    applyE (opFluxToCps d e w) flux = .ok (.fin (rateOf o V)) := by
  simp only [fToI hc, iToV h, vToC h, iToC h, fToV h hc, fToC h hc, applyE_linear, currentOf, voltageOf,
    rateOf]
  refine ⟨?_, ?_, ?_, ?_, ?_, ?_⟩ <;> congr 2 <;> ring

/-- **C54.**  Every conversion is undone by the one in the other direction. -/
theorem diode_round_trips (h0 : cs ≠ 0) :
    Undo (opFluxToCurrent d e w) (opCurrentToFlux d e w) ∧
    Undo (opCurrentToVoltage d) (opVoltageToCurrent d) ∧
    Undo (opVoltageToCps d) (opCpsToVoltage d) ∧
    Undo (opCurrentToCps d) (opCpsToCurrent d) ∧
    Undo (opFluxToCps d e w) (opCpsToFlux d e w) ∧
    Undo (opFluxToVoltage d e w) (opVoltageToFlux d e w) := by
  have hs := slope_ne h
  have hR := h.rpos
  rw [fToI hc, iToF hc h0, iToV h, vToI h, vToC h, cToV h, iToC h, cToI h, fToC h hc, cToF h hc h0,
    fToV h hc, vToF h hc h0]
  generalize o.Fmax / o.Vmax = s at hs
  refine ⟨?_, ?_, ?_, ?_, ?_, ?_⟩ <;> refine undo_linear ?_ ?_ <;> field_simp <;> ring

/-- **C54.**  A response in any of the four units gives the flux it was made with; counts need the
exposure time. -/
theorem diode_response (h0 : cs ≠ 0) (flux t : K) (ht : t ≠ 0) (time : Option K) :
    let I := currentOf cs d.dark flux
    let V := voltageOf R I
    let f := rateOf o V
    responseToFlux d e (.current I) w time = .ok (.fin flux) ∧
    responseToFlux d e (.voltage V) w time = .ok (.fin flux) ∧
    responseToFlux d e (.rate f) w time = .ok (.fin flux) ∧
    responseToFlux d e (.counts (f * t)) w (some t) = .ok (.fin flux) ∧
    responseToFlux d e (.counts (f * t)) w none = .error .runtimeError ∧
    responseToFlux d e (.number f) w none = .ok (.fin flux) ∧
    responseToFlux d e (.number (f * t)) w (some t) = .ok (.fin flux) := by
  have hs := slope_ne h
  have hR := h.rpos
  have hV := h.vmax
  have hF := h.fmax
  intro I V f
  have e1 : applyE (opCurrentToFlux d e w) I = .ok (.fin flux) := by
    rw [iToF hc h0, applyE_linear]; congr 2; simp only [I, currentOf]; field_simp; ring
  have e2 : applyE (opVoltageToFlux d e w) V = .ok (.fin flux) := by
    rw [vToF h hc h0, applyE_linear]; congr 2; simp only [V, I, currentOf, voltageOf]; field_simp; ring
  have e3 : applyE (opCpsToFlux d e w) f = .ok (.fin flux) := by
    rw [cToF h hc h0, applyE_linear]; congr 2; simp only [f, V, I, currentOf, voltageOf, rateOf]
    field_simp; ring
  have e4 : applyE (opCountsToFlux d e t w) (f * t) = .ok (.fin flux) := by
    rw [opCountsToFlux, cToF h hc h0, opCountsToCps, divE_ok ht]
    simp only [Except.map]
    rw [mulE_ok, mul_linear, applyE_linear]; congr 2
    simp only [f, V, I, currentOf, voltageOf, rateOf]
    field_simp; ring
  refine ⟨?_, e2, e3, e4, rfl, e3, e4⟩
  show (match applyE (opCurrentToFlux d e w) I with | .ok y => _ | .error _ => _) = _
  rw [e1]

/-- **C54.**  Normalization of a fluorescence signal.  A signal proportional to the flux and the
exposure time, divided by the value of the operator for the counts of the diode, is the signal for
the reference flux and the reference time, whatever the flux was. -/
theorem diode_xrf_norm (h0 : cs ≠ 0) (flux t c : K) (hf : flux ≠ 0) (ht : t ≠ 0) (ref : Reference K)
    (reftime : Option K) (roundSig : K → K) (op : Linop.Op K) (Fref tref : K)
    (hop : xrfnormop d e t ref reftime w roundSig = .ok (op, Fref, tref)) :
    let counts := rateOf o (voltageOf R (currentOf cs d.dark flux)) * t
    ∃ norm, Linop.eval op (.fin counts) = .fin norm ∧ norm ≠ 0 ∧
      flux * t * c / norm = Fref * tref * c ∧ tref = reftime.getD t ∧
      (∀ F, ref = .flux F → Fref = F) ∧
      (∀ flux', ref = .counts (rateOf o (voltageOf R (currentOf cs d.dark flux')) * t) → Fref = roundSig flux') := by
  have hs := slope_ne h
  have hR := h.rpos
  have hV := h.vmax
  have hF := h.fmax
  intro counts
  obtain ⟨m, b, hm⟩ : ∃ m b, opCountsToFlux d e t w = .ok (linear m b) := by
    rw [opCountsToFlux, cToF h hc h0, opCountsToCps, divE_ok ht]
    exact ⟨_, _, rfl⟩
  have key : ∀ flux', m * (rateOf o (voltageOf R (currentOf cs d.dark flux')) * t) + b = flux' := by
    intro flux'
    have := (diode_response h hc h0 flux' t ht none).2.2.2.1
    simp only [responseToFlux, Resp.quantity, hm, applyE_linear] at this
    injection this with this
    injection this
  have hE := key flux
  rw [xrfnormop, hm] at hop
  simp only [Except.bind] at hop
  have href : ∀ F', referenceFlux (linear m b) roundSig ref = .ok F' →
      (∀ F, ref = .flux F → F' = F) ∧
      (∀ flux', ref = .counts (rateOf o (voltageOf R (currentOf cs d.dark flux')) * t) → F' = roundSig flux') := by
    intro F' hF'
    constructor
    · rintro F rfl; simp only [referenceFlux] at hF'; injection hF' with hF'; exact hF'.symm
    · rintro flux' rfl
      simp only [referenceFlux, eval_linear, key, finite, Except.map] at hF'
      injection hF' with hF'; exact hF'.symm
  cases hq : referenceFlux (linear m b) roundSig ref with
  | error x => simp [hq] at hop
  | ok F' =>
    simp only [hq] at hop
    cases reftime with
    | none =>
      simp only [divE] at hop
      split at hop
      · cases hop
      · rename_i hF0
        simp only [Except.map, Except.ok.injEq, Prod.mk.injEq] at hop
        obtain ⟨rfl, rfl, rfl⟩ := hop
        have hv : Linop.eval (Linop.mul (linear (1 / F') 0) (linear m b)) (.fin counts) = .fin (flux / F') := by
          rw [mul_linear, eval_linear]
          congr 1
          show 1 / F' * m * counts + (b * (1 / F') + 0) = _
          rw [← hE]; field_simp; ring
        refine ⟨_, hv, div_ne_zero hf hF0, ?_, rfl, href _ hq⟩
        field_simp
    | some t' =>
      simp only [divE] at hop
      split at hop
      · cases hop
      · rename_i hF0
        simp only [Except.map, Except.ok.injEq, Prod.mk.injEq] at hop
        obtain ⟨rfl, rfl, rfl⟩ := hop
        have hF1 : F' ≠ 0 := fun h => hF0 (by simp [h])
        have ht' : t' ≠ 0 := fun h => hF0 (by simp [h])
        have hv : Linop.eval (Linop.mul (linear (t / (F' * t')) 0) (linear m b)) (.fin counts)
            = .fin (t * flux / (F' * t')) := by
          rw [mul_linear, eval_linear]
          congr 1
          show t / (F' * t') * m * counts + (b * (t / (F' * t')) + 0) = _
          rw [← hE]; field_simp; ring
        refine ⟨_, hv, div_ne_zero (mul_ne_zero ht hf) hF0, ?_, rfl, href _ hq⟩
        field_simp

end

/-- A diode behind the sample with an ammeter of 100 kV/A, read by an oscillator of 1 MHz for 10 V with
an offset of 2 Hz, for the examples: half of the photons are absorbed. -/
def exampleDiode : Diode ℚ where
  gain := 100000
  unit := .voltPerAmpere
  rounder := .ok
  Vmax := some 10
  osc := some ⟨1000000, 2, 10⟩
  dark := 1 / 1000
  beforesample := false
  optics := []
  target := none
  simple := false
  lut := Lut.clear 0
  fsource := fun _ => 1
  fdet := fun _ => 1 / 2
  trans := fun _ _ => 1 / 2
  thickness := 1
  ehole := 3
  solidangle := 1

theorem exampleDiode_works : Works exampleDiode 100000 ⟨1000000, 2, 10⟩ :=
  ⟨rfl, by norm_num, rfl, by norm_num, by norm_num⟩

theorem exampleDiode_charge : charge exampleDiode [6] none = .ok (1 / 2) := by decide +kernel

example : applyE (opFluxToCps exampleDiode [6] none) 4 = .ok (.fin 20010000002) := by
  have := (diode_signals exampleDiode_works exampleDiode_charge 4).2.2.2.2.2
  rw [this]; congr 2; norm_num [rateOf, voltageOf, currentOf, exampleDiode]

example : Undo (opFluxToCps exampleDiode [6] none) (opCpsToFlux exampleDiode [6] none) :=
  (diode_round_trips exampleDiode_works exampleDiode_charge (by norm_num)).2.2.2.2.1

example : responseToFlux exampleDiode [6] (.counts (20010000002 * 3)) none (some 3) = .ok (.fin 4) := by
  have := (diode_response exampleDiode_works exampleDiode_charge (by norm_num) 4 3 (by norm_num) none).2.2.2.1
  rw [← this]; congr 2; norm_num [rateOf, voltageOf, currentOf, exampleDiode]

/-- The example diode measured 3 s at a flux of 4 photons per second, normalized to 8 photons per second
and 2 s: a signal of `4 * 3 * c` becomes `8 * 2 * c`. -/
example (c : ℚ) : ∃ op norm, xrfnormop exampleDiode [6] 3 (.flux 8) (some 2) none id = .ok (op, 8, 2) ∧
    Linop.eval op (.fin (20010000002 * 3)) = .fin norm ∧ 4 * 3 * c / norm = 8 * 2 * c := by
  have h : (xrfnormop exampleDiode [6] 3 (.flux 8) (some 2) none id).map Prod.snd = .ok (8, 2) := by
    decide +kernel
  cases hx : xrfnormop exampleDiode [6] 3 (.flux 8) (some 2) none id with
  | error x => rw [hx] at h; cases h
  | ok p =>
    rw [hx] at h
    obtain ⟨op, F, t⟩ := p
    simp only [Except.map, Except.ok.injEq, Prod.mk.injEq] at h
    obtain ⟨rfl, rfl⟩ := h
    obtain ⟨norm, h1, -, h2, -⟩ := diode_xrf_norm exampleDiode_works exampleDiode_charge (by norm_num) 4 3 c
      (by norm_num) (by norm_num) _ _ _ _ _ _ hx
    refine ⟨op, norm, rfl, ?_, h2⟩
    rw [← h1]
    congr 2
    norm_num [rateOf, voltageOf, currentOf, exampleDiode]

/-! ## Gain -/

/-- **C54.**  The output resistance and the largest current are two views of the gain: what is set is
read back, in either unit of the gain, and their product is the largest voltage. -/
theorem diode_gain (d : Diode K) (v x : K) (hv : d.Vmax = some v) (hv0 : v ≠ 0) (hx : x ≠ 0)
    (hr : ∀ y, d.rounder y = .ok y) :
    (∃ g, setRout d x = .ok { d with gain := g } ∧ rout { d with gain := g } = .ok x ∧
      imax { d with gain := g } = .ok (v / x)) ∧
    (∃ g, setImax d x = .ok { d with gain := g } ∧ imax { d with gain := g } = .ok x ∧
      rout { d with gain := g } = .ok (v / x)) := by
  have hq : v / x ≠ 0 := div_ne_zero hv0 hx
  have e : v / (v / x) = x := by field_simp
  cases hu : d.unit with
  | voltPerAmpere =>
    refine ⟨⟨x, ?_, ?_, ?_⟩, ⟨v / x, ?_, ?_, ?_⟩⟩ <;>
      simp [setRout, setImax, rout, imax, hu, setGain, hr, vmaxOver, hv, divE, hx, hq, Except.map, Except.bind, e]
  | ampere =>
    refine ⟨⟨v / x, ?_, ?_, ?_⟩, ⟨x, ?_, ?_, ?_⟩⟩ <;>
      simp [setRout, setImax, rout, imax, hu, setGain, hr, vmaxOver, hv, divE, hx, hq, Except.map, Except.bind, e]

/-- **C54.**  With discrete gains the value set is the nearest available one, in the unit of the gain. -/
theorem diode_gain_rounded (d : Diode K) (v x g : K) (hv : d.Vmax = some v) (hx : x ≠ 0) :
    (d.unit = .voltPerAmpere → d.rounder x = .ok g → setRout d x = .ok { d with gain := g }) ∧
    (d.unit = .ampere → d.rounder (v / x) = .ok g → setRout d x = .ok { d with gain := g }) ∧
    (d.unit = .ampere → d.rounder x = .ok g → setImax d x = .ok { d with gain := g }) ∧
    (d.unit = .voltPerAmpere → d.rounder (v / x) = .ok g → setImax d x = .ok { d with gain := g }) := by
  refine ⟨?_, ?_, ?_, ?_⟩ <;> intro hu hg <;>
    simp [setRout, setImax, hu, setGain, hg, vmaxOver, hv, divE, hx, Except.map, Except.bind]

example : ∃ g, setImax exampleDiode (1 / 1000) = .ok { exampleDiode with gain := g } ∧
    imax { exampleDiode with gain := g } = .ok (1 / 1000) ∧ rout { exampleDiode with gain := g } = .ok (10 / (1 / 1000)) :=
  (diode_gain exampleDiode 10 (1 / 1000) rfl (by norm_num) (by norm_num) (fun _ => rfl)).2

example : setRout exampleDiode 5 = .ok { exampleDiode with gain := 5 } :=
  (diode_gain_rounded exampleDiode 10 5 5 rfl (by norm_num)).1 rfl rfl

/-- **C54**, failing: counts are not converted to a current or a voltage.  The operator for the
current multiplies a method instead of its result, and the conversion to a voltage passes the time
to an operator without arguments. -/
theorem diode_counts_fail (d : Diode K) (t x : K) (ht : t ≠ 0) :
    applyE (opCountsToCurrent d t) x = .error .notImplemented ∧ countsToVoltage d t x = .error .typeError := by
  refine ⟨?_, rfl⟩
  simp [opCountsToCurrent, opCountsToCps, divE_ok ht, Except.map, Except.bind, Operand.mul, applyE]

example : applyE (opCountsToCurrent exampleDiode 2) 5 = .error .notImplemented :=
  (diode_counts_fail exampleDiode 2 5 (by norm_num)).1

end SC.Diode
