import Verif.FFSim.Model
import Verif.Noise.Props
import Verif.Axis.Props
/-! # C82: the full-field simulation -/
namespace SC.FFSim
open SC.Noise

/-- A physical detector: positive gains, non-negative noise. -/
structure Det.Ok (d : Det) : Prop where
  etoDU : 0 < d.etoDU
  qe : 0 < d.qe
  dc : 0 ≤ d.dc
  ro : 0 ≤ d.ro

/-- A physical setup: probabilities above zero and at most one, positive gains. -/
structure Setup.Ok (s : Setup) : Prop where
  sample : ∀ p, s.sample = some p → 0 < p ∧ p ≤ 1
  pScint : 0 < s.pScint ∧ s.pScint ≤ 1
  gain : 0 < s.gain
  pLens : 0 < s.pLens ∧ s.pLens ≤ 1
  yield : 0 < s.yield
  det : s.det.Ok

/-- Specification: the fraction of the photons that the sample lets through. -/
def through (s : Setup) (samplein : Bool) : ℝ := if samplein then s.sample.getD 1 else 1

/-- Specification: electrons in the detector per photon on the scintillator. -/
def electrons (s : Setup) : ℝ := s.pScint * s.gain * s.pLens * s.yield * s.det.qe

theorem through_pos (s : Setup) (h : s.Ok) (b : Bool) : 0 < through s b ∧ through s b ≤ 1 := by
  unfold through
  cases b
  · simp
  · cases hs : s.sample with
    | none => simp
    | some p => simpa using h.sample p hs

theorem electrons_pos (s : Setup) (h : s.Ok) : 0 < electrons s := by
  obtain ⟨_, h1, h2, h3, h4, h5⟩ := h
  have := h5.qe
  have := h1.1
  have := h3.1
  unfold electrons
  positivity

theorem pyDiv_ne (a : ℝ) {b : ℝ} (h : b ≠ 0) : pyDiv a b = some (a / b) := by simp [pyDiv, h]

/-- **C82.**  The forward chain without noise: counts are the electrons of the transmitted photons
plus the dark current, in digital units, for all frames. -/
theorem chainPlain_forward (s : Setup) (t n : ℝ) (b : Bool) (N : ℝ) :
    chainPlain s t n b true N =
      some (n * ((N * through s b * electrons s + s.det.dc * t) * s.det.etoDU + s.det.offset)) := by
  cases b <;> cases hs : s.sample <;>
    simp [chainPlain, inBeamPlain, hs, samplePlain, pairPlain, detPlain, through, electrons] <;> left <;> left <;> ring

/-- **C82.**  Backward undoes forward (without noise). -/
theorem chainPlain_roundtrip (s : Setup) (h : s.Ok) (t n : ℝ) (hn : n ≠ 0) (b : Bool) (N : ℝ) :
    (chainPlain s t n b true N).bind (chainPlain s t n b false) = some N := by
  rw [chainPlain_forward, Option.bind_some]
  obtain ⟨h0, h1, h2, h3, h4, h5⟩ := h
  have he := h5.etoDU.ne'
  have hq := h5.qe.ne'
  have p1 := h1.1.ne'
  have p3 := h3.1.ne'
  have g2 := h2.ne'
  have g4 := h4.ne'
  cases b <;> cases hs : s.sample with
  | none =>
    simp [chainPlain, inBeamPlain, hs, pairPlain, detPlain, through, electrons, pyDiv, hn, he, hq, p1, p3, g2, g4]
    field_simp
  | some p =>
    have hp := (h0 p hs).1.ne'
    simp [chainPlain, inBeamPlain, hs, pairPlain, detPlain, samplePlain, through, electrons, pyDiv, hn, he, hq, p1, p3, g2, g4, hp]
    field_simp

/-- **C82.**  The estimate of the incoming photons is the true one: whatever the backward chain gives
produces the measured counts. -/
theorem chainPlain_backward (s : Setup) (h : s.Ok) (t n : ℝ) (hn : n ≠ 0) (b : Bool) (C : ℝ) :
    ∃ N, chainPlain s t n b false C = some N ∧ chainPlain s t n b true N = some C := by
  have hT := (through_pos s h b).1.ne'
  have hE := (electrons_pos s h).ne'
  have he := h.det.etoDU.ne'
  let N := ((C / n - s.det.offset) / s.det.etoDU - s.det.dc * t) / electrons s / through s b
  have hN : chainPlain s t n b true N = some C := by
    rw [chainPlain_forward]
    simp only [N, Option.some.injEq]
    field_simp
    ring
  refine ⟨N, ?_, hN⟩
  have := chainPlain_roundtrip s h t n hn b N
  rwa [hN, Option.bind_some] at this

/-- **C82.**  `photontoDU` gives slope and offset of the relation between photons and counts, whatever
quantum efficiency is used for the dark spectrum. -/
theorem photontoDU_line (s : Setup) (q t n : ℝ) (b : Bool) (m c : ℝ) (h : photontoDU s q t n b = some (m, c)) (N : ℝ) :
    chainPlain s t n b true N = some (m * N + c) := by
  simp only [photontoDU, chainPlain_forward, detPlain, if_true, Option.bind_eq_bind, Option.bind_some, Option.pure_def,
    Option.some.injEq, Prod.mk.injEq] at h
  rw [chainPlain_forward, ← h.1, ← h.2]
  congr 1
  ring

/-- The line exists. -/
theorem photontoDU_total (s : Setup) (q t n : ℝ) (b : Bool) : (photontoDU s q t n b).isSome := by
  simp [photontoDU, chainPlain_forward, detPlain]

/-- **C82.**  A measurement without noise gives back the transmission of the sample, whatever the
flux, times, numbers of frames, detector and optics. -/
theorem transmission_exact (s : Setup) (h : s.Ok) (flux : ℝ) (f : Frames) (hf : flux ≠ 0) (h1 : f.tdata ≠ 0)
    (h2 : f.ndata ≠ 0) (h3 : f.tflat ≠ 0) (h4 : f.nflat ≠ 0) (h5 : f.ndark ≠ 0) :
    (measurement s flux f).bind (transmission · f) = some (through s true) := by
  have hE := (electrons_pos s h).ne'
  have he := h.det.etoDU.ne'
  have hT0 : through s false = 1 := rfl
  have key : f.nflat * ((flux * f.tflat * 1 * electrons s + s.det.dc * f.tflat) * s.det.etoDU + s.det.offset) -
      f.ndark * ((0 * s.det.qe + s.det.dc * f.tflat) * s.det.etoDU + s.det.offset) / f.ndark * f.nflat =
      f.nflat * f.tflat * (flux * electrons s * s.det.etoDU) := by field_simp; ring
  have key2 : f.ndata * ((flux * f.tdata * through s true * electrons s + s.det.dc * f.tdata) * s.det.etoDU + s.det.offset) -
      f.ndark * ((0 * s.det.qe + s.det.dc * f.tdata) * s.det.etoDU + s.det.offset) / f.ndark * f.ndata =
      f.ndata * f.tdata * (flux * electrons s * s.det.etoDU * through s true) := by field_simp; ring
  have n1 : f.nflat * f.tflat ≠ 0 := mul_ne_zero h4 h3
  have n2 : f.ndata * f.tdata ≠ 0 := mul_ne_zero h2 h1
  have n3 : flux * electrons s * s.det.etoDU ≠ 0 := mul_ne_zero (mul_ne_zero hf hE) he
  simp only [measurement, chainPlain_forward, Option.bind_eq_bind, Option.bind_some, detPlain, if_true, ne_eq, h5,
    not_false_eq_true, Option.pure_def, transmission, pyDiv_ne _ h5, pyDiv_ne _ n1, pyDiv_ne _ n2, hT0, key, key2,
    mul_div_cancel_left₀ _ n1, mul_div_cancel_left₀ _ n2, pyDiv_ne _ n3, mul_div_cancel_left₀ _ n3]

/-- **C82.**  The absorbance of a sample of layers with attenuations `x` is their sum. -/
theorem absorbance_exact (x : List ℝ) : absorbance ((x.map fun a => Real.exp (-a)).prod) = some x.sum := by
  have : (x.map fun a => Real.exp (-a)).prod = Real.exp (-x.sum) := by
    induction x with
    | nil => simp
    | cons a l ih => rw [List.map_cons, List.prod_cons, ih, ← Real.exp_add, List.sum_cons]; ring_nf
  rw [this]
  simp [absorbance, Real.exp_pos]

/-- **C82 (deviation).**  A measurement without dark images, which `measurement` allows, has no
transmission: it divides by the number of dark frames. -/
theorem transmission_nodark (s : Setup) (flux : ℝ) (f : Frames) (h : f.ndark = 0) :
    (measurement s flux f).isSome ∧ (measurement s flux f).bind (transmission · f) = none := by
  constructor <;> simp [measurement, chainPlain_forward, h, transmission, pyDiv]

/-- **C82 (deviation).**  From a flux to a flat image and back divides the flux by the time of a
frame. -/
theorem flux_flat_roundtrip (s : Setup) (h : s.Ok) (t n : ℝ) (ht : t ≠ 0) (hn : n ≠ 0) (flux : ℝ) :
    (flatfromflux s t n flux).bind (fluxfromflat s t n) = some (flux / t) := by
  have := chainPlain_roundtrip s h t n hn false flux
  rw [chainPlain_forward, Option.bind_some] at this
  simp only [flatfromflux, chainPlain_forward, Option.bind_some, fluxfromflat, this, Option.bind_eq_bind, pyDiv_ne _ ht]

/-- The flux comes back exactly for frames of one second (or without flux). -/
theorem flux_flat_iff (s : Setup) (h : s.Ok) (t n : ℝ) (ht : t ≠ 0) (hn : n ≠ 0) (flux : ℝ) :
    (flatfromflux s t n flux).bind (fluxfromflat s t n) = some flux ↔ t = 1 ∨ flux = 0 := by
  rw [flux_flat_roundtrip s h t n ht hn]
  simp only [Option.some.injEq]
  rw [div_eq_iff ht]
  constructor
  · intro h
    by_cases hf : flux = 0
    · exact .inr hf
    · left
      have : flux * (t - 1) = 0 := by linarith
      rcases mul_eq_zero.mp this with h | h
      · exact absurd h hf
      · linarith
  · rintro (rfl | rfl) <;> simp

/-- The photons in a frame come back as the flux. -/
theorem flux_from_photons (s : Setup) (h : s.Ok) (t n : ℝ) (ht : t ≠ 0) (hn : n ≠ 0) (flux : ℝ) :
    (chainPlain s t n false true (flux * t)).bind (fluxfromflat s t n) = some flux := by
  have := flux_flat_roundtrip s h t n ht hn (flux * t)
  rw [flatfromflux] at this
  rw [this, mul_div_cancel_right₀ _ ht]

/-! ## Frames -/

/-- **C82.**  At least one data frame and two flat frames, an even number (before and after). -/
theorem getnframes_min (T a b f : ℚ) :
    1 ≤ (getnframes T a b f).1 ∧ 2 ≤ (getnframes T a b f).2 ∧ Even (getnframes T a b f).2 := by
  refine ⟨le_max_right _ _, ?_, ?_⟩
  · have : (1 : Int) ≤ max (SC.Axis.roundEven (T / a * f / 2)) 1 := le_max_right _ _
    simp only [getnframes]; omega
  · exact ⟨_, by simp only [getnframes]; ring⟩

/-- **C82.**  The data frames take the data part of the total time, up to half a frame. -/
theorem getnframes_data (T a b f : ℚ) (ha : 0 < a) (h : a ≤ T * (1 - f)) :
    |((getnframes T a b f).1 : ℚ) * a - T * (1 - f)| ≤ a / 2 := by
  have hx : 1 ≤ T / a * (1 - f) := by
    rw [div_mul_eq_mul_div, le_div_iff₀ ha]; linarith
  have h1 : SC.Axis.roundEven (T / a * (1 - f)) ≥ 1 := by
    have := SC.Axis.roundEven_near (T / a * (1 - f))
    have h2 := (abs_le.mp this).1
    by_contra hc
    have h3 : SC.Axis.roundEven (T / a * (1 - f)) ≤ 0 := by omega
    have : ((SC.Axis.roundEven (T / a * (1 - f)) : Int) : ℚ) ≤ 0 := by exact_mod_cast h3
    linarith
  have e : (getnframes T a b f).1 = SC.Axis.roundEven (T / a * (1 - f)) := max_eq_left h1
  rw [e]
  have h4 : (SC.Axis.roundEven (T / a * (1 - f)) : ℚ) * a - T * (1 - f) =
      (SC.Axis.roundEven (T / a * (1 - f)) - T / a * (1 - f)) * a := by field_simp
  rw [h4, abs_mul, abs_of_pos ha]
  have := SC.Axis.roundEven_near (T / a * (1 - f))
  nlinarith

/-- **C82 (deviation).**  The flat frames are counted with the time of a data frame: half of 100 seconds
in flat frames of 10 seconds and data frames of 1 second gives 50 flat frames, that is 500 seconds. -/
theorem getnframes_flat_wrong : ∃ T a b f : ℚ, 0 < a ∧ 0 < b ∧ 0 < f ∧ f < 1 ∧
    T < ((getnframes T a b f).2 : ℚ) * b := by
  refine ⟨100, 1, 10, 1 / 2, by norm_num, by norm_num, by norm_num, by norm_num, ?_⟩
  have : getnframes 100 1 10 (1 / 2) = (50, 50) := by decide +kernel
  rw [this]; norm_num

/-- The number of flat frames does not depend on their time. -/
theorem getnframes_flat_indep (T a b b' f : ℚ) : getnframes T a b f = getnframes T a b' f := rfl

/-- With equal frame times the flat frames take the flat part of the total time, up to a frame. -/
theorem getnframes_flat (T a f : ℚ) (ha : 0 < a) (h : 2 * a ≤ T * f) :
    |((getnframes T a a f).2 : ℚ) * a - T * f| ≤ a := by
  have hx : 1 ≤ T / a * f / 2 := by
    rw [div_mul_eq_mul_div, le_div_iff₀ (by norm_num), le_div_iff₀ ha]; linarith
  have hn := SC.Axis.roundEven_near (T / a * f / 2)
  have h1 : SC.Axis.roundEven (T / a * f / 2) ≥ 1 := by
    have h2 := (abs_le.mp hn).1
    by_contra hc
    have h3 : SC.Axis.roundEven (T / a * f / 2) ≤ 0 := by omega
    have : ((SC.Axis.roundEven (T / a * f / 2) : Int) : ℚ) ≤ 0 := by exact_mod_cast h3
    linarith
  have e : (getnframes T a a f).2 = SC.Axis.roundEven (T / a * f / 2) * 2 := by
    simp only [getnframes, max_eq_left h1]
  rw [e]
  have h4 : ((SC.Axis.roundEven (T / a * f / 2) * 2 : Int) : ℚ) * a - T * f =
      (SC.Axis.roundEven (T / a * f / 2) - T / a * f / 2) * (2 * a) := by push_cast; field_simp
  rw [h4, abs_mul, abs_of_pos (by linarith : (0 : ℚ) < 2 * a)]
  nlinarith

/-! ## Scintillator and lens -/

/-- **C82.**  Absorption is a probability below one, and no more than the attenuation. -/
theorem absorption_bounds (c : Scint) (h1 : 0 ≤ c.density) (h2 : 0 ≤ c.thickness) (h3 : 0 ≤ c.massAbs)
    (h4 : c.massAbs ≤ c.massAtt) :
    0 ≤ c.absorption ∧ c.absorption < 1 ∧ c.absorption ≤ c.attenuation ∧ c.attenuation + c.transmission = 1 := by
  have hx : 0 ≤ c.density * c.thickness := mul_nonneg h1 h2
  refine ⟨?_, ?_, ?_, ?_⟩
  · have : Real.exp (-c.density * c.thickness * (1 / 10000) * c.massAbs) ≤ 1 :=
      Real.exp_le_one_iff.mpr (by nlinarith [mul_nonneg hx h3])
    unfold Scint.absorption; linarith
  · have := Real.exp_pos (-c.density * c.thickness * (1 / 10000) * c.massAbs)
    unfold Scint.absorption; linarith
  · have : Real.exp (-c.density * c.thickness * (1 / 10000) * c.massAtt) ≤
        Real.exp (-c.density * c.thickness * (1 / 10000) * c.massAbs) :=
      Real.exp_le_exp.mpr (by nlinarith [mul_le_mul_of_nonneg_left h4 hx])
    unfold Scint.absorption Scint.attenuation Scint.transmission; linarith
  · unfold Scint.attenuation; ring

/-- **C82.**  Two scintillators on top of each other let through the product, and a thicker one absorbs
the rest of what the first lets through. -/
theorem absorption_stack (c : Scint) (t1 t2 : ℝ) :
    ({ c with thickness := t1 + t2 } : Scint).absorption =
      ({ c with thickness := t1 } : Scint).absorption +
      (1 - ({ c with thickness := t1 } : Scint).absorption) * ({ c with thickness := t2 } : Scint).absorption ∧
    ({ c with thickness := t1 + t2 } : Scint).transmission =
      ({ c with thickness := t1 } : Scint).transmission * ({ c with thickness := t2 } : Scint).transmission := by
  constructor
  · simp only [Scint.absorption]
    have : -c.density * (t1 + t2) * (1 / 10000) * c.massAbs =
        -c.density * t1 * (1 / 10000) * c.massAbs + -c.density * t2 * (1 / 10000) * c.massAbs := by ring
    rw [this, Real.exp_add]; ring
  · simp only [Scint.transmission]
    rw [← Real.exp_add]; congr 1; ring

/-- **C82.**  The transmission of a lens is a probability when the ratios of the lines are. -/
theorem lens_transmission_bounds (l : Lens) (hl : 0 ≤ l.thickness) (spectrum : List (ℝ × ℝ))
    (h : ∀ x ∈ spectrum, 0 ≤ x.1 ∧ 0 ≤ x.2) (h1 : (spectrum.map Prod.fst).sum = 1) :
    0 < l.transmission spectrum ∧ l.transmission spectrum ≤ 1 := by
  have key : ∀ (q : List (ℝ × ℝ)), (∀ x ∈ q, 0 ≤ x.1 ∧ 0 ≤ x.2) →
      0 ≤ l.transmission q ∧ l.transmission q ≤ (q.map Prod.fst).sum ∧
      (0 < (q.map Prod.fst).sum → 0 < l.transmission q) := by
    intro q
    induction q with
    | nil => intro _; simp [Lens.transmission]
    | cons x q ih =>
      intro hq
      obtain ⟨i1, i2, i3⟩ := ih fun y hy => hq y (List.mem_cons_of_mem _ hy)
      obtain ⟨a, b⟩ := hq x List.mem_cons_self
      have e : l.transmission (x :: q) = x.1 * Real.exp (-x.2 * l.thickness) + l.transmission q := by
        simp [Lens.transmission]
      have hp := Real.exp_pos (-x.2 * l.thickness)
      have hle : Real.exp (-x.2 * l.thickness) ≤ 1 :=
        Real.exp_le_one_iff.mpr (by nlinarith [mul_nonneg b hl])
      have hm : 0 ≤ x.1 * Real.exp (-x.2 * l.thickness) := mul_nonneg a hp.le
      have hm2 : x.1 * Real.exp (-x.2 * l.thickness) ≤ x.1 := by nlinarith
      rw [e, List.map_cons, List.sum_cons]
      refine ⟨by linarith, by linarith, fun hs => ?_⟩
      rcases a.eq_or_lt with h0 | h0
      · rw [← h0] at hs ⊢
        have := i3 (by linarith)
        linarith
      · have := mul_pos h0 hp
        linarith
  obtain ⟨_, b, c⟩ := key spectrum h
  rw [h1] at b c
  exact ⟨c one_pos, b⟩

/-- **C82.**  The light yields follow the documented formulas with `F` the F-number: `tan θ = 1/(2F)`
and `sin θ = NA`.  The index of refraction of the scintillator, which the documented formula for a point
source divides by, does not appear. -/
theorem lightyield_formula (l : Lens) (θ F : ℝ) (h0 : 0 < θ) (h1 : θ < Real.pi / 2) (hs : Real.sin θ = l.na)
    (hF : 0 < F) (ht : Real.tan θ = 1 / (2 * F)) (hM : 0 < l.magnification) :
    l.lightyield .point = (l.magnification / (4 * F * (1 + l.magnification))) ^ 2 * l.cor ∧
    l.lightyield .lambertian =
      l.magnification ^ 2 / (4 * F ^ 2 * (1 + l.magnification) ^ 2 + l.magnification ^ 2) * l.cor := by
  have ha : Real.arcsin (l.na / 1) = θ := by
    rw [div_one, ← hs]
    exact Real.arcsin_sin (by linarith [Real.pi_pos]) h1.le
  constructor
  · simp only [Lens.lightyield, ha, ht]
    congr 1
    field_simp
    ring
  · simp only [Lens.lightyield, ha, ht]
    congr 2
    field_simp
    ring

end SC.FFSim
