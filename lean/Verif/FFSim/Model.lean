import Verif.Noise.Model
import Verif.Axis.Model
import Mathlib.Analysis.SpecialFunctions.Trigonometric.Inverse
/-! # Model of the full-field simulation: `simulation/calcnoise.py`

with `Multilayer.propagate` (materials/multilayer.py:1751-1777), `materials/scintillators.py`,
`materials/lenses.py` and `detectors/area.py`.

Simplified: real numbers, no units.  Tabulated quantities (mass coefficients, refraction, quantum
efficiency of the visible spectrum) are parameters.  A number with uncertainty is an `RV`
(expectation, standard deviation) as in `Verif.Noise`; sums and products of independent `RV`s follow
the rules of the `uncertainties` package.  A division by zero is `none`. -/
namespace SC.FFSim
open SC.Noise

/-- Python's division of floats. -/
noncomputable def pyDiv (a b : ℝ) : Option ℝ := if b = 0 then none else some (a / b)

/-! ## Sample, scintillator and lens -/

/-- A scintillator, scintillators.py:18-34: density, thickness (micron), mass absorption and mass
attenuation coefficient at the energy, visible photons per keV. -/
structure Scint where
  density : ℝ
  thickness : ℝ
  massAbs : ℝ
  massAtt : ℝ
  nvis : ℝ

/-- absorption, scintillators.py:64-70. -/
noncomputable def Scint.absorption (c : Scint) : ℝ :=
  1 - Real.exp (-c.density * c.thickness * (1 / 10000) * c.massAbs)
/-- transmission, scintillators.py:75-81. -/
noncomputable def Scint.transmission (c : Scint) : ℝ :=
  Real.exp (-c.density * c.thickness * (1 / 10000) * c.massAtt)
/-- attenuation, scintillators.py:72-73. -/
noncomputable def Scint.attenuation (c : Scint) : ℝ := 1 - c.transmission
/-- The gain in propagate, scintillators.py:101. -/
def Scint.gain (c : Scint) (energy : ℝ) : ℝ := energy * c.nvis

/-- A lens, lenses.py:14-33. -/
structure Lens where
  magnification : ℝ
  na : ℝ
  thickness : ℝ
  cor : ℝ

/-- transmission, lenses.py:66-71.  The spectrum is a list of ratios and linear attenuation
coefficients of the lines. -/
noncomputable def Lens.transmission (l : Lens) (spectrum : List (ℝ × ℝ)) : ℝ :=
  (spectrum.map fun x => x.1 * Real.exp (-x.2 * l.thickness)).sum

/-- The source shapes of lightyield, lenses.py:78-87. -/
inductive Source | point | lambertian | other

/-- lightyield, lenses.py:73-89. -/
noncomputable def Lens.lightyield (l : Lens) (source : Source) : ℝ :=
  (match source with
   | .point =>
     let k := Real.tan (Real.arcsin (l.na / 1))
     k ^ 2 * l.magnification ^ 2 / (2 * (l.magnification + 1)) ^ 2
   | .lambertian =>
     let k := Real.tan (Real.arcsin (l.na / 1))
     l.magnification ^ 2 / (((l.magnification + 1) / k) ^ 2 + l.magnification ^ 2)
   | .other => l.na ^ 2 / 4) * l.cor

/-- An area detector, area.py:12-37; `qe` is the quantum efficiency of the visible spectrum
(area.py:113), `ro` the readout noise, `dc` the dark current in electrons per second. -/
structure Det where
  etoDU : ℝ
  qe : ℝ
  offset : ℝ
  dc : ℝ
  ro : ℝ

/-! ## Numbers without uncertainty, and arrays

The other branch of the propagation: it is taken for plain numbers, and for every array. -/

/-- multilayer.py:1774-1777. -/
noncomputable def samplePlain (p N : ℝ) (forward : Bool) : Option ℝ :=
  if forward then some (N * p) else pyDiv N p
/-- scintillators.py:115-119 and lenses.py:142-146. -/
noncomputable def pairPlain (p g N : ℝ) (forward : Bool) : Option ℝ :=
  if forward then some (N * (p * g)) else pyDiv N (p * g)
/-- area.py:139-148. -/
noncomputable def detPlain (d : Det) (tframe nframe N : ℝ) (forward : Bool) : Option ℝ :=
  if forward then some (nframe * ((N * d.qe + d.dc * tframe) * d.etoDU + d.offset))
  else do
    let a ← pyDiv N nframe
    let b ← pyDiv (a - d.offset) d.etoDU
    pyDiv (b - d.dc * tframe) d.qe

/-- The setup `id21_ffsetup` at one energy: success probabilities and gains of the elements
(calcnoise.py:44-64). -/
structure Setup where
  /-- transmission of the sample, `none` when there is no sample -/
  sample : Option ℝ
  pScint : ℝ
  gain : ℝ
  pLens : ℝ
  yield : ℝ
  det : Det

/-- The sample in the chain, when there is one and it is in the beam: calcnoise.py:79, 82-83 and 125-126. -/
noncomputable def inBeamPlain (s : Setup) (samplein forward : Bool) (x : ℝ) : Option ℝ :=
  match samplein, s.sample with
  | true, some p => samplePlain p x forward
  | _, _ => some x

/-- id21_ffsetup.propagate for a number without uncertainty, calcnoise.py:66-127. -/
noncomputable def chainPlain (s : Setup) (tframe nframe : ℝ) (samplein forward : Bool) (N : ℝ) : Option ℝ :=
  if forward then do
    let a ← inBeamPlain s samplein forward N
    let b ← pairPlain s.pScint s.gain a forward
    let c ← pairPlain s.pLens s.yield b forward
    detPlain s.det tframe nframe c forward
  else do
    let a ← detPlain s.det tframe nframe N forward
    let b ← pairPlain s.pLens s.yield a forward
    let c ← pairPlain s.pScint s.gain b forward
    inBeamPlain s samplein forward c

/-! ## Numbers with uncertainty -/

/-- A sum of independent numbers with uncertainty. -/
noncomputable def add (X Y : RV) : RV := ⟨X.e + Y.e, Real.sqrt (X.s ^ 2 + Y.s ^ 2)⟩
/-- A number with uncertainty times a number. -/
def scale (X : RV) (c : ℝ) : RV := ⟨X.e * c, X.s * |c|⟩
/-- A number as a number with uncertainty. -/
def exact (c : ℝ) : RV := ⟨c, 0⟩

/-- multilayer.py:1770-1772. -/
noncomputable def sampleNoise (p : ℝ) (N : RV) (forward : Bool) : Option RV := do
  compound N (← bernouilli p) forward

/-- scintillators.py:105-114 and lenses.py:132-141: two processes, in the opposite order backwards. -/
noncomputable def pairNoise (p g : ℝ) (N : RV) (forward : Bool) : Option RV := do
  let (proc1, proc2) ←
    if forward then (do pure (← bernouilli p, ← poisson g) : Option (RV × RV))
    else (do pure (← poisson g, ← bernouilli p) : Option (RV × RV))
  let a ← compound N proc1 forward
  compound a proc2 forward

/-- `randomvariable(E(N), E(N) ** 0.5)`, area.py:123-124 and 135-136. -/
noncomputable def asPoisson (b : Bool) (N : RV) : Option RV := if b then randomvariable N.e N.e else some N

/-- area.py:115-138. -/
noncomputable def detNoise (d : Det) (tframe nframe : ℝ) (approx : Bool) (N : RV) (forward : Bool) : Option RV := do
  let dark ← poisson d.dc
  let readout : RV := ⟨0, d.ro⟩
  let process ← poisson d.qe
  if forward then
    let a ← compound N process forward
    let a ← asPoisson approx a
    let b := add (scale (add (add a (scale dark tframe)) readout) d.etoDU) (exact d.offset)
    repeatRV nframe b forward
  else
    let a ← repeatRV nframe N forward
    let a ← reverseAdd a (exact d.offset)
    let a ← reverseMult a (exact d.etoDU)
    let a ← reverseAdd a (scale dark tframe)
    let a ← reverseAdd a readout
    let a ← asPoisson approx a
    compound a process forward

/-- The sample in the chain, when there is one and it is in the beam: calcnoise.py:79, 82-83 and 125-126. -/
noncomputable def inBeamNoise (s : Setup) (samplein forward : Bool) (x : RV) : Option RV :=
  match samplein, s.sample with
  | true, some p => sampleNoise p x forward
  | _, _ => some x

/-- id21_ffsetup.propagate for a number with uncertainty, calcnoise.py:66-127.  `poissonapprox` is
passed on only in the forward direction (calcnoise.py:98-105 and 112-118); `withnoise` is not used. -/
noncomputable def chainNoise (s : Setup) (tframe nframe : ℝ) (approx samplein forward : Bool) (N : RV) : Option RV :=
  if forward then do
    let a ← inBeamNoise s samplein forward N
    let b ← pairNoise s.pScint s.gain a forward
    let c ← pairNoise s.pLens s.yield b forward
    detNoise s.det tframe nframe approx c forward
  else do
    let a ← detNoise s.det tframe nframe false N forward
    let b ← pairNoise s.pLens s.yield a forward
    let c ← pairNoise s.pScint s.gain b forward
    inBeamNoise s samplein forward c

/-- An entry of an array of numbers with uncertainty through the forward chain: `isuscalar` is false
for an array (instance.py:240-241), so the arithmetic of plain numbers is applied to it
(multilayer.py:1773-1775, scintillators.py:115-117, lenses.py:142-144, area.py:139-143). -/
noncomputable def chainArray (s : Setup) (tframe nframe : ℝ) (samplein : Bool) (N : RV) : RV :=
  let a := match samplein, s.sample with
    | true, some p => scale N p
    | _, _ => N
  let b := scale a (s.pScint * s.gain)
  let c := scale b (s.pLens * s.yield)
  scale (add (scale (add (scale c s.det.qe) (exact (s.det.dc * tframe))) s.det.etoDU) (exact s.det.offset)) nframe

/-! ## Measurements -/

/-- photontoDU, calcnoise.py:129-142. -/
noncomputable def photontoDU (s : Setup) (qeDark tframe nframe : ℝ) (samplein : Bool) : Option (ℝ × ℝ) := do
  let n0 ← chainPlain s tframe nframe samplein true 1
  let d0 ← detPlain { s.det with qe := qeDark } tframe nframe 0 true
  pure (n0 - d0, d0)

/-- The times and numbers of frames of a measurement. -/
structure Frames where
  tdata : ℝ
  ndata : ℝ
  tflat : ℝ
  nflat : ℝ
  ndark : ℝ

/-- The four images of a measurement: with sample, without sample, and their dark images. -/
structure Images where
  n : ℝ
  n0 : ℝ
  d : ℝ
  d0 : ℝ

/-- measurement without noise, calcnoise.py:144-201. -/
noncomputable def measurement (s : Setup) (flux : ℝ) (f : Frames) : Option Images := do
  let n ← chainPlain s f.tdata f.ndata true true (flux * f.tdata)
  let n0 ← chainPlain s f.tflat f.nflat false true (flux * f.tflat)
  if f.ndark ≠ 0 then
    let d ← detPlain s.det f.tdata f.ndark 0 true
    let d0 ← detPlain s.det f.tflat f.ndark 0 true
    pure ⟨n, n0, d, d0⟩
  else pure ⟨n, n0, 0, 0⟩

/-- transmission, calcnoise.py:17-32. -/
noncomputable def transmission (m : Images) (f : Frames) : Option ℝ := do
  let a ← pyDiv m.d f.ndark
  let num ← pyDiv (m.n - a * f.ndata) (f.ndata * f.tdata)
  let b ← pyDiv m.d0 f.ndark
  let denom ← pyDiv (m.n0 - b * f.nflat) (f.nflat * f.tflat)
  pyDiv num denom

/-- absorbance of a plain number, calcnoise.py:35-40: `none` stands for an infinity. -/
noncomputable def absorbance (t : ℝ) : Option ℝ := if 0 < t then some (-Real.log t) else none

/-- flatfromflux, calcnoise.py:217-220. -/
noncomputable def flatfromflux (s : Setup) (tframe nframe flux : ℝ) : Option ℝ :=
  chainPlain s tframe nframe false true flux
/-- fluxfromflat, calcnoise.py:203-215. -/
noncomputable def fluxfromflat (s : Setup) (tframe nframe image : ℝ) : Option ℝ := do
  pyDiv (← chainPlain s tframe nframe false false image) tframe

/-- getnframes, calcnoise.py:222-227. -/
def getnframes (totaltime tdata _tflat frac : ℚ) : Int × Int :=
  let ndata := max (SC.Axis.roundEven (totaltime / tdata * (1 - frac))) 1
  let nflat := max (SC.Axis.roundEven (totaltime / tdata * frac / 2)) 1
  (ndata, nflat * 2)

end SC.FFSim
