import Verif.Linop.Model
import Verif.Lut.Model
import Verif.Fit.Model
import Mathlib.Data.List.Sort
/-! # Model of the pn-diodes

`detectors/diode.py` (classes `Oscillator`, `PNdiode`, `NonCalibratedPNdiode`), with
`materials/utils.reshape_spectrum_lines` and `optics/base.py`.

Numbers are elements of an ordered field, without rounding.  A quantity is its magnitude in fixed
units (Hz, V, A, V/A, s, keV; charges in C); the conversions of `pint` are not modelled, only which
conversion is possible.  There is one source (a row of the arrays), with any number of lines.  The
attenuation by filters, diode and target and the X-ray spectrum of the secondary target are
arbitrary functions of the energy.  Where numpy gives `nan` or `inf` because of a division by zero
the model gives the exception `notfinite`.  The operators are those of the model of `math/linop.py`
and the tables those of the model of `utils/lut.py`. -/
namespace SC.Diode
open SC.Linop (F)
open SC.Lut (Lut)

/-- Exceptions, and `notfinite` for a result which is not a number. -/
inductive Err where
  | typeError
  | attributeError
  | valueError
  | notImplemented
  | runtimeError
  | indexError
  | zeroDivision
  | dimensionality
  | notfinite
deriving DecidableEq, Repr

variable {K : Type} [Field K] [LinearOrder K]

/-- Attributes of `Oscillator`, diode.py:135-144. -/
structure Osc (K : Type) where
  Fmax : K
  F0 : K
  Vmax : K

/-- The two possible units of the gain, diode.py:412-427. -/
inductive GUnit where
  | voltPerAmpere
  | ampere
deriving DecidableEq

/-- An optical element: with a table of transmissions (optics/base.py:6-10) or a filter
(optics/xray.py:19-50). -/
inductive Optic (K : Type) where
  | lut (t : Lut K)
  | filter (T : K → K)

/-- The secondary target: the lines it emits towards the diode, per unit of solid angle, for a list
of source lines (energy, weight), source and detector filters included; and its transmission.
(materials/multilayer.py, not modelled here.) -/
structure Target (K : Type) where
  spectrum : List (K × K) → List (K × K)
  trans : K → K

/-- Attributes of a `PNdiode`, diode.py:229-265, with the solid angle of its geometry. -/
structure Diode (K : Type) where
  gain : K
  unit : GUnit
  /-- `gainrounder`, diode.py:94-129 -/
  rounder : K → Except Err K
  Vmax : Option K
  osc : Option (Osc K)
  dark : K
  beforesample : Bool
  optics : List (Optic K)
  target : Option (Target K)
  /-- `_simplecalibration` -/
  simple : Bool
  /-- `_lut_chargepersamplephoton` -/
  lut : Lut K
  /-- `filter_transmission(energy, source=True)` -/
  fsource : K → K
  /-- `filter_transmission(energy, source=False)` -/
  fdet : K → K
  /-- `transmission`: of a diode of the given thickness at the given energy -/
  trans : K → K → K
  thickness : K
  ehole : K
  solidangle : K

/-- `a / b` of two quantities. -/
def divE (a b : K) : Except Err K := if b = 0 then .error .zeroDivision else .ok (a / b)

/-- `self.Vmax / value` (`None / value` is a TypeError). -/
def vmaxOver (d : Diode K) (value : K) : Except Err K :=
  match d.Vmax with
  | none => .error .typeError
  | some v => divE v value

/-- `Rout` getter, diode.py:376-382. -/
def rout (d : Diode K) : Except Err K :=
  match d.unit with
  | .voltPerAmpere => .ok d.gain
  | .ampere => vmaxOver d d.gain

/-- `Imax` getter, diode.py:392-397. -/
def imax (d : Diode K) : Except Err K :=
  match d.unit with
  | .ampere => .ok d.gain
  | .voltPerAmpere => vmaxOver d d.gain

/-- `gain` setter, diode.py:412-423, for a value in the units of the gain. -/
def setGain (d : Diode K) (value : K) : Except Err (Diode K) :=
  (d.rounder value).map fun g => { d with gain := g }

/-- `Rout` setter, diode.py:384-390. -/
def setRout (d : Diode K) (value : K) : Except Err (Diode K) :=
  match d.unit with
  | .voltPerAmpere => setGain d value
  | .ampere => (vmaxOver d value).bind (setGain d)

/-- `Imax` setter, diode.py:399-405. -/
def setImax (d : Diode K) (value : K) : Except Err (Diode K) :=
  match d.unit with
  | .ampere => setGain d value
  | .voltPerAmpere => (vmaxOver d value).bind (setGain d)

/-! ## Charge per photon -/

/-- reshape_spectrum_lines, materials/utils.py:19-70, for one source: lines with normalized
weights. -/
def reshape (energy : List K) (weights : Option (List K)) : Except Err (List (K × K)) :=
  match weights with
  | none => .ok (energy.map fun e => (e, 1 / (energy.length : K)))
  | some w =>
    if energy.length ≠ w.length then .error .valueError
    else if w.sum = 0 then .error .notfinite
    else .ok (energy.zip (w.map fun a => a / w.sum))

/-- `dev.transmission(energy)`, optics/base.py:51-55, optics/xray.py:48-49 (a table without function
raises TypeError). -/
def opticTrans (o : Optic K) (e : K) : Except Err K :=
  match o with
  | .lut t => match Lut.call t e with | some v => .ok v | none => .error .typeError
  | .filter T => .ok (T e)

/-- The loop of _transmission_optics, diode.py:603-606. -/
def transLoop (e t : K) : List (Optic K) → Except Err K
  | [] => .ok t
  | o :: os => (opticTrans o e).bind fun v => transLoop e (t * v) os

/-- _transmission_optics, diode.py:595-606. -/
def transOptics (d : Diode K) (e : K) : Except Err K := transLoop e 1 d.optics

/-- _source_transmission, diode.py:608-638. -/
def sourceTrans (d : Diode K) (e : K) : Except Err K :=
  (transOptics d e).map fun t =>
    if d.beforesample then
      match d.target with
      | none => t * d.fsource e * (d.trans d.thickness e * d.fdet e)
      | some g => t * d.fsource e * g.trans e
    else t

/-- _detection_rates, diode.py:640-716: energies and rates.  Without target the rates are summed
with `keepdims`, the energies are those of all the lines. -/
def detectionRates (d : Diode K) (lines : List (K × K)) : Except Err (List K × List K) :=
  (reshape (lines.map Prod.fst) (some (lines.map Prod.snd))).map fun lines =>
    match d.target with
    | none => (lines.map Prod.fst, [(lines.map fun l => l.2 * d.fsource l.1 * d.fdet l.1).sum])
    | some g =>
      ((g.spectrum lines).map Prod.fst, (g.spectrum lines).map fun l => d.solidangle * l.2)

/-- _chargeperdiodephoton, diode.py:583-593 with spectral_responsivity, 483-499. -/
def chargePerDiode (d : Diode K) (e : K) : K := (1 - d.trans d.thickness e) / d.ehole * e

/-- `np.sum(wiYij * Cj)` with broadcasting of the arrays. -/
def sumProduct (rates charges : List K) : Except Err K :=
  match Fit.mulArrays rates charges with
  | none => .error .valueError
  | some l => .ok l.sum

/-- `np.sum(wiYij * Cj) / np.sum(weights * Ts)`, diode.py:749-757, and the functions
_calibrate_thickness and _calibrate_optics, 934-936, 940-942. -/
def csOf (d : Diode K) (lines : List (K × K)) (rates : List K × List K) : Except Err K :=
  (lines.mapM fun l => (sourceTrans d l.1).map fun t => l.2 * t).bind fun wT =>
    (sumProduct rates.2 (rates.1.map (chargePerDiode d))).bind fun s =>
      if wT.sum = 0 then .error .notfinite else .ok (s / wT.sum)

/-- `simplecalibration` getter, diode.py:358-360. -/
def isSimple (d : Diode K) : Bool := d.simple && !(Lut.isempty d.lut)

/-- One element of `LUTj * weights`, diode.py:737-739. -/
def lutTerm (t : Lut K) (l : K × K) : Except Err K :=
  match Lut.call t l.1 with
  | some v => .ok (v * l.2)
  | none => .error .typeError

/-- `np.sum(LUTj * weights)`, diode.py:737-739. -/
def csLut (t : Lut K) (lines : List (K × K)) : Except Err K := (lines.mapM (lutTerm t)).map List.sum

/-- _chargepersamplephoton, diode.py:718-761. -/
def charge (d : Diode K) (energy : List K) (weights : Option (List K)) : Except Err K :=
  (reshape energy weights).bind fun lines =>
    if isSimple d then csLut d.lut lines
    else (detectionRates d lines).bind (csOf d lines)

/-- samplelineweights, diode.py:944-964. -/
def sampleWeights (d : Diode K) (energy : List K) (weights : Option (List K)) : Except Err (List K) :=
  (reshape energy weights).bind fun lines =>
    if isSimple d || !d.beforesample then .ok (lines.map Prod.snd)
    else
      (lines.mapM fun l => (sourceTrans d l.1).map fun t => l.2 * t).bind fun wT =>
        if wT.sum = 0 then .error .notfinite else .ok (wT.map fun a => a / wT.sum)

/-! ## Operators -/

/-- A linear operator `x -> m * x + b`. -/
def linear (m b : K) : Linop.Op K := [.linear (.fin m) (.fin b)]

/-- Oscillator.op_voltagetocps, diode.py:201-210. -/
def opVoltageToCps (d : Diode K) : Except Err (Linop.Op K) :=
  match d.osc with
  | none => .error .attributeError
  | some o => (divE o.Fmax o.Vmax).map fun m => linear m o.F0

/-- Oscillator.op_cpstovoltage, diode.py:212-221. -/
def opCpsToVoltage (d : Diode K) : Except Err (Linop.Op K) := (opVoltageToCps d).map Linop.inverse

/-- op_currenttovoltage, diode.py:966-975. -/
def opCurrentToVoltage (d : Diode K) : Except Err (Linop.Op K) := (rout d).map fun r => linear r 0

/-- op_voltagetocurrent, diode.py:977-987. -/
def opVoltageToCurrent (d : Diode K) : Except Err (Linop.Op K) :=
  (rout d).bind fun r => (divE 1 r).map fun m => linear m 0

/-- op_fluxtocurrent, diode.py:989-1002. -/
def opFluxToCurrent (d : Diode K) (e : List K) (w : Option (List K)) : Except Err (Linop.Op K) :=
  (charge d e w).map fun cs => linear cs d.dark

/-- op_currenttoflux, diode.py:1004-1016. -/
def opCurrentToFlux (d : Diode K) (e : List K) (w : Option (List K)) : Except Err (Linop.Op K) :=
  (opFluxToCurrent d e w).map Linop.inverse

/-- `a * b` of two operators (both are evaluated). -/
def mulE (a b : Except Err (Linop.Op K)) : Except Err (Linop.Op K) :=
  a.bind fun a => b.map fun b => Linop.mul a b

/-- op_currenttocps, diode.py:1018-1027. -/
def opCurrentToCps (d : Diode K) : Except Err (Linop.Op K) := mulE (opVoltageToCps d) (opCurrentToVoltage d)

/-- op_cpstocurrent, diode.py:1029-1038. -/
def opCpsToCurrent (d : Diode K) : Except Err (Linop.Op K) := mulE (opVoltageToCurrent d) (opCpsToVoltage d)

/-- op_cpstoflux, diode.py:1084-1096. -/
def opCpsToFlux (d : Diode K) (e : List K) (w : Option (List K)) : Except Err (Linop.Op K) :=
  mulE (opCurrentToFlux d e w) (opCpsToCurrent d)

/-- op_fluxtocps, diode.py:1098-1110. -/
def opFluxToCps (d : Diode K) (e : List K) (w : Option (List K)) : Except Err (Linop.Op K) :=
  mulE (opCurrentToCps d) (opFluxToCurrent d e w)

/-- op_countstocps, diode.py:1112-1115. -/
def opCountsToCps (time : K) : Except Err (Linop.Op K) := (divE 1 time).map fun m => linear m 0

/-- op_countstoflux, diode.py:1117-1130. -/
def opCountsToFlux (d : Diode K) (e : List K) (time : K) (w : Option (List K)) : Except Err (Linop.Op K) :=
  mulE (opCpsToFlux d e w) (opCountsToCps time)

/-- op_countstovoltage, diode.py:1073-1082. -/
def opCountsToVoltage (d : Diode K) (time : K) : Except Err (Linop.Op K) :=
  mulE (opCpsToVoltage d) (opCountsToCps time)

/-- op_voltagetoflux, diode.py:1132-1146. -/
def opVoltageToFlux (d : Diode K) (e : List K) (w : Option (List K)) : Except Err (Linop.Op K) :=
  mulE (opCurrentToFlux d e w) (opVoltageToCurrent d)

/-- op_fluxtovoltage, diode.py:1148-1162. -/
def opFluxToVoltage (d : Diode K) (e : List K) (w : Option (List K)) : Except Err (Linop.Op K) :=
  mulE (opCurrentToVoltage d) (opFluxToCurrent d e w)

/-- What can stand on either side of `*` in the operators. -/
inductive Operand (K : Type) where
  | method
  | op (o : Linop.Op K)

/-- `a * b` in Python: a bound method has no `__mul__`, so that `Operator.__rmul__` of the other
operand is tried, which raises NotImplementedError, like `Operator.__mul__`; linop.py:46-67. -/
def Operand.mul : Operand K → Operand K → Except Err (Linop.Op K)
  | .op a, .op b => .ok (Linop.mul a b)
  | .method, .op _ => .error .notImplemented
  | .op _, .method => .error .notImplemented
  | .method, .method => .error .typeError

/-- op_countstocurrent, diode.py:1040-1049: the first operand is the method op_cpstocurrent, which
is not called. -/
def opCountsToCurrent (_ : Diode K) (time : K) : Except Err (Linop.Op K) :=
  (opCountsToCps time).bind fun b => Operand.mul .method (.op b)

/-- Value of an operator. -/
def applyE (o : Except Err (Linop.Op K)) (x : K) : Except Err (F K) := o.map fun o => Linop.eval o (.fin x)

/-- countstovoltage, diode.py:1312-1321: op_cpstovoltage is called with one argument too many. -/
def countsToVoltage (_ : Diode K) (_time _counts : K) : Except Err (F K) := .error .typeError

/-! ## Responses -/

/-- A response with its units, or a plain number. -/
inductive Resp (K : Type) where
  | number (x : K)
  | rate (x : K)
  | counts (x : K)
  | current (x : K)
  | voltage (x : K)

/-- `units.Quantity(response, default)`: a rate without time, counts with a time. -/
def Resp.quantity (time : Option K) : Resp K → Resp K
  | .number x => if time.isNone then .rate x else .counts x
  | r => r

/-- responsetoflux, diode.py:1406-1440.  An exception in currenttoflux is caught and the response
converted to volt, which is not possible. -/
def responseToFlux (d : Diode K) (e : List K) (r : Resp K) (w : Option (List K)) (time : Option K) :
    Except Err (F K) :=
  match r.quantity time with
  | .rate x => applyE (opCpsToFlux d e w) x
  | .counts x =>
    match time with
    | none => .error .runtimeError
    | some t => applyE (opCountsToFlux d e t w) x
  | .current x =>
    match applyE (opCurrentToFlux d e w) x with
    | .ok y => .ok y
    | .error _ => .error .dimensionality
  | .voltage x => applyE (opVoltageToFlux d e w) x
  | .number _ => .error .valueError

/-- The middle of a sorted list of `n` numbers. -/
def middle (s : List K) : K :=
  if s.length % 2 = 1 then s.getD (s.length / 2) 0
  else (s.getD (s.length / 2 - 1) 0 + s.getD (s.length / 2) 0) / 2

/-- `np.median` of numbers; not a number for an empty list. -/
def median (l : List K) : Except Err K :=
  if l = [] then .error .notfinite else .ok (middle (l.mergeSort fun a b => decide (a ≤ b)))

/-- A finite value of an operator. -/
def finite : F K → Except Err K
  | .fin x => .ok x
  | _ => .error .notfinite

/-- The signal before the gain is applied, diode.py:1472-1482. -/
inductive Before (K : Type) where
  | flux (x : List K)
  | current (x : List K)
  | voltage (x : List K)

/-- The voltages expected with the present gain, diode.py:1472-1482. -/
def voltages (d : Diode K) (b : Before K) (e : List K) (w : Option (List K)) : Except Err (List K) :=
  match b with
  | .flux x => x.mapM fun a => (applyE (opFluxToVoltage d e w) a).bind finite
  | .current x => x.mapM fun a => (applyE (opCurrentToVoltage d) a).bind finite
  | .voltage x => .ok x

/-- `r = np.median(r[np.isfinite(r)])` of the ratios `a / b`, diode.py:1484-1493. -/
def medianRatio (a b : List K) : Except Err K :=
  if a.length ≠ b.length then .error .valueError
  else median ((a.zip b).filterMap fun p => if p.2 = 0 then none else some (p.1 / p.2))

/-- gainfromresponse, diode.py:1442-1497, for count rates after the gain (for counts the call of
countstovoltage raises TypeError).  `np.isfinite(r and r > 0)` is always true. -/
def gainFromResponse (d : Diode K) (after : List K) (before : Before K) (e : List K) (w : Option (List K)) :
    Except Err K :=
  (after.mapM fun a => (applyE (opCpsToVoltage d) a).bind finite).bind fun meas =>
    (voltages d before e w).bind fun vc =>
      (match d.unit with
       | .ampere => medianRatio vc meas
       | .voltPerAmpere => medianRatio meas vc).bind fun r => d.rounder (d.gain * r)

/-- What the data should be normalized to, diode.py:1537-1550. -/
inductive Reference (K : Type) where
  | flux (F : K)
  | counts (c : K)
  | other

/-- The reference flux, diode.py:1537-1550; `roundSig` is `round_sig(x, 2)`. -/
def referenceFlux (op : Linop.Op K) (roundSig : K → K) : Reference K → Except Err K
  | .flux F => .ok F
  | .counts c => (finite (Linop.eval op (.fin c))).map roundSig
  | .other => .error .runtimeError

/-- xrfnormop, diode.py:1499-1566: the operator, the reference flux and the reference time. -/
def xrfnormop (d : Diode K) (e : List K) (t : K) (ref : Reference K) (reftime : Option K)
    (w : Option (List K)) (roundSig : K → K) : Except Err (Linop.Op K × K × K) :=
  (opCountsToFlux d e t w).bind fun op =>
    (referenceFlux op roundSig ref).bind fun Fref =>
      match reftime with
      | some tref => (divE t (Fref * tref)).map fun m => (Linop.mul (linear m 0) op, Fref, tref)
      | none => (divE 1 Fref).map fun m => (Linop.mul (linear m 0) op, Fref, t)

/-- `np.clip(x, 0, None)`. -/
def clip0 (x : K) : K := max x 0

/-- The measured response without beam, with its unit. -/
inductive DarkResp (K : Type) where
  | number (x : List K)
  | rate (x : List K)
  | counts (x : List K)
  | current (x : List K)

/-- `units.Quantity(darkresponse, default)`. -/
def DarkResp.quantity (time : Option K) : DarkResp K → DarkResp K
  | .number x => if time.isNone then .rate x else .counts x
  | r => r

/-- calibratedark, diode.py:1568-1599: the new dark current. -/
def calibrateDark (d : Diode K) (r : DarkResp K) (time : Option K) : Except Err (Diode K) :=
  (match r.quantity time with
   | .rate x => (median x).bind fun m => (applyE (opCpsToCurrent d) (clip0 m)).bind finite
   | .counts x =>
     match time with
     | none => .error .runtimeError
     | some t => (median x).bind fun m => (applyE (opCountsToCurrent d t) (clip0 m)).bind finite
   | .current x => (median x).map clip0
   | .number _ => .error .valueError).map fun c => { d with dark := clip0 c }

/-- The measured rate of calibrateF0, diode.py:1615-1625. -/
def darkRate (r : DarkResp K) (time : Option K) : Except Err K :=
  match r.quantity time with
  | .rate x => (median x).map clip0
  | .counts x =>
    match time with
    | none => .error .runtimeError
    | some t => (x.mapM fun a => (applyE (opCountsToCps t) a).bind finite).bind fun y => (median y).map clip0
  | .current _ => .error .dimensionality
  | .number _ => .error .valueError

/-- calibrateF0, diode.py:1601-1631: the new offset of the oscillator. -/
def calibrateF0 (d : Diode K) (r : DarkResp K) (time : Option K) : Except Err (Diode K) :=
  (darkRate r time).bind fun meas =>
    ((applyE (opCurrentToCps d) d.dark).bind finite).bind fun vc =>
      match d.osc with
      | none => .error .attributeError
      | some o => .ok { d with osc := some { o with F0 := clip0 (o.F0 + (meas - vc)) } }

/-! ## Calibration of the charge per photon -/

/-- `caliboption`. -/
inductive CalibOption where
  | optics
  | solidangle
  | thickness
  | other
deriving DecidableEq

/-- `self.caliboptic.set_transmission(energy, x)`: the table of the first element that has one gets
new values, diode.py:351-356, optics/base.py:57-59. -/
def setOptic (energy x : List K) : List (Optic K) → Except Err (List (Optic K))
  | [] => .error .runtimeError
  | .lut t :: os =>
    match Lut.newData t energy x false with
    | (t', none) => .ok (.lut t' :: os)
    | (_, some _) => .error .valueError
  | .filter T :: os => (setOptic energy x os).map fun os => .filter T :: os

/-- `self.caliboptic.transmission(energy)`. -/
def calibOptic (e : K) : List (Optic K) → Except Err K
  | [] => .error .runtimeError
  | .lut t :: _ => opticTrans (.lut t) e
  | .filter _ :: os => calibOptic e os

/-- `self.thickness = x` or `self.caliboptic.set_transmission(energy, x)`. -/
def setParameter (d : Diode K) (opt : CalibOption) (energy : List K) (x : K) : Except Err (Diode K) :=
  match opt with
  | .thickness => .ok { d with thickness := x }
  | .optics => (setOptic energy [x] d.optics).map fun os => { d with optics := os }
  | _ => .error .runtimeError

/-- The present value, `xorg` in _calibrate_init, diode.py:879-905.  With several lines and
`caliboption="optics"` the unknown is an array while the function is a number, so that `fsolve`
raises TypeError. -/
def parameter (d : Diode K) (opt : CalibOption) (energy : List K) : Except Err K :=
  match opt with
  | .thickness => .ok d.thickness
  | .optics =>
    match energy with
    | [e] => calibOptic e d.optics
    | energy => (calibOptic (energy.headD 0) d.optics).bind fun _ => .error .typeError
  | _ => .error .runtimeError

/-- `(Cscalib - Cs(x)) ** 2`, diode.py:838-842. -/
def objective (d : Diode K) (opt : CalibOption) (energy : List K) (lines : List (K × K))
    (rates : List K × List K) (target x : K) : Except Err K :=
  (setParameter d opt energy x).bind fun d => (csOf d lines rates).map fun cs => (target - cs) ^ 2

/-- _calibrate_chargepersamplephoton, diode.py:763-877, with `bound=False`: the diode afterwards and
the charge per sample photon.  `solve f x0` is `scipy.optimize.fsolve`, `none` when it does not
converge.  (During the search the code changes the attributes of the diode; here only the last
value is stored.) -/
def calibrateCharge (d : Diode K) (energy : List K) (target : K) (weights : Option (List K))
    (opt : CalibOption) (solve : (K → Except Err K) → K → Except Err (Option K)) : Except Err (Diode K × K) :=
  (reshape energy weights).bind fun lines =>
    if d.simple then
      if lines.any (fun l => decide (l.2 = 0)) then .error .notfinite
      else
        match Lut.newData d.lut energy (lines.map fun l => target / l.2) false with
        | (_, some _) => .error .valueError
        | (t, none) => (charge { d with lut := t } energy (some (lines.map Prod.snd))).map
            fun cs => ({ d with lut := t }, cs)
    else
      match opt with
      | .other => .error .runtimeError
      | .solidangle =>
        (charge d energy (some (lines.map Prod.snd))).bind fun cs =>
          (divE target cs).bind fun r =>
            (charge { d with solidangle := d.solidangle * r } energy (some (lines.map Prod.snd))).map
              fun cs' => ({ d with solidangle := d.solidangle * r }, cs')
      | opt =>
        (detectionRates d lines).bind fun rates =>
          (parameter d opt energy).bind fun xorg =>
            (solve (objective d opt energy lines rates target) xorg).bind fun x =>
              (setParameter d opt energy (x.getD xorg)).bind fun d' =>
                (csOf d' lines rates).map fun cs => (d', cs)

/-- `scipy.optimize.bisect(f, a, b)` up to the first step: an end which is a root is returned, equal
signs at the ends raise ValueError, `next` is the search itself. -/
def bisect (f : K → Except Err K) (a b : K) (next : K → Except Err K) : Except Err K :=
  (f a).bind fun fa =>
    (f b).bind fun fb =>
      if fa = 0 then .ok a
      else if fb = 0 then .ok b
      else if 0 < fa * fb then .error .valueError
      else next a

/-- The flux limits of calibrate (`none`: infinite). -/
def inRange (lo : K) (hi : Option K) (x : K) : Bool :=
  decide (lo ≤ x) && (match hi with | none => true | some h => decide (x ≤ h))

/-- `fit1d.linfit`, fit1d.py:228-248 (`np.linalg.lstsq`): the best line, which linfit2 gives by a
formula, when the abscissae are not all equal (otherwise not modelled). -/
def linfit (x y : List K) : Except Err (K × K) :=
  match Fit.linfit2 x y with
  | .ok p => .ok p
  | .valueError => .error .valueError
  | _ => .error .notfinite

/-- `fit1d.linfit_zerointercept`, fit1d.py:285-309, in the same way. -/
def linfitZero (x y : List K) : Except Err K :=
  match Fit.linfitZero2 x y with
  | .ok p => .ok p
  | .valueError => .error .valueError
  | _ => .error .notfinite

/-- Slope and dark current of the fit in calibrate, diode.py:1811-1831. -/
def fitCurrent (dark : K) (fixdark : Bool) (x y : List K) : Except Err (K × K) :=
  if x.length < 1 then .error .runtimeError
  else if fixdark || x.length == 1 then
    (if x.length = 1 then
      if x.headD 0 = 0 then .error .notfinite else .ok ((y.headD 0 - dark) / x.headD 0)
     else linfitZero x (y.map fun a => a - dark)).map fun m => (m, dark)
  else
    (linfit x y).bind fun p =>
      if p.2 < 0 then (linfitZero x y).map fun m => (m, 0) else .ok p

/-- The response given to calibrate: currents or count rates, diode.py:1790-1794. -/
inductive CalibResp (K : Type) where
  | current (y : List K)
  | rate (y : List K)

/-- `current`, diode.py:1790-1794. -/
def currents (d : Diode K) : CalibResp K → Except Err (List K)
  | .current y => .ok y
  | .rate y => y.mapM fun a => (applyE (opCpsToCurrent d) a).bind finite

/-- calibrate, diode.py:1762-1858: the diode afterwards and the charge per sample photon.  A response
and fluxes of different lengths raise IndexError in the selection. -/
def calibrate (d : Diode K) (resp : CalibResp K) (flux : List K) (energy : List K)
    (weights : Option (List K)) (opt : CalibOption) (fixdark : Bool) (lo : K) (hi : Option K)
    (solve : (K → Except Err K) → K → Except Err (Option K)) : Except Err (Diode K × K) :=
  (currents d resp).bind fun y =>
    if flux.length ≠ y.length then .error .indexError
    else
      let pts := (flux.zip y).filter fun p => inRange lo hi p.1
      (fitCurrent d.dark fixdark (pts.map Prod.fst) (pts.map Prod.snd)).bind fun p =>
        calibrateCharge { d with dark := p.2 } energy p.1 weights opt solve

end SC.Diode
