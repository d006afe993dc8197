import Verif.Diode.Model
/-! # What the signals of a diode are -/
namespace SC.Diode
open SC.Linop (F)

variable {K : Type} [Field K] [LinearOrder K]

/-- Two operators undo each other on all numbers. -/
def Undo (f g : Except Err (Linop.Op K)) : Prop :=
  (∀ x, ∃ y, applyE f x = .ok (.fin y) ∧ applyE g y = .ok (.fin x)) ∧
  (∀ y, ∃ x, applyE g y = .ok (.fin x) ∧ applyE f x = .ok (.fin y))

/-- The electronics of a diode works: an output resistance `R` and an oscillator `o`. -/
structure Works (d : Diode K) (R : K) (o : Osc K) : Prop where
  rout : rout d = .ok R
  rpos : R ≠ 0
  osc : d.osc = some o
  fmax : o.Fmax ≠ 0
  vmax : o.Vmax ≠ 0

/-- Voltage behind an ammeter of output resistance `R`. -/
def voltageOf (R I : K) : K := R * I

/-- Rate given by a voltage-to-frequency convertor: `F0` at 0 V and `Fmax` more at `Vmax`. -/
def rateOf (o : Osc K) (V : K) : K := o.F0 + o.Fmax * (V / o.Vmax)

/-- Current of a diode in which each photon at the sample stands for the charge `cs`. -/
def currentOf (cs dark flux : K) : K := dark + flux * cs

/-- `m` is a median of the list: at least half of the values are not above it and at least half of
them not below it. -/
def IsMedian (l : List K) (m : K) : Prop :=
  l.length ≤ 2 * l.countP (fun a => decide (a ≤ m)) ∧ l.length ≤ 2 * l.countP (fun a => decide (m ≤ a))

/-- Transmission of an optical element (0 when there is none). -/
def opticOf (e : K) (o : Optic K) : K :=
  match o with
  | .lut t => (Lut.call t e).getD 0
  | .filter T => T e

/-- The tables of the optical elements can be used. -/
def OpticsOk (d : Diode K) : Prop := ∀ o ∈ d.optics, ∀ e, ∃ v, opticTrans o e = .ok v

/-- The fraction of the photons of energy `e` that reach the sample, of those in front of the diode
(or, for a diode behind the sample, of those the code counts). -/
def reaching (d : Diode K) (e : K) : K :=
  (d.optics.map (opticOf e)).prod *
    (if d.beforesample then
      d.fsource e * (match d.target with
        | none => d.trans d.thickness e * d.fdet e
        | some g => g.trans e)
     else 1)

/-- Photons per second at the sample, for `I0` photons per second in front of the diode. -/
def sampleFlux (d : Diode K) (lines : List (K × K)) (I0 : K) : K :=
  (lines.map fun l => I0 * l.2 * reaching d l.1).sum

/-- Charge set free by a photon in the diode: the absorbed fraction of its energy over the energy of
an electron-hole pair. -/
def pairs (d : Diode K) (e : K) : K := e * (1 - d.trans d.thickness e) / d.ehole

/-- Photons per second in the diode: the lines themselves, behind the filters, or those emitted by the
secondary target within the solid angle. -/
def arriving (d : Diode K) (lines : List (K × K)) (I0 : K) : List (K × K) :=
  match d.target with
  | none => lines.map fun l => (l.1, I0 * l.2 * (d.fsource l.1 * d.fdet l.1))
  | some g => (g.spectrum lines).map fun l => (l.1, I0 * l.2 * d.solidangle)

/-- Current generated by the photons in the diode. -/
def photoCurrent (d : Diode K) (lines : List (K × K)) (I0 : K) : K :=
  ((arriving d lines I0).map fun l => l.2 * pairs d l.1).sum

end SC.Diode
