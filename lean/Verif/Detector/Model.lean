import Verif.Py.Dict
import Mathlib.Analysis.SpecialFunctions.Exp
/-! # Attenuators of a detector

Model of `Material` in detectors/base.py:12-296.  Names are texts, materials are of an arbitrary type
with an absorbance (for an energy and a thickness), thicknesses are numbers in cm. -/
namespace SC.Detector
open SC.Py

abbrev Str := List Char

inductive Err where
  | valueError
deriving DecidableEq

/-- `DETMATERIALLABEL` -/
def detLabel : Str := "Detector".toList

/-- `ATMOSPHERELABEL` -/
def atmLabel : Str := "Atmosphere".toList

/-- An attenuator: material and thickness. -/
abbrev Att (M : Type) := M × ℝ

/-- `_attenuators` and, of the geometry, the atmosphere with the distance when there are both (both
true), detectors/base.py:75-84. -/
structure State (M : Type) where
  atts : Dict Str (Att M)
  air : Option (Att M)

variable {M : Type}

/-- addattenuator, base.py:38-40. -/
def addAttenuator (s : State M) (name : Str) (a : Att M) : State M := { s with atts := Dict.set s.atts name a }

/-- The getter of `attenuators`, base.py:75-84, which stores the atmosphere. -/
def refresh (s : State M) : State M :=
  match s.air with
  | none => s
  | some a => addAttenuator s atmLabel a

/-- match_beamfilter, base.py:185-186: `^beamfilter(\d+)$` of the name in lower case (`$` accepts one
newline at the end).  Digits are those of ASCII. -/
def matchBeam (name : Str) : Option Str :=
  let t := name.map Char.toLower
  if "beamfilter".toList.isPrefixOf t then
    let r := t.drop 10
    let ds := if r.getLast? = some '\n' then r.dropLast else r
    if ds ≠ [] ∧ ds.all Char.isDigit then some ds else none
  else none

/-- isbeamfilter, base.py:188-190. -/
def isBeam (name : Str) (air : Bool := false) : Bool :=
  (matchBeam name).isSome || (decide (name = atmLabel) && air)

/-- isdetectorfilter, base.py:164-169. -/
def isDet (name : Str) (air : Bool := true) : Bool :=
  !isBeam name && decide (name ≠ detLabel) && (decide (name ≠ atmLabel) || !air)

/-- `int(m.groups()[0])` -/
def number (ds : Str) : Nat := ds.foldl (fun n c => 10 * n + (c.toNat - '0'.toNat)) 0

/-- The body of the loop of nextbeamfilter, base.py:195-197. -/
def numStep (i : Nat) (name : Str) : Nat :=
  match matchBeam name with
  | some ds => max i (number ds)
  | none => i

/-- The number of nextbeamfilter, base.py:193-197. -/
def lastNumber (d : Dict Str (Att M)) : Nat := d.foldl (fun i p => numStep i p.1) 0

/-- nextbeamfilter, base.py:192-198. -/
def nextBeam (s : State M) : Str := "BeamFilter".toList ++ Nat.toDigits 10 (lastNumber (refresh s).atts)

/-- addbeamfilter, base.py:46-51; `name = ""` for `None`. -/
def addBeam (s : State M) (name : Str) (a : Att M) : Except Err (State M) :=
  if name = [] then .ok (addAttenuator (refresh s) (nextBeam s) a)
  else if !isBeam name then .error .valueError
  else .ok (addAttenuator s name a)

/-- addsamplecover, base.py:42-44. -/
def addCover (s : State M) (name : Str) (a : Att M) : Except Err (State M) := addBeam (addAttenuator s name a) [] a

/-- adddetectorfilter, base.py:53-56. -/
def addDet (s : State M) (name : Str) (a : Att M) : Except Err (State M) :=
  if isBeam name then .error .valueError else .ok (addAttenuator s name a)

/-- removeattenuator, base.py:58-59. -/
def removeAttenuator (s : State M) (name : Str) : State M := { s with atts := Dict.del s.atts name }

/-- removebeamfilters, base.py:61-64. -/
def removeBeam (s : State M) : State M :=
  ((refresh s).atts.map Prod.fst |>.filter fun n => isBeam n).foldl removeAttenuator (refresh s)

/-- removedetectorfilters, base.py:66-73. -/
def removeDet (s : State M) (air : Bool := true) : State M :=
  ((refresh s).atts.map Prod.fst |>.filter fun n => isDet n air).foldl removeAttenuator (refresh s)

/-- beamfilters, base.py:171-176. -/
def beamFilters (s : State M) (air : Bool := false) : List (Att M) :=
  ((refresh s).atts.filter fun p => isBeam p.1 air).map Prod.snd

/-- detectorfilters, base.py:178-183. -/
def detFilters (s : State M) (air : Bool := true) : List (Att M) :=
  ((refresh s).atts.filter fun p => isDet p.1 air).map Prod.snd

/-- hasmaterial and the attenuator of the detector, base.py:117-127. -/
def material (s : State M) : Option (Att M) := Dict.get? (refresh s).atts detLabel

section
variable (absorb : M → ℝ → ℝ → ℝ)

/-- filter_absorbance, base.py:228-241. -/
def filterAbsorbance (s : State M) (e : ℝ) (source : Bool) : ℝ :=
  let atts := if source then beamFilters s else detFilters s
  if atts ≠ [] then (atts.map fun a => absorb a.1 e a.2).sum else 0

/-- filter_transmission, base.py:243-247. -/
noncomputable def filterTransmission (s : State M) (e : ℝ) (source : Bool) : ℝ :=
  Real.exp (-filterAbsorbance absorb s e source)

/-- filter_attenuation, base.py:249-253. -/
noncomputable def filterAttenuation (s : State M) (e : ℝ) (source : Bool) : ℝ := 1 - filterTransmission absorb s e source

/-- transmission, base.py:255-266: without material the absorbance is infinite. -/
noncomputable def transmission (s : State M) (e : ℝ) : ℝ :=
  match material s with
  | some a => Real.exp (-absorb a.1 e a.2)
  | none => 0

/-- attenuation, base.py:268-270. -/
noncomputable def attenuation (s : State M) (e : ℝ) : ℝ := 1 - transmission absorb s e

/-- efficiency, base.py:272-296. -/
noncomputable def efficiency (s : State M) (source det : List ℝ) (withDet : Bool := true) : List (List ℝ) :=
  source.map fun e0 => det.map fun e1 =>
    filterTransmission absorb s e0 true *
      (filterTransmission absorb s e1 false * (if withDet then attenuation absorb s e1 else 1))
end

/-- An entry of `cfg["attenuators"]`: enabled, name of the material, density, thickness. -/
structure Entry (N : Type) where
  enabled : Bool
  name : N
  density : ℝ
  thickness : ℝ

/-- addtopymca, base.py:133-150; `toPymca` gives the name and the density of a material (for the detector
material the name of an element gets a 1 at the end, which loadfrompymca_material accepts). -/
def addToPymca {N : Type} (toPymca : Str → M → N × ℝ) (s : State M) (cfg : Dict Str (Entry N)) : Dict Str (Entry N) :=
  (Dict.update cfg ((refresh s).atts.map fun p =>
    (p.1, (⟨true, (toPymca p.1 p.2.1).1, (toPymca p.1 p.2.1).2, p.2.2⟩ : Entry N)))).filter fun p => p.2.enabled

/-- loadfrompymca, base.py:152-162. -/
def loadFromPymca {N : Type} (fromPymca : N → ℝ → M) (s : State M) (cfg : Dict Str (Entry N)) : State M :=
  cfg.foldl (fun s p =>
    if p.1 ≠ "Matrix".toList ∧ p.2.enabled = true then
      addAttenuator (refresh s) p.1 (fromPymca p.2.name p.2.density, p.2.thickness)
    else s) { s with atts := [] }

end SC.Detector
