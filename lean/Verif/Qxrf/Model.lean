import Verif.Py.Dict
import Mathlib.Algebra.Field.Rat
import Mathlib.Algebra.Order.Field.Rat
import Mathlib.Logic.Function.Basic
/-! # Model of the setup for quantitative fluorescence: its devices, `geometries/qxrf.py`

Devices are objects: numbers are their identities, their attributes are in the `World`.  Sources, optics and
detectors are identities only. -/
namespace SC.Qxrf
open SC.Py

abbrev Str := List Char

/-- The attributes of a diode that the setup writes or looks at: the name of its class (detectors/diode.py),
`optics` and `simplecalibration` as stored (diode.py:331-349,358-364), the gain and the geometry of its secondary
target (diode.py:262). -/
structure Diode where
  cls : Str
  optics : List Nat
  simple : Bool
  target : Option Nat
  gain : ℚ
  deriving DecidableEq

/-- A geometry of sample and detector: its source and detector, geometries/base.py:8-11, and one position. -/
structure Geom where
  source : Option Nat
  detector : Option Nat
  position : ℚ
  deriving DecidableEq

/-- All objects; `opticsCls` is the class of an optics object. -/
structure World where
  diode : Nat → Diode
  geom : Nat → Geom
  opticsCls : Nat → Str
  /-- `detector.geometry`, the geometry a detector was given to last -/
  detGeom : Nat → Option Nat
  /-- `detector.activearea` -/
  area : Nat → ℚ

/-- The attributes of QXRFGeometry that concern devices, qxrf.py:68-82. -/
structure Setup where
  optics : Option Nat
  source : Option Nat
  simple : Bool
  diodeI0 : Option Nat
  diodeIt : Option Nat
  geoms : List Nat
  deriving DecidableEq

/-- Exceptions. -/
inductive Err
  | runtimeError | keyError | valueError | indexError | dimensionality
  deriving DecidableEq

/-- diodeI0.optics = optics, diode.py:334-349: an object becomes a list of one object. -/
def setDiodeOptics (w : World) (d : Nat) (o : Option Nat) : World :=
  { w with diode := Function.update w.diode d { w.diode d with optics := o.toList } }

/-- diodeI0.simplecalibration = value, diode.py:362-364 -/
def setDiodeSimple (w : World) (d : Nat) (b : Bool) : World :=
  { w with diode := Function.update w.diode d { w.diode d with simple := b } }

/-- geometry.source = source, an ordinary attribute. -/
def setGeomSource (w : World) (g : Nat) (s : Option Nat) : World :=
  { w with geom := Function.update w.geom g { w.geom g with source := s } }

/-- The part of _update_devices about the first diode, qxrf.py:298-302. -/
def updateDiode (w : World) (s : Setup) : World :=
  match s.diodeI0 with
  | none => w
  | some d =>
    let w := setDiodeOptics w d s.optics
    let w := match (w.diode d).target with
      | some g => setGeomSource w g s.source
      | none => w
    setDiodeSimple w d s.simple

/-- _update_devices, qxrf.py:297-305 -/
def updateDevices (w : World) (s : Setup) : World :=
  let w := updateDiode w s
  match s.source with
  | none => w
  | some _ => s.geoms.foldl (fun w g => setGeomSource w g s.source) w

/-- What a setter is given: nothing, an object, or a name for which the factory makes a new object (`created` is its
identity, the class may be unknown).  qxrf.py:286-290 -/
inductive Arg
  | none
  | object (i : Nat)
  | name (created : Option Nat)
  deriving DecidableEq

/-- _generate_device, qxrf.py:286-290: an unknown name raises RuntimeError (classfactory.py:36-41). -/
def generate : Arg → Except Err (Option Nat)
  | .none => .ok none
  | .object i => .ok (some i)
  | .name (some i) => .ok (some i)
  | .name Option.none => .error .runtimeError

/-- An item of the list of geometries, qxrf.py:258-283: a geometry, or the names of a geometry and a detector (new
objects, which may be unknown). -/
inductive GeomArg
  | object (i : Nat)
  | names (geom detector : Option Nat)
  deriving DecidableEq

/-- geom.detector = detector, base.py:42-46 -/
def setDetector (w : World) (g d : Nat) : World :=
  { w with geom := Function.update w.geom g { w.geom g with detector := some d },
           detGeom := Function.update w.detGeom d (some g) }

/-- The loop of the setter of xrfgeometries, qxrf.py:257-283: the world and the list so far, also when it raises. -/
def geomLoop (w : World) (acc : List Nat) : List GeomArg → World × List Nat × Option Err
  | [] => (w, acc, none)
  | .object i :: r => geomLoop w (acc ++ [i]) r
  | .names none _ :: _ => (w, acc, some .runtimeError)
  | .names (some _) none :: _ => (w, acc, some .runtimeError)
  | .names (some g) (some d) :: r => geomLoop (setDetector w g d) (acc ++ [g]) r

/-- Assignments to the attributes. -/
inductive Op
  | simple (b : Bool)
  | optics (a : Arg)
  | source (a : Arg)
  | diodeI0 (a : Arg)
  | diodeIt (a : Arg)
  | geoms (l : List GeomArg)
  deriving DecidableEq

/-- One assignment, qxrf.py:197-284: world, setup and exception. -/
def step (w : World) (s : Setup) : Op → World × Setup × Option Err
  | .simple b => let s := { s with simple := b }; (updateDevices w s, s, none)
  | .optics a => match generate a with
    | .ok o => let s := { s with optics := o }; (updateDevices w s, s, none)
    | .error e => (w, s, some e)
  | .source a => match generate a with
    | .ok o => let s := { s with source := o }; (updateDevices w s, s, none)
    | .error e => (w, s, some e)
  | .diodeI0 a => match generate a with
    | .ok o => let s := { s with diodeI0 := o }; (updateDevices w s, s, none)
    | .error e => (w, s, some e)
  | .diodeIt a => match generate a with
    | .ok o => let s := { s with diodeIt := o }; (updateDevices w s, s, none)
    | .error e => (w, s, some e)
  | .geoms l => match geomLoop w [] l with
    | (w, acc, none) => let s := { s with geoms := acc }; (updateDevices w s, s, none)
    | (w, acc, some e) => (w, { s with geoms := acc }, some e)

/-- Assignments one after the other; exceptions are caught by the caller. -/
def run (w : World) (s : Setup) : List Op → World × Setup
  | [] => (w, s)
  | o :: r => let (w, s, _) := step w s o; run w s r

/-- _prepare_update_devices, qxrf.py:292-295, and the attributes that don't exist yet (not looked at before they are
assigned). -/
def fresh : Setup := ⟨none, none, false, none, none, []⟩

/-- The assignments in __init__ and __setstate__ in their order, qxrf.py:70-82, 112-117. -/
def assignments (simple : Bool) (optics source : Arg) (geoms : List GeomArg) (I0 It : Arg) : List Op :=
  [.simple simple, .optics optics, .source source, .geoms geoms, .diodeI0 I0, .diodeIt It]

/-- The assignments until the first exception. -/
def construct (w : World) (s : Setup) : List Op → Except Err (World × Setup)
  | [] => .ok (w, s)
  | o :: r => match step w s o with
    | (w, s, none) => construct w s r
    | (_, _, some e) => .error e

/-- The choice of geometries in __init__, qxrf.py:75-79. -/
def initGeoms (geoms : Option (List GeomArg)) (geometry detector : Option (Option Nat)) : List GeomArg :=
  match geoms with
  | some l => l
  | none => match geometry, detector with
    | some g, some d => [.names g d]
    | _, _ => []

/-- An object, or None, given to a setter. -/
def Arg.ofObject : Option Nat → Arg
  | Option.none => .none
  | some i => .object i

/-- __setstate__ with the objects of a setup, qxrf.py:109-117. -/
def restore (s : Setup) : List Op :=
  assignments s.simple (.ofObject s.optics) (.ofObject s.source) (s.geoms.map .object) (.ofObject s.diodeI0)
    (.ofObject s.diodeIt)

/-! ## Attributes of all geometries -/

/-- xrf_positions, qxrf.py:307-309, and likewise distances and angles -/
def positions (w : World) (s : Setup) : List ℚ := s.geoms.map fun g => (w.geom g).position

/-- Its setter, qxrf.py:311-314: `zip` stops at the shorter one. -/
def setPositions (w : World) (s : Setup) (l : List ℚ) : World :=
  (s.geoms.zip l).foldl (fun w p =>
    { w with geom := Function.update w.geom p.1 { w.geom p.1 with position := p.2 } }) w

/-- xrf_activeareas, qxrf.py:325-327; a geometry without detector raises AttributeError (not modelled, none here). -/
def areas (w : World) (s : Setup) : List (Option ℚ) := s.geoms.map fun g => (w.geom g).detector.map w.area

/-- geom.detector.activearea = value, qxrf.py:332 -/
def setArea (w : World) (g : Nat) (v : ℚ) : World :=
  match (w.geom g).detector with
  | some d => { w with area := Function.update w.area d v }
  | none => w

/-- Its setter, qxrf.py:329-332. -/
def setAreas (w : World) (s : Setup) (l : List ℚ) : World := (s.geoms.zip l).foldl (fun w p => setArea w p.1 p.2) w

/-! ## Devices used for the data -/

/-- How the position of a motor tells a device: two names with positions, instruments/configuration.py. -/
structure Limits where
  namea : Str
  posa : ℚ
  nameb : Str
  posb : ℚ

/-- What an instrument knows about a device, configuration.py:43-45: motors and possibly a default name. -/
structure DeviceInfo where
  motors : List (Str × Limits)
  dflt : Option Str

/-- The loop of _devicename, configuration.py:110-120. -/
def nameLoop (pos : Str → Option ℚ) (name : Option Str) : List (Str × Limits) → Option Str × Bool
  | [] => (name, false)
  | (m, l) :: r => match pos m with
    | none => nameLoop pos name r
    | some p =>
      let n := if |p - l.posa| < |p - l.posb| then l.namea else l.nameb
      if n ≠ [] then (some n, true) else nameLoop pos (some n) r

/-- _devicename, configuration.py:101-123 -/
def deviceName (i : DeviceInfo) (pos : Str → Option ℚ) : Option Str :=
  match nameLoop pos none i.motors with
  | (n, true) => n
  | (n, false) => match i.dflt with
    | some d => some d
    | none => n

/-- The classes: name or alias to class, and whether an object of the second class is an instance of the first. -/
structure Classes where
  find : Str → Option Str
  isinstance : Str → Str → Bool
  /-- no class has the empty name -/
  noEmpty : find [] = none

/-- What _check_device does about a device, qxrf.py:674-712. -/
inductive Check
  | keep
  | create (name : Str)
  | fail
  deriving DecidableEq

/-- _check_device, qxrf.py:674-712: `device` is the class of the present device, `used` the name according to the
data.  The last case assigns the empty name, which no factory knows. -/
def checkDevice (C : Classes) (device : Option Str) (used : Option Str) (reset : Bool) : Check :=
  match used with
  | none => .keep
  | some n =>
    if n ≠ [] then
      match device with
      | none => if reset then (match C.find n with | some _ => .create n | none => .fail) else .fail
      | some d => match C.find n with
        | some c => if C.isinstance c d then .keep else .fail
        | none => .fail
    else
      match device with
      | some _ => if reset then (match C.find n with | some _ => .create n | none => .fail) else .fail
      | none => .keep

/-- _set_diode_gain, qxrf.py:653-672: the new gain; `close` is np.isclose. -/
def chooseGain (close : ℚ → ℚ → Bool) (asked data : Option ℚ) : Except Err ℚ :=
  match asked, data with
  | none, none => .error .runtimeError
  | none, some g => .ok g
  | some a, none => .ok a
  | some a, some g => if close a g then .ok a else .error .runtimeError

end SC.Qxrf
