import Verif.Qxrf.Data
/-! # Specification of the devices and data of a setup -/
namespace SC.Qxrf
open SC.Py

/-- The devices of a setup belong together: the first diode has its optics and way of calibration, the secondary target
of that diode and all geometries have its source. -/
def InSync (w : World) (s : Setup) : Prop :=
  (∀ d, s.diodeI0 = some d → (w.diode d).optics = s.optics.toList ∧ (w.diode d).simple = s.simple ∧
    ∀ g, (w.diode d).target = some g → (w.geom g).source = s.source) ∧
  ∀ g ∈ s.geoms, (w.geom g).source = s.source

/-- The objects a setup writes to. -/
def UsesDiode (s : Setup) (d : Nat) : Prop := s.diodeI0 = some d

/-- The geometries a setup writes to. -/
def UsesGeom (w : World) (s : Setup) (g : Nat) : Prop :=
  g ∈ s.geoms ∨ ∃ d, s.diodeI0 = some d ∧ (w.diode d).target = some g

/-- The argument names a device that exists. -/
def Arg.Known : Arg → Prop
  | .name Option.none => False
  | _ => True

/-- The item names a geometry and a detector that exist. -/
def GeomArg.Known : GeomArg → Prop
  | .object _ => True
  | .names g d => g.isSome ∧ d.isSome

/-- The geometry object of an item. -/
def GeomArg.geom : GeomArg → Option Nat
  | .object i => some i
  | .names g _ => g

/-- All names in an assignment are known. -/
def Op.Known : Op → Prop
  | .simple _ => True
  | .optics a => a.Known
  | .source a => a.Known
  | .diodeI0 a => a.Known
  | .diodeIt a => a.Known
  | .geoms l => ∀ x ∈ l, x.Known

/-- The source is not taken away and geometries exist. -/
def Op.Harmless : Op → Prop
  | .source a => a ≠ .none
  | .geoms l => ∀ x ∈ l, x.Known
  | _ => True

/-- The device that is there is what the data say: nothing known, no device, or a device of that class. -/
def Agrees (C : Classes) (device used : Option Str) : Prop :=
  match used with
  | none => True
  | some [] => device = none
  | some (a :: n) => ∃ d c, device = some d ∧ C.find (a :: n) = some c ∧ C.isinstance c d = true

/-- The value of a name in the data, else among the positions of motors. -/
def source? (units : Key → PUnit) (data static : Dict Key Raw) (k : Key) : Option Qty :=
  match Dict.get? data k with
  | some x => some (x.quantity (units k))
  | none => (Dict.get? static k).map fun x => x.quantity (units k)

/-- The given rate, else the number per time. -/
def rateOf (rate number : Option Qty) (time : Qty) : Option ℚ :=
  match rate with
  | some r => some r.base
  | none => number.map fun n => n.base / time.base

end SC.Qxrf
