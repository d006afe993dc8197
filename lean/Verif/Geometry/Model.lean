import Mathlib.Analysis.SpecialFunctions.Trigonometric.Basic
import Mathlib.Analysis.SpecialFunctions.Sqrt
/-! # Geometry of a sample and a detector

Model of geometries/base.py, geometries/xrf.py and the solid angle of detectors/base.py over the real
numbers.  Lengths are in one unit (the code converts between cm and the unit of the motor), random
variables are replaced by their expectation. -/
namespace SC.Geometry

inductive Err where
  | typeError | zeroDivision | runtimeError
  /-- a complex result: `(-x) ** 0.5` -/
  | complexResult
  /-- a dictionary instead of a distance, xrf.py:85-90 -/
  | notANumber
deriving DecidableEq

/-! ## Angles -/

/-- `FlatSample`, base.py:76-96: angles in degrees. -/
structure Flat where
  anglein : ℝ
  angleout : ℝ

/-- `np.radians` -/
noncomputable def radians (x : ℝ) : ℝ := x * (Real.pi / 180)

/-- `reflection`, base.py:126-128 -/
def Flat.reflection (f : Flat) : Prop := f.angleout > 0

/-- `anglenormin`, base.py:130-135 -/
noncomputable def Flat.anglenormin (f : Flat) : ℝ := 90 - f.anglein

/-- its setter, base.py:137-139 -/
noncomputable def Flat.setAnglenormin (f : Flat) (v : ℝ) : Flat := { f with anglein := 90 - v }

/-- `anglenormout`, base.py:141-146 -/
noncomputable def Flat.anglenormout (f : Flat) : ℝ := 90 + f.angleout

/-- its setter, base.py:148-150 -/
noncomputable def Flat.setAnglenormout (f : Flat) (v : ℝ) : Flat := { f with angleout := v - 90 }

/-- `cosnormin`, base.py:152-154 -/
noncomputable def Flat.cosnormin (f : Flat) : ℝ := Real.cos (radians f.anglenormin)

/-- `cosnormout`, base.py:156-158 -/
noncomputable def Flat.cosnormout (f : Flat) : ℝ := Real.cos (radians f.anglenormout)

/-- `scatteringangle`, base.py:160-162 -/
noncomputable def Flat.scatteringangle (f : Flat) : ℝ := f.anglein + f.angleout

/-! ## Solid angle -/

/-- `a / b` of floating-point numbers in a quantity. -/
noncomputable def divE (a b : ℝ) : Except Err ℝ := if b = 0 then .error .zeroDivision else .ok (a / b)

/-- `x ** 0.5` -/
noncomputable def sqrtE (x : ℝ) : Except Err ℝ := if x < 0 then .error .complexResult else .ok (Real.sqrt x)

/-- `(1 - solidangle / (2.0 * np.pi)) ** 2`, detectors/base.py:398, 401 -/
noncomputable def cosSq (sa : ℝ) : ℝ := (1 - sa / (2 * Real.pi)) ^ 2

/-- The first case of solidangle_calc, detectors/base.py:391-395. -/
noncomputable def solidangleOf (area distance : ℝ) : Except Err ℝ :=
  (sqrtE (area / Real.pi + distance ^ 2)).bind fun r =>
    (divE distance r).map fun c => 2 * Real.pi * (1 - c)

/-- The second case, detectors/base.py:396-399. -/
noncomputable def distanceOf (area sa : ℝ) : Except Err ℝ :=
  (divE (area / Real.pi * cosSq sa) (1 - cosSq sa)).bind sqrtE

/-- The third case, detectors/base.py:400-402. -/
noncomputable def areaOf (distance sa : ℝ) : Except Err ℝ :=
  divE ((1 - cosSq sa) * distance ^ 2 * Real.pi) (cosSq sa)

/-- CentricCone.solidangle_calc, detectors/base.py:386-406. -/
noncomputable def solidangleCalc (area distance sa : Option ℝ) : Except Err ℝ :=
  match sa, distance, area with
  | none, some d, some a => solidangleOf a d
  | none, _, _ => .error .typeError
  | some s, none, some a => distanceOf a s
  | some _, none, none => .error .typeError
  | some s, some d, none => areaOf d s
  | some _, some _, some _ => .error .runtimeError

/-! ## Linear motor -/

/-- A `LinearXRFGeometry` (xrf.py:425-501) with its `LinearMotor` (xrf.py:15-102) and the active area of its
detector. -/
structure Linear where
  /-- `positionsign` -/
  sign : ℝ
  /-- `zerodistance` -/
  zero : Option ℝ
  /-- `distancekwargs["detectorposition"]` -/
  position : Option ℝ
  /-- `detector.activearea` -/
  area : Option ℝ

/-- `positionsign * (detectorposition + zerodistance)`, xrf.py:57-58 -/
noncomputable def distanceAt (g : Linear) (position : ℝ) (zero : Option ℝ) : Except Err ℝ :=
  match zero with
  | none => .error .typeError
  | some z => .ok (g.sign * (position + z))

/-- `positionsign * distance - zerodistance`, xrf.py:59-61 -/
noncomputable def positionAt (g : Linear) (distance : ℝ) (zero : Option ℝ) : Except Err ℝ :=
  match zero with
  | none => .error .typeError
  | some z => .ok (g.sign * distance - z)

/-- `positionsign * distance - self.geometry.detectorposition`, xrf.py:62-64 -/
noncomputable def zeroAt (g : Linear) (distance : ℝ) : Except Err ℝ :=
  match g.position with
  | none => .error .typeError
  | some p => .ok (g.sign * distance - p)

/-- `distance` getter, xrf.py:358-369 with LinearMotor.__call__, xrf.py:70-94. -/
noncomputable def distance (g : Linear) : Except Err ℝ :=
  match g.position with
  | none => .error .notANumber
  | some p => distanceAt g p g.zero

/-- `distance` setter, xrf.py:371-378. -/
noncomputable def setDistance (g : Linear) (d : Option ℝ) : Except Err Linear :=
  match d with
  | none => .ok { g with position := none }
  | some d => (positionAt g d g.zero).map fun p => { g with position := some p }

/-- `detectorposition` setter, xrf.py:474-480. -/
def setPosition (g : Linear) (p : Option ℝ) : Linear := { g with position := p }

/-- LinearMotor.calibrate_manually, xrf.py:96-102. -/
noncomputable def calibrateManually (g : Linear) (d : ℝ) : Except Err Linear :=
  (zeroAt g d).map fun z => { g with zero := some z }

/-- `solidangle` getter of Centric, base.py:265-273. -/
noncomputable def solidangle (g : Linear) : Except Err ℝ :=
  (distance g).bind fun d => solidangleCalc g.area (some d) none

/-- `solidangle` setter of Centric, base.py:275-279. -/
noncomputable def setSolidangle (g : Linear) (sa : ℝ) : Except Err Linear :=
  (solidangleCalc g.area none (some sa)).bind fun d => setDistance g (some d)

/-- LinearXRFGeometry.__init__, xrf.py:426-442: the detector position is used only when there is no
distance. -/
noncomputable def create (sign : ℝ) (zero position dist area : Option ℝ) : Except Err Linear :=
  (setDistance ⟨sign, zero, none, area⟩ dist).map fun g =>
    if dist.isNone then setPosition g position else g

/-- `activeareafunc` of calibrate_fit with a known solid angle, xrf.py:177-184. -/
noncomputable def areaFor (g : Linear) (sa zero : ℝ) : Except Err ℝ :=
  match g.position with
  | none => .error .typeError
  | some p => (distanceAt g p (some zero)).bind fun d => solidangleCalc none (some d) (some sa)

/-- The zero-distance of calibrate_fit with a known solid angle and a fixed active area, xrf.py:187-195. -/
noncomputable def zeroFor (g : Linear) (sa : ℝ) : Except Err ℝ :=
  (solidangleCalc g.area none (some sa)).bind (zeroAt g)

end SC.Geometry
