import Verif.Quadric.Model
import Mathlib.LinearAlgebra.Matrix.Notation
import Mathlib.Analysis.SpecialFunctions.Trigonometric.Basic
/-! # Model of the reference frames of `simulation/xrmc.py`

Numbers are real; angles are in degrees where the code has them in degrees. -/
namespace SC.Xrmc
open Matrix

abbrev M4 := Matrix (Fin 4) (Fin 4) ℝ

/-- A vector with three coordinates. -/
structure V3 where
  x : ℝ
  y : ℝ
  z : ℝ

/-- xyzUserToXrmc, xrmc.py:598-599. -/
def xyz (v : V3) : V3 := ⟨-v.x, v.z, v.y⟩

/-- A 4x4 identity with a translation in its last column, xrmc.py:626-627, 639-640, 643-644. -/
def trans (v : V3) : M4 := !![1, 0, 0, v.x; 0, 1, 0, v.y; 0, 0, 1, v.z; 0, 0, 0, 1]

/-- xrmcTranslationMatrix, xrmc.py:624-628. -/
def translationMatrix (v : V3) : M4 := trans (xyz v)

/-- The rotation about the unit vector `u` with cosine `c` and sine `s` (Rodrigues). -/
def rot (u : V3) (c s : ℝ) : M4 :=
  !![c + u.x * u.x * (1 - c), u.x * u.y * (1 - c) - u.z * s, u.x * u.z * (1 - c) + u.y * s, 0;
     u.y * u.x * (1 - c) + u.z * s, c + u.y * u.y * (1 - c), u.y * u.z * (1 - c) - u.x * s, 0;
     u.z * u.x * (1 - c) - u.y * s, u.z * u.y * (1 - c) + u.x * s, c + u.z * u.z * (1 - c), 0;
     0, 0, 0, 1]

noncomputable section

/-- scipy's Rotation.from_rotvec(v).as_matrix() in the upper left corner, xrmc.py:641-642: a rotation about
`v` by its norm. This is the documented behaviour of scipy, which is not in the repository. -/
def fromRotvec (v : V3) : M4 :=
  let t := Real.sqrt (v.x * v.x + v.y * v.y + v.z * v.z)
  if t = 0 then 1 else rot ⟨v.x / t, v.y / t, v.z / t⟩ (Real.cos t) (Real.sin t)

/-- np.radians. -/
def radians (a : ℝ) : ℝ := a * (Real.pi / 180)

/-- xrmcRotationMatrix, xrmc.py:630-646, with rotationUserToXrmc, 601-604. For a zero axis the code has a
division by zero (nan), here the result is 1. -/
def rotationMatrix (p u : V3) (angle : ℝ) : M4 :=
  let angle := radians (-angle)
  if angle = 0 then 1
  else
    let pt := xyz p
    let vec := xyz u
    let f := angle / (vec.x * vec.x + vec.y * vec.y + vec.z * vec.z)
    let m1 := trans ⟨-pt.x, -pt.y, -pt.z⟩
    let m2 := fromRotvec ⟨vec.x * f, vec.y * f, vec.z * f⟩
    let m3 := trans pt
    m3 * (m2 * m1)

/-- XrmcReferenceFrame.userToXrmc and xrmcToUser, xrmc.py:648-654: the same matrix. -/
def base : M4 := !![-1, 0, 0, 0; 0, 0, 1, 0; 0, 1, 0, 0; 0, 0, 0, 1]

/-- The numbers of XrmcPositionalDevice, xrmc.py:676-693. -/
structure Device where
  radius : ℝ
  polar : ℝ
  azimuth : ℝ
  hoffset : ℝ
  voffset : ℝ

/-- XrmcPositionalDevice.userToXrmc, xrmc.py:695-702. -/
def userToXrmc (d : Device) : M4 :=
  let m1 := translationMatrix ⟨d.hoffset, d.voffset, d.radius⟩
  let m2 := rotationMatrix ⟨0, 0, 0⟩ ⟨0, 1, 0⟩ d.polar
  let m3 := rotationMatrix ⟨0, 0, 0⟩ ⟨0, 0, 1⟩ d.azimuth
  m3 * (m2 * m1 * base)

/-- XrmcPositionalDevice.xrmcToUser, xrmc.py:704-710. -/
def xrmcToUser (d : Device) : M4 :=
  let m1 := translationMatrix ⟨-d.hoffset, -d.voffset, -d.radius⟩
  let m2 := rotationMatrix ⟨0, 0, 0⟩ ⟨0, 1, 0⟩ (-d.polar)
  let m3 := rotationMatrix ⟨0, 0, 0⟩ ⟨0, 0, 1⟩ (-d.azimuth)
  base * (m1 * m2 * m3)

/-- quadricChangeOfFrame, xrmc.py:712-718. -/
def quadricFrame (d : Device) : M4 :=
  let m1 := translationMatrix ⟨-d.hoffset, -d.voffset, -d.radius⟩
  let m2 := rotationMatrix ⟨0, 0, 0⟩ ⟨0, 1, 0⟩ d.polar
  let m3 := rotationMatrix ⟨0, 0, 0⟩ ⟨0, 0, 1⟩ d.azimuth
  m1 * (m2 * m3)

/-- A move of a Transform, xrmc.py:858-872; `Rotate` and `RotateAll` (`Translate` and `TranslateAll`) only
differ in the device they apply to. -/
inductive Move where
  | rotate (p u : V3) (angle : ℝ)
  | translate (v : V3)

/-- The retour of a move, xrmc.py:900-912. -/
def Move.retour (n : Nat) : Move → Move
  | .rotate p u a => .rotate p u (-(n : ℝ) * a)
  | .translate v => .translate ⟨-(n : ℝ) * v.x, -(n : ℝ) * v.y, -(n : ℝ) * v.z⟩

/-- What xrmc does with the line of a move (xrmcRotationInput and xrmcTranslationInput, xrmc.py:610-622): the
matrices the class itself has for them. A line whose move is the identity is commented out. -/
def Move.matrix : Move → M4
  | .rotate p u a => rotationMatrix p u a
  | .translate v => translationMatrix v

end

/-- The ten numbers of a quadric, `idx` of xmrcTransformedQuadric, xrmc.py:722 and 734: the first column, then
the second from its diagonal, ... -/
def lower {K : Type} (A : Matrix (Fin 4) (Fin 4) K) : List K :=
  [A 0 0, A 1 0, A 2 0, A 3 0, A 1 1, A 2 1, A 3 1, A 2 2, A 3 2, A 3 3]

/-- `A = np.zeros((4, 4)); A[idx] = params`, xrmc.py:731-732. -/
def fill {K : Type} [Zero K] : List K → Matrix (Fin 4) (Fin 4) K
  | [a0, a1, a2, a3, a4, a5, a6, a7, a8, a9] => !![a0, 0, 0, 0; a1, a4, 0, 0; a2, a5, a7, 0; a3, a6, a8, a9]
  | _ => 0

/-- The kind of a quadric. -/
inductive Kind where
  | plane | ellipsoid | cylinder (axis : Fin 3) | quadric
deriving DecidableEq

/-- xmrcTransformedQuadric, xrmc.py:720-734, with the frame as argument. A cylinder has four parameters
(xrmc.py:1766), of which `params[:3]` and `params[3:]` are taken for centre and semi-axes: `quadrics.cylinder`
then makes a 5x5 matrix, whose product with the 4x4 frame fails, `none` for the exception. -/
def transformedQuadric {K : Type} [Field K] (k : Kind) (params : List K) (C : Matrix (Fin 4) (Fin 4) K) : Option (List K) :=
  match k, params with
  | .plane, [a, b, c, u, v, w] => some (lower (Quadric.changeOfFrame (Quadric.plane ![a, b, c] ![u, v, w]) C))
  | .ellipsoid, [a, b, c, u, v, w] => some (lower (Quadric.changeOfFrame (Quadric.ellipsoid ![a, b, c] ![u, v, w]) C))
  | .quadric, [_, _, _, _, _, _, _, _, _, _] => some (lower (Quadric.changeOfFrame (fill params) C))
  | _, _ => none

/-- add_layer, xrmc.py:1793-1850, the two planes perpendicular to the beam of each layer: their positions on
the beam axis. `surface` is the end of the previous layer. -/
def layers (spacing : ℚ) : ℚ → List ℚ → List (ℚ × ℚ)
  | _, [] => []
  | surface, t :: ts =>
    let sgn : ℚ := if t = 0 then 0 else if 0 < t then 1 else -1
    let ta := surface + sgn * |spacing|
    let tb := ta + t
    (ta, tb) :: layers spacing tb ts

end SC.Xrmc
