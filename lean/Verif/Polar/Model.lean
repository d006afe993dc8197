import Mathlib.Analysis.SpecialFunctions.Trigonometric.Basic
import Mathlib.Analysis.SpecialFunctions.Complex.Arg
import Mathlib.Analysis.SpecialFunctions.Pow.Real
import Mathlib.LinearAlgebra.Matrix.Notation
/-! # Polarization of transverse waves (sources/polarization.py)

Real and complex numbers without rounding.  A division by zero, which numpy answers with NaN or an
infinity, is Lean's 0 here: theorems exclude it.  Plotting and printing are left out. -/
namespace SC.Polar
open Matrix Complex

/-- A Jones vector (lines 179-200) -/
abbrev Jones := Fin 2 → ℂ
/-- A Stokes vector (lines 512-526) -/
abbrev Stokes := Fin 4 → ℝ

/-- `np.radians` -/
noncomputable def radians (x : ℝ) : ℝ := x * Real.pi / 180
/-- `np.degrees` -/
noncomputable def degrees (x : ℝ) : ℝ := x * 180 / Real.pi

/-- `np.arctan2(y, x)` -/
noncomputable def arctan2 (y x : ℝ) : ℝ := Complex.arg ⟨x, y⟩

/-- `jonesnormsq_to_intensity` (lines 16-25); `κ` is vacuum permittivity times speed of light. -/
noncomputable def toIntensity (κ x : ℝ) : ℝ := x / 2 * κ
/-- `intensity_to_jonesnormsq` (lines 28-37) -/
noncomputable def fromIntensity (κ x : ℝ) : ℝ := x * 2 / κ

/-- `JonesMatrixRotation` (lines 40-52) -/
noncomputable def jonesRotation (angle : ℝ) : Matrix (Fin 2) (Fin 2) ℂ :=
  let ph := radians angle
  !![(Real.cos ph : ℂ), -(Real.sin ph : ℂ); (Real.sin ph : ℂ), (Real.cos ph : ℂ)]

/-- `MuellerMatrixRotation` (lines 55-69) -/
noncomputable def muellerRotation (angle : ℝ) : Matrix (Fin 4) (Fin 4) ℝ :=
  let ph := radians (2 * angle)
  !![1, 0, 0, 0; 0, Real.cos ph, -Real.sin ph, 0; 0, Real.sin ph, Real.cos ph, 0; 0, 0, 0, 1]

/-- `JonesMatrixThomson` (lines 72-81) -/
noncomputable def jonesThomson (polar : ℝ) : Matrix (Fin 2) (Fin 2) ℂ := !![1, 0; 0, (Real.cos (radians polar) : ℂ)]

/-- `ThomsonRotationAngle` (lines 84-94) -/
def thomsonRotationAngle (azimuth : ℝ) : ℝ := azimuth - 90
/-- `ComptonRotationAngle` (lines 97-107) -/
def comptonRotationAngle (azimuth : ℝ) : ℝ := azimuth - 90

/-- `MuellerMatrixThomson` (lines 110-137) -/
noncomputable def muellerThomson (azimuth polar : ℝ) : Matrix (Fin 4) (Fin 4) ℝ :=
  let costh := Real.cos (radians polar)
  let cossq := costh ^ 2
  let a := (1 + cossq) / 2
  let b := 1 - a
  let ph := -radians (2 * thomsonRotationAngle azimuth)
  let cosph := Real.cos ph
  let sinph := Real.sin ph
  !![a, b * cosph, -b * sinph, 0; b, a * cosph, -a * sinph, 0; 0, costh * sinph, costh * cosph, 0; 0, 0, 0, costh]

/-- `kev_to_mc2` (lines 140-141): `mc2` is the rest energy of the electron in keV. -/
noncomputable def kevToMc2 (mc2 energy : ℝ) : ℝ := energy / mc2

/-- `MuellerMatrixCompton` (lines 144-176) -/
noncomputable def muellerCompton (mc2 azimuth polar energy : ℝ) : Matrix (Fin 4) (Fin 4) ℝ :=
  let costh := Real.cos (radians polar)
  let cossq := costh ^ 2
  let a := (1 + cossq) / 2
  let b := 1 - a
  let ph := -radians (2 * comptonRotationAngle azimuth)
  let cosph := Real.cos ph
  let sinph := Real.sin ph
  let k := kevToMc2 mc2 energy
  let ksc := k / (1 + k * (1 - costh))
  let c := (k - ksc) * (1 - costh) / 2
  (ksc ^ 2 / k ^ 2) • !![a + c, b * cosph, -b * sinph, 0; b, a * cosph, -a * sinph, 0; 0, costh * sinph, costh * cosph, 0; 0, 0, 0, costh * (1 + c)]

/-- `np.allclose(a, b)` of matrices with the default tolerances -/
def AllClose (a b : Matrix (Fin 2) (Fin 2) ℂ) : Prop := ∀ i j, ‖a i j - b i j‖ ≤ 1 / 10 ^ 8 + 1 / 10 ^ 5 * ‖b i j‖

/-- `np.sqrt` of a complex number (principal root) -/
noncomputable def csqrt (z : ℂ) : ℂ := z ^ (1 / 2 : ℂ)

namespace Jones

/-- `sqnorm` (lines 238-256): the real part of the Hermitian inner product -/
noncomputable def sqnorm (J : Jones) : ℝ := (J ⬝ᵥ star J).re

/-- `norm` (lines 258-261) -/
noncomputable def norm (J : Jones) : ℝ := Real.sqrt (sqnorm J)

/-- `intensity` (lines 278-281) -/
noncomputable def intensity (κ : ℝ) (J : Jones) : ℝ := toIntensity κ (sqnorm J)

/-- `intensity.setter` (lines 283-285) -/
noncomputable def setIntensity (κ : ℝ) (J : Jones) (value : ℝ) : Jones :=
  fun i => J i * (Real.sqrt (value / intensity κ J) : ℂ)

/-- `coherency_matrix` (lines 287-296) -/
noncomputable def coherency (J : Jones) : Matrix (Fin 2) (Fin 2) ℂ := vecMulVec J (star J)

/-- `_coherency_matrix_to_jones` (lines 298-309) behind the check -/
noncomputable def ofCoherency! (C : Matrix (Fin 2) (Fin 2) ℂ) (phase0 : ℝ) : Jones :=
  let ph0 := radians phase0
  let V0 := csqrt (C 0 0) * exp (ph0 * I)
  let dph := Complex.arg (C 1 0)
  let ph1 := dph + ph0
  let V1 := csqrt (C 1 1) * exp (ph1 * I)
  ![V0, V1]

open Classical in
/-- `from_coherency_matrix` (lines 315-317); RuntimeError is `none` -/
noncomputable def ofCoherency (C : Matrix (Fin 2) (Fin 2) ℂ) (phase0 : ℝ := 0) : Option Jones :=
  if AllClose C Cᴴ then some (ofCoherency! C phase0) else none

/-- `phase0` (lines 367-370) -/
noncomputable def phase0 (J : Jones) : ℝ := degrees (Complex.arg (J 0))
/-- `phase1` (lines 372-375) -/
noncomputable def phase1 (J : Jones) : ℝ := degrees (Complex.arg (J 1))

/-- `phase_difference` (lines 377-380) -/
noncomputable def phaseDifference (J : Jones) : ℝ := phase1 J - phase0 J

/-- `efield` at one phase (lines 263-276) -/
noncomputable def efield (J : Jones) (phase : ℝ) : Fin 2 → ℝ := fun i => (J i * exp (-I * radians phase)).re

/-- `rotate` (lines 483-493) -/
noncomputable def rotate (J : Jones) (angle : ℝ) : Jones := jonesRotation (-angle) *ᵥ J

/-- `thomson_scattering` (lines 495-509) -/
noncomputable def thomson (J : Jones) (azimuth polar : ℝ) : Option Jones :=
  let J' := rotate J (thomsonRotationAngle azimuth)
  let Mth := jonesThomson polar
  let C := Mth * coherency J' * Mthᴴ
  ofCoherency C (phase0 J')

end Jones

/-- `pauli44` (line 520) -/
noncomputable def pauli44 : Matrix (Fin 4) (Fin 4) ℂ := !![1, 0, 0, 1; 1, 0, 0, -1; 0, 1, 1, 0; 0, I, -I, 0]

/-- `C.flatten()` -/
def flatten (C : Matrix (Fin 2) (Fin 2) ℂ) : Fin 4 → ℂ := ![C 0 0, C 0 1, C 1 0, C 1 1]

/-- `np.kron` of 2x2 matrices -/
noncomputable def kron (A B : Matrix (Fin 2) (Fin 2) ℂ) : Matrix (Fin 4) (Fin 4) ℂ :=
  !![A 0 0 * B 0 0, A 0 0 * B 0 1, A 0 1 * B 0 0, A 0 1 * B 0 1;
     A 0 0 * B 1 0, A 0 0 * B 1 1, A 0 1 * B 1 0, A 0 1 * B 1 1;
     A 1 0 * B 0 0, A 1 0 * B 0 1, A 1 1 * B 0 0, A 1 1 * B 0 1;
     A 1 0 * B 1 0, A 1 0 * B 1 1, A 1 1 * B 1 0, A 1 1 * B 1 1]

/-- The values of `handedness` -/
inductive Hand | left | right | none
deriving DecidableEq

/-- The parameters of a Stokes vector -/
structure Params where
  intensity : ℝ
  dop : ℝ
  dolp : ℝ
  polangle : ℝ
  handedness : Hand

/-- The parameters of a Jones vector -/
structure JParams where
  intensity : ℝ
  dolp : ℝ
  polangle : ℝ
  handedness : Hand
  phase0 : ℝ

namespace Stokes

/-- `(self.S[1:] ** 2).sum()` -/
noncomputable def polsq (S : Stokes) : ℝ := S 1 ^ 2 + S 2 ^ 2 + S 3 ^ 2
/-- `(self.S[1:3] ** 2).sum()` -/
noncomputable def linsq (S : Stokes) : ℝ := S 1 ^ 2 + S 2 ^ 2

/-- `intensity`, lines 567-570 -/
noncomputable def intensity (κ : ℝ) (S : Stokes) : ℝ := toIntensity κ (S 0)
/-- `intensity.setter`, lines 572-574 -/
noncomputable def setIntensity (κ : ℝ) (S : Stokes) (value : ℝ) : Stokes := fun i => S i * (value / intensity κ S)
/-- `intensity_polarized`, lines 576-579 -/
noncomputable def intensityPolarized (κ : ℝ) (S : Stokes) : ℝ := toIntensity κ (Real.sqrt (polsq S))
/-- `intensity_unpolarized`, lines 581-583 -/
noncomputable def intensityUnpolarized (κ : ℝ) (S : Stokes) : ℝ := toIntensity κ (S 0 - Real.sqrt (polsq S))
/-- `dop`, lines 585-589 -/
noncomputable def dop (S : Stokes) : ℝ := Real.sqrt (polsq S) / S 0
/-- `dolp`, lines 591-595 -/
noncomputable def dolp (S : Stokes) : ℝ := Real.sqrt (linsq S) / S 0
/-- `hdolp`, lines 597-601 -/
noncomputable def hdolp (S : Stokes) : ℝ := S 1 / S 0
/-- `docp`, lines 603-607 -/
noncomputable def docp (S : Stokes) : ℝ := S 3 / S 0
/-- `polangle`, lines 609-612 -/
noncomputable def polangle (S : Stokes) : ℝ := degrees (arctan2 (S 2) (S 1) / 2)
/-- `ellipangle`, lines 614-617 -/
noncomputable def ellipangle (S : Stokes) : ℝ := arctan2 (S 3) (Real.sqrt (linsq S)) / 2
/-- `handedness`, lines 619-626 -/
noncomputable def handedness (S : Stokes) : Hand := if 0 < S 3 then .left else if S 3 < 0 then .right else .none
/-- `phase_difference`, lines 628-632 -/
noncomputable def phaseDifference (S : Stokes) : ℝ := degrees (arctan2 (S 3) (S 2))

/-- `coherency_matrix` (lines 634-642) -/
noncomputable def coherency (S : Stokes) : Matrix (Fin 2) (Fin 2) ℂ :=
  let v := (1 / 2 : ℂ) • (pauli44ᴴ *ᵥ fun i => (S i : ℂ))
  !![v 0, v 1; v 2, v 3]

/-- `_coherency_matrix_to_stokes` (lines 647-658) behind the check -/
noncomputable def ofCoherency! (C : Matrix (Fin 2) (Fin 2) ℂ) : Stokes := fun i => ((pauli44 *ᵥ flatten C) i).re

open Classical in
/-- `from_coherency_matrix` (lines 667-669); RuntimeError is `none` -/
noncomputable def ofCoherency (C : Matrix (Fin 2) (Fin 2) ℂ) : Option Stokes :=
  if AllClose C Cᴴ then some (ofCoherency! C) else none

/-- `decompose` (lines 674-681): polarized and unpolarized part -/
noncomputable def decompose (S : Stokes) : Stokes × Stokes :=
  let tmp := Real.sqrt (polsq S)
  (![tmp, S 1, S 2, S 3], ![S 0 - tmp, 0, 0, 0])

/-- lines 684-693: what is converted by `to_jones` -/
noncomputable def polPart (S : Stokes) (allowloss : Bool) (atol : ℝ) : Option Stokes :=
  let d := dop S - 1
  if d = 0 then some S
  else if atol < |d| ∧ allowloss = false then none
  else some (decompose S).1

/-- `to_jones` (lines 683-694) -/
noncomputable def toJones (S : Stokes) (phase0 : ℝ := 0) (allowloss : Bool := false) (atol : ℝ := 1 / 10 ^ 7) : Option Jones :=
  (polPart S allowloss atol).bind fun pol => Jones.ofCoherency (coherency pol) phase0

/-- `np.sign` -/
noncomputable def sign (x : ℝ) : ℝ := if 0 < x then 1 else if x < 0 then -1 else 0

/-- `from_params` (lines 696-719); RuntimeError is `none`.  The tangent of 90 degrees, a large number
for numpy, is Lean's 0 here: theorems exclude it. -/
noncomputable def fromParams (κ : ℝ) (p : Params) : Option Stokes :=
  if p.dop < p.dolp then none
  else
    let S0 := fromIntensity κ p.intensity
    let S12 := (p.dolp * S0) ^ 2
    let S123 := (p.dop * S0) ^ 2
    let polangle2 := radians (2 * p.polangle)
    let S2S1 := Real.tan polangle2
    let S3 := Real.sqrt (S123 - S12)
    let S3 := if p.handedness = Hand.right then -S3 else S3
    let S1sq := S12 / (1 + S2S1 ^ 2)
    let S1 := Real.sqrt S1sq * sign (Real.cos polangle2)
    let S2 := Real.sqrt (S12 - S1sq) * sign (Real.sin polangle2)
    some ![S0, S1, S2, S3]

/-- `to_params` (lines 721-728) -/
noncomputable def toParams (κ : ℝ) (S : Stokes) : Params :=
  { intensity := intensity κ S, dop := dop S, dolp := dolp S, polangle := polangle S, handedness := handedness S }

/-- `jones_to_mueller` (lines 730-743) -/
noncomputable def jonesToMueller (M : Matrix (Fin 2) (Fin 2) ℂ) : Matrix (Fin 4) (Fin 4) ℂ :=
  (1 / 2 : ℂ) • (pauli44 * kron M Mᴴ * pauli44ᴴ)

/-- `rotate` (lines 749-759) -/
noncomputable def rotate (S : Stokes) (azimuth : ℝ) : Stokes := muellerRotation (-azimuth) *ᵥ S
/-- `thomson_scattering` (lines 761-773) -/
noncomputable def thomson (S : Stokes) (azimuth polar : ℝ) : Stokes := muellerThomson azimuth polar *ᵥ S
/-- `compton_scattering` (lines 780-793) -/
noncomputable def compton (mc2 : ℝ) (S : Stokes) (azimuth polar energy : ℝ) : Stokes :=
  muellerCompton mc2 azimuth polar energy *ᵥ S

open Classical in
/-- `thomson_K` (lines 800-829), angles in radians -/
noncomputable def thomsonK (S : Stokes) (azimuth polar : ℝ) : ℝ :=
  if S 1 = 0 ∧ S 2 = 0 then (1 + Real.cos polar ^ 2) / 2
  else
    let S10 := S 1 / S 0
    let S20 := S 2 / S 0
    let a := (1 + Real.cos polar ^ 2) / 2
    let ph := 2 * azimuth
    a - (1 - a) * (S10 * Real.cos ph + S20 * Real.sin ph)

open Classical in
/-- `compton_K` (lines 831-859) -/
noncomputable def comptonK (mc2 : ℝ) (S : Stokes) (energy azimuth polar : ℝ) : ℝ :=
  let k := kevToMc2 mc2 energy
  let costh := Real.cos polar
  let a := (1 + costh ^ 2) / 2
  let ksc := k / (1 + k * (1 - costh))
  let c := (k - ksc) * (1 - costh) / 2
  if S 1 = 0 ∧ S 2 = 0 then ksc ^ 2 / k ^ 2 * (a + c)
  else
    let S10 := S 1 / S 0
    let S20 := S 2 / S 0
    let ph := 2 * azimuth
    ksc ^ 2 / k ^ 2 * (a + c - (1 - a) * (S10 * Real.cos ph + S20 * Real.sin ph))

/-- `thomson_intensity` (lines 861-870) -/
noncomputable def thomsonIntensity (κ : ℝ) (S : Stokes) (azimuth polar : ℝ) : ℝ :=
  intensity κ S * thomsonK S (radians azimuth) (radians polar)

/-- `compton_intensity` (lines 872-884) -/
noncomputable def comptonIntensity (κ mc2 : ℝ) (S : Stokes) (azimuth polar energy : ℝ) : ℝ :=
  intensity κ S * comptonK mc2 S energy (radians azimuth) (radians polar)

end Stokes

/-- `Jones.to_stokes` (lines 322-325); RuntimeError is `none` -/
noncomputable def Jones.toStokes (J : Jones) : Option Stokes := Stokes.ofCoherency (Jones.coherency J)

/-- `Jones.to_params` (lines 382-390) -/
noncomputable def Jones.toParams (κ : ℝ) (J : Jones) : Option JParams :=
  (Jones.toStokes J).map fun S =>
    { intensity := Jones.intensity κ J, dolp := Stokes.dolp S, polangle := Stokes.polangle S, handedness := Stokes.handedness S, phase0 := Jones.phase0 J }

/-- `Jones.from_params` (lines 392-396) -/
noncomputable def Jones.fromParams (κ : ℝ) (p : JParams) : Option Jones :=
  (Stokes.fromParams κ { intensity := p.intensity, dop := 1, dolp := p.dolp, polangle := p.polangle, handedness := p.handedness }).bind
    fun S => Stokes.toJones S p.phase0

end SC.Polar
