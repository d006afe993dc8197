import Mathlib.Algebra.BigOperators.Fin
import Mathlib.Algebra.Order.Field.Basic
/-! # Model of `materials/stoichiometry.py`

Arrays of `n` numbers are functions `Fin n → K` into an ordered field (exact arithmetic instead of
floating point); numpy's element-wise operators and `.sum()` are spelled out.  Arrays of different
lengths (numpy broadcasting or ValueError) are not modelled. -/
namespace SC.Stoich
open Finset

variable {K : Type} [Field K] [LinearOrder K] [IsStrictOrderedRing K] {n : Nat}

/-- frac_mole_to_weight, stoichiometry.py:42-48. -/
def fracMoleToWeight (nfrac MM : Fin n → K) : Fin n → K :=
  fun i => nfrac i * MM i / ∑ j, nfrac j * MM j

/-- frac_weight_to_mole, stoichiometry.py:51-57. -/
def fracWeightToMole (wfrac MM : Fin n → K) : Fin n → K :=
  fun i => wfrac i / (MM i * ∑ j, wfrac j / MM j)

/-- molarmass_from_wfrac, stoichiometry.py:60-66. -/
def molarmassFromWfrac (wfrac MM : Fin n → K) : K := 1 / ∑ j, wfrac j / MM j

/-- frac_weight_to_volume, stoichiometry.py:69-75. -/
def fracWeightToVolume (wfrac rho : Fin n → K) : Fin n → K :=
  fun i => wfrac i / (rho i * ∑ j, wfrac j / rho j)

/-- frac_volume_to_weight, stoichiometry.py:78-84. -/
def fracVolumeToWeight (vfrac rho : Fin n → K) : Fin n → K :=
  fun i => vfrac i * rho i / ∑ j, vfrac j * rho j

/-- frac_volume_to_mole, stoichiometry.py:87-94. -/
def fracVolumeToMole (vfrac rho MM : Fin n → K) : Fin n → K :=
  fun i => vfrac i * rho i / (MM i * ∑ j, vfrac j * rho j / MM j)

/-- frac_mole_to_volume, stoichiometry.py:97-104. -/
def fracMoleToVolume (nfrac rho MM : Fin n → K) : Fin n → K :=
  fun i => nfrac i * MM i / (rho i * ∑ j, nfrac j * MM j / rho j)

/-- density_from_volumefrac, stoichiometry.py:107-113. -/
def densityFromVolumefrac (vfrac rho : Fin n → K) : K := ∑ j, vfrac j * rho j

/-- density_from_massfrac, stoichiometry.py:116-122. -/
def densityFromMassfrac (wfrac rho : Fin n → K) : K := 1 / ∑ j, wfrac j / rho j

/-- density_from_molefrac, stoichiometry.py:125-132. -/
def densityFromMolefrac (nfrac rho MM : Fin n → K) : K :=
  (∑ j, nfrac j * MM j) / ∑ j, nfrac j * MM j / rho j

/-- add_frac, stoichiometry.py:135-147 (`none`: ValueError). -/
def addFrac (x newfracs : List K) : Option (List K) :=
  let nsum := newfracs.sum
  if nsum > 1 then none
  else
    let xsum := x.sum
    some (x.map (· * max (1 - nsum) 0) ++ newfracs.map (· * xsum))

end SC.Stoich
