import Verif.Spectrum.Model
/-! # Specification of spectra -/
namespace SC.Spectrum

/-- Lines of a dictionary are distinct. -/
def Distinct (d : Lines) : Prop := (d.map fun p => p.1.name).Nodup

/-- The energies of the source that a scattering line needs a value for. -/
def sourceOf : Line → Option Val
  | .rayleigh s => some s
  | .compton s => some s
  | _ => Option.none

/-- The energy after scattering. -/
def scatEnergy (shift : ℚ → ℚ) : Line → ℚ → ℚ
  | .compton _, e => shift e
  | _, e => e

/-- A scattering line has one value for every energy of the source. -/
def Matched (d : Lines) : Prop := ∀ p ∈ d, ∀ s, sourceOf p.1 = some s → s.toList.length = p.2.toList.length

/-- All values together. -/
def total (d : Lines) : ℚ := (d.map fun p => p.2.toList.sum).sum

/-- The texts of fluorescence lines and their groups have a dash: "Fe-KL3", "Fe-K". -/
def Dashed (d : Lines) : Prop := ∀ p ∈ d, p.1.isFluo = true → '-' ∈ p.1.name ∧ '-' ∈ p.1.group

/-- Every line has a value. -/
def Filled (d : Lines) : Prop := ∀ p ∈ d, p.2.toList ≠ []

end SC.Spectrum
