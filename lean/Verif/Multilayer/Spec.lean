import Verif.Multilayer.Model
/-! # What a multilayer should do

Without indices and tables: which layer is at a depth, and the intensity that arrives there and comes back. -/
namespace SC.Multilayer
open MeasureTheory

/-- The layer at a depth. -/
noncomputable def layerAt : List Layer → ℝ → Option Layer
  | [], _ => none
  | l :: ls, z => if z ≤ 0 then none else if z ≤ l.t then some l else layerAt ls (z - l.t)

/-- The total thickness. -/
def depth (ls : List Layer) : ℝ := (ls.map (·.t)).sum

/-- The attenuation coefficient at a depth. -/
noncomputable def muAt (ls : List Layer) (e z : ℝ) : ℝ := ((layerAt ls z).map fun l => l.mu e).getD 0

/-- The probability of an interaction at a depth. -/
noncomputable def chance (ls : List Layer) (e : ℝ) (k : Line) (z : ℝ) : ℝ :=
  ((layerAt ls z).map fun l => l.prob e k).getD 0

/-- The part of the intensity left after going from one depth to another. -/
noncomputable def left (ls : List Layer) (e cos a b : ℝ) : ℝ := Real.exp (-(∫ z in a..b, muAt ls e z) / cos)

/-- The side where the detected radiation leaves the sample. -/
noncomputable def exitAt (m : Sample) : ℝ := if m.reflection then 0 else depth m.layers

/-- The rate of a line per photon of the source: attenuation in, interaction, attenuation out. -/
noncomputable def trueRate (m : Sample) (k : Line) (e0 e1 : ℝ) : ℝ :=
  m.solidangle / m.cosin * ∫ z in (0 : ℝ)..(depth m.layers),
    left m.layers e0 m.cosin 0 z * chance m.layers e0 k z * left m.layers e1 m.cosout z (exitAt m)

/-- The energy of a line of which the photon of the source has this energy. -/
def energyOf (m : Sample) (e0 : ℝ) : Line → ℝ
  | .fluo i => m.lineE i
  | .compton => m.comptonE e0
  | .rayleigh => e0

/-- A sample of layers with a thickness. -/
def Thick (ls : List Layer) : Prop := ∀ l ∈ ls, 0 ≤ l.t

/-- In a layer the attenuation on the way in and on the way out do not cancel. -/
def NoCancel (m : Sample) (e0 e1 : ℝ) : Prop := ∀ l ∈ m.layers, l.mu e1 / m.cosout ≠ l.mu e0 / m.cosin

end SC.Multilayer
