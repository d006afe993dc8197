import Verif.Detector.Model
/-! # What filters do -/
namespace SC.Detector
open SC.Py

variable {M : Type}

/-- The name of a beam filter: "beamfilter" in any mixture of cases, and a number (a newline may follow). -/
def BeamName (n : Str) : Prop :=
  ∃ ds : Str, ds ≠ [] ∧ (∀ c ∈ ds, c.isDigit = true) ∧
    (n.map Char.toLower = "beamfilter".toList ++ ds ∨ n.map Char.toLower = "beamfilter".toList ++ ds ++ ['\n'])

/-- The fraction of the photons that pass through layers of the given absorbances: each layer takes its part
of what is left. -/
noncomputable def passing : List ℝ → ℝ
  | [] => 1
  | a :: l => Real.exp (-a) * passing l

/-- The part passed by the attenuator with a certain name, 1 when there is none. -/
noncomputable def factorOf (absorb : M → ℝ → ℝ → ℝ) (s : State M) (n : Str) (e : ℝ) : ℝ :=
  match Dict.get? s.atts n with
  | some a => Real.exp (-absorb a.1 e a.2)
  | none => 1

end SC.Detector
