import Verif.Diode.Spec
import Mathlib.Tactic.FieldSimp
import Mathlib.Tactic.Ring
/-! # Lemmas for the diodes -/
namespace SC.Diode
open SC.Linop (F)

variable {K : Type} [Field K] [LinearOrder K]

theorem eval_linear (m b x : K) : Linop.eval (linear m b) (.fin x) = .fin (m * x + b) := rfl

theorem applyE_linear (m b x : K) : applyE (.ok (linear m b)) x = .ok (.fin (m * x + b)) := rfl

theorem inverse_linear {m : K} (b : K) (h : m ≠ 0) : Linop.inverse (linear m b) = linear (1 / m) (-b / m) := by
  simp [Linop.inverse, linear, Linop.Atom.inverse, Linop.F.div, Linop.F.neg, h]

theorem mul_linear (m b m' b' : K) : Linop.mul (linear m b) (linear m' b') = linear (m * m') (b' * m + b) := rfl

theorem mulE_ok (a b : Linop.Op K) : mulE (.ok a) (.ok b) = .ok (Linop.mul a b) := rfl

theorem divE_ok {a b : K} (h : b ≠ 0) : divE a b = .ok (a / b) := by simp [divE, h]

section ops
variable {d : Diode K} {R : K} {o : Osc K} (h : Works d R o)
include h

theorem vToC : opVoltageToCps d = .ok (linear (o.Fmax / o.Vmax) o.F0) := by
  simp [opVoltageToCps, h.osc, divE_ok h.vmax, Except.map]

theorem slope_ne : o.Fmax / o.Vmax ≠ 0 := div_ne_zero h.fmax h.vmax

theorem cToV : opCpsToVoltage d = .ok (linear (1 / (o.Fmax / o.Vmax)) (-o.F0 / (o.Fmax / o.Vmax))) := by
  rw [opCpsToVoltage, vToC h]
  simp only [Except.map]
  rw [inverse_linear _ (slope_ne h)]

theorem iToV : opCurrentToVoltage d = .ok (linear R 0) := by
  simp [opCurrentToVoltage, h.rout, Except.map]

theorem vToI : opVoltageToCurrent d = .ok (linear (1 / R) 0) := by
  simp [opVoltageToCurrent, h.rout, Except.map, Except.bind, divE_ok h.rpos]

theorem iToC : opCurrentToCps d = .ok (linear (o.Fmax / o.Vmax * R) o.F0) := by
  rw [opCurrentToCps, vToC h, iToV h, mulE_ok, mul_linear]; simp

theorem cToI : opCpsToCurrent d
    = .ok (linear (1 / R * (1 / (o.Fmax / o.Vmax))) (-o.F0 / (o.Fmax / o.Vmax) * (1 / R))) := by
  rw [opCpsToCurrent, vToI h, cToV h, mulE_ok, mul_linear]; simp

variable {e : List K} {w : Option (List K)} {cs : K} (hc : charge d e w = .ok cs)
include hc
omit h in
theorem fToI : opFluxToCurrent d e w = .ok (linear cs d.dark) := by
  simp [opFluxToCurrent, hc, Except.map]

omit h in
theorem iToF (h0 : cs ≠ 0) : opCurrentToFlux d e w = .ok (linear (1 / cs) (-d.dark / cs)) := by
  rw [opCurrentToFlux, fToI hc]; simp only [Except.map]; rw [inverse_linear _ h0]

theorem fToC : opFluxToCps d e w
    = .ok (linear (o.Fmax / o.Vmax * R * cs) (d.dark * (o.Fmax / o.Vmax * R) + o.F0)) := by
  rw [opFluxToCps, iToC h, fToI hc, mulE_ok, mul_linear]

theorem cToF (h0 : cs ≠ 0) : opCpsToFlux d e w
    = .ok (linear (1 / cs * (1 / R * (1 / (o.Fmax / o.Vmax))))
        (-o.F0 / (o.Fmax / o.Vmax) * (1 / R) * (1 / cs) + -d.dark / cs)) := by
  rw [opCpsToFlux, iToF hc h0, cToI h, mulE_ok, mul_linear]

theorem fToV : opFluxToVoltage d e w = .ok (linear (R * cs) (d.dark * R + 0)) := by
  rw [opFluxToVoltage, iToV h, fToI hc, mulE_ok, mul_linear]

theorem vToF (h0 : cs ≠ 0) : opVoltageToFlux d e w = .ok (linear (1 / cs * (1 / R)) (0 * (1 / cs) + -d.dark / cs)) := by
  rw [opVoltageToFlux, iToF hc h0, vToI h, mulE_ok, mul_linear]

end ops

/-- Linear operators undo each other when their slopes and intercepts do. -/
theorem undo_linear {m b m' b' : K} (h1 : m' * m = 1) (h2 : m' * b + b' = 0) :
    Undo (.ok (linear m b)) (.ok (linear m' b')) := by
  constructor
  · intro x
    refine ⟨m * x + b, rfl, ?_⟩
    rw [applyE_linear]
    congr 2
    calc m' * (m * x + b) + b' = m' * m * x + (m' * b + b') := by ring
      _ = x := by rw [h1, h2]; ring
  · intro y
    refine ⟨m' * y + b', rfl, ?_⟩
    rw [applyE_linear]
    congr 2
    have hm : m ≠ 0 := by intro h; simp [h] at h1
    have hm' : m' ≠ 0 := by intro h; simp [h] at h1
    have : b = -(m * b') := by
      have : m * (m' * b + b') = 0 := by rw [h2]; ring
      have e : m * (m' * b + b') = m' * m * b + m * b' := by ring
      rw [e, h1, one_mul] at this
      exact eq_neg_of_add_eq_zero_left this
    rw [this]
    calc m * (m' * y + b') + -(m * b') = m' * m * y := by ring
      _ = y := by rw [h1, one_mul]

end SC.Diode
