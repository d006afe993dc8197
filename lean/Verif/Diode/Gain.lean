import Verif.Diode.Model
import Mathlib.Analysis.SpecialFunctions.Log.Base
import Mathlib.Tactic.Linarith
import Mathlib.Tactic.FieldSimp
/-! # Discrete gains: model and C54 -/
namespace SC.Diode

/-- Python's `round` of a real number: half to even. -/
noncomputable def roundReal (x : ℝ) : Int :=
  let f := ⌊x⌋
  if x - f < 1 / 2 then f
  else if 1 / 2 < x - f then f + 1
  else if f % 2 = 0 then f else f + 1

/-- GainRounder.__call__, diode.py:115-129, for real numbers.  `math.log` of a number that is not
positive raises ValueError. -/
noncomputable def gainRound (m base : Option ℝ) (x : ℝ) : Except Err ℝ :=
  match m, base with
  | none, none => .ok x
  | some m, none => (divE x m).map fun g => m * (roundReal g : ℝ)
  | none, some b => if x ≤ 0 then .error .valueError else .ok (b ^ roundReal (Real.logb b x))
  | some m, some b =>
    (divE x m).bind fun g =>
      if g ≤ 0 then .error .valueError else .ok (m * b ^ roundReal (Real.logb b g))

theorem roundReal_int (n : Int) : roundReal n = n := by simp [roundReal]

theorem roundReal_near (x : ℝ) (n : Int) : |(roundReal x : ℝ) - x| ≤ |(n : ℝ) - x| := by
  have h1 := Int.floor_le x
  have h2 := Int.lt_floor_add_one x
  have hn : (n : ℝ) ≤ ⌊x⌋ ∨ (⌊x⌋ : ℝ) + 1 ≤ n := by
    rcases le_or_gt n ⌊x⌋ with h | h
    · left; exact_mod_cast h
    · right; exact_mod_cast h
  have key : ∀ y : ℝ, (y = ⌊x⌋ ∧ x - ⌊x⌋ ≤ 1 / 2) ∨ (y = ⌊x⌋ + 1 ∧ 1 / 2 ≤ x - ⌊x⌋) → |y - x| ≤ |(n : ℝ) - x| := by
    rintro y (⟨rfl, hy⟩ | ⟨rfl, hy⟩)
    · rw [abs_of_nonpos (by linarith)]
      rcases hn with hn | hn
      · rw [abs_of_nonpos (by linarith)]; linarith
      · rw [abs_of_nonneg (by linarith)]; linarith
    · rw [abs_of_nonneg (by linarith)]
      rcases hn with hn | hn
      · rw [abs_of_nonpos (by linarith)]; linarith
      · rw [abs_of_nonneg (by linarith)]; linarith
  apply key
  unfold roundReal
  simp only
  split
  · left; exact ⟨rfl, by linarith⟩
  · split
    · right; exact ⟨by push_cast; rfl, by linarith⟩
    · split
      · left; exact ⟨rfl, by linarith⟩
      · right; exact ⟨by push_cast; rfl, by linarith⟩

section
variable (m : Option ℝ) (b : ℝ) (hb : 1 < b) (hm : ∀ a, m = some a → 0 < a)
include hb hm

theorem gainRound_pos (x : ℝ) (hx : 0 < x) :
    gainRound m (some b) x = .ok (m.getD 1 * b ^ roundReal (Real.logb b (x / m.getD 1))) := by
  cases m with
  | none => simp [gainRound, not_le.mpr hx]
  | some a =>
    have ha := hm a rfl
    have : ¬ x / a ≤ 0 := not_le.mpr (div_pos hx ha)
    simp [gainRound, divE_ok' ha, Except.bind, this]
where
  divE_ok' {x a : ℝ} (h : 0 < a) : divE x a = .ok (x / a) := by simp [divE, ne_of_gt h]

/-- **C54.**  A discrete gain is one of the settings `m * b ^ n`, and of those the nearest to the given gain,
by the ratio. -/
theorem gain_nearest (x : ℝ) (hx : 0 < x) :
    ∃ n : Int, gainRound m (some b) x = .ok (m.getD 1 * b ^ n) ∧
      ∀ k : Int, |Real.log (m.getD 1 * b ^ n) - Real.log x| ≤ |Real.log (m.getD 1 * b ^ k) - Real.log x| := by
  have hM : 0 < m.getD 1 := by cases m with | none => simp | some a => exact hm a rfl
  have hb0 : (0 : ℝ) < b := by linarith
  have hlb : 0 < Real.log b := Real.log_pos hb
  refine ⟨_, gainRound_pos m b hb hm x hx, fun k => ?_⟩
  have e : ∀ n : Int, Real.log (m.getD 1 * b ^ n) - Real.log x
      = Real.log b * ((n : ℝ) - Real.logb b (x / m.getD 1)) := by
    intro n
    rw [Real.log_mul (ne_of_gt hM) (ne_of_gt (zpow_pos hb0 n)), Real.log_zpow, Real.logb,
      Real.log_div (ne_of_gt hx) (ne_of_gt hM)]
    field_simp
    ring
  rw [e, e, abs_mul, abs_mul]
  exact mul_le_mul_of_nonneg_left (roundReal_near _ k) (abs_nonneg _)

/-- **C54.**  A setting is not changed by rounding. -/
theorem gain_setting (n : Int) : gainRound m (some b) (m.getD 1 * b ^ n) = .ok (m.getD 1 * b ^ n) := by
  have hM : 0 < m.getD 1 := by cases m with | none => simp | some a => exact hm a rfl
  have hb0 : (0 : ℝ) < b := by linarith
  have hl : Real.log b ≠ 0 := ne_of_gt (Real.log_pos hb)
  have e : Real.logb b (b ^ n) = n := by rw [Real.logb, Real.log_zpow]; field_simp
  rw [gainRound_pos m b hb hm _ (mul_pos hM (zpow_pos hb0 n)), mul_div_cancel_left₀ _ (ne_of_gt hM), e,
    roundReal_int]

end

/-- **C54.**  Without base the settings are the multiples of `m`. -/
theorem gain_linear (m : ℝ) (hm : 0 < m) (x : ℝ) :
    ∃ n : Int, gainRound (some m) none x = .ok (m * n) ∧ ∀ k : Int, |m * n - x| ≤ |m * k - x| := by
  refine ⟨roundReal (x / m), ?_, fun k => ?_⟩
  · simp [gainRound, divE, ne_of_gt hm, Except.map]
  · have e : ∀ n : Int, m * (n : ℝ) - x = m * ((n : ℝ) - x / m) := by intro n; field_simp
    rw [e, e, abs_mul, abs_mul]
    exact mul_le_mul_of_nonneg_left (roundReal_near _ k) (abs_nonneg _)

/-- **C54.**  A gain that is not positive has no logarithm. -/
theorem gain_domain (b x : ℝ) (hx : x ≤ 0) : gainRound none (some b) x = .error .valueError := by
  simp [gainRound, hx]

/-- 2.1e-6 A is a setting of the ammeters of the beamline. -/
example : gainRound (some 2.1) (some 10) (2.1 * 10 ^ (-6 : Int)) = .ok (2.1 * 10 ^ (-6 : Int)) := by
  have := gain_setting (some 2.1) 10 (by norm_num) (by rintro a h; injection h with h; rw [← h]; norm_num) (-6)
  simpa using this

example := gain_nearest none 10 (by norm_num) (by simp) 70000 (by norm_num)

example := gain_linear 3 (by norm_num) 10

example : gainRound none (some 10) (-5) = .error .valueError := gain_domain 10 (-5) (by norm_num)

end SC.Diode
