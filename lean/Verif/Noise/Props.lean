import Verif.Noise.Spec
import Mathlib.Probability.Moments.Variance
import Mathlib.Tactic.FieldSimp
import Mathlib.Tactic.Ring
import Mathlib.Tactic.Positivity
import Mathlib.Tactic.Linarith
import Mathlib.Tactic.LinearCombination
/-! # C16: error propagation -/
namespace SC.Noise

theorem randomvariable_eq (e : ℝ) (x : RV) (v : ℝ) (h : 0 ≤ x.s) (he : e = x.e) (hv : v = x.s ^ 2) :
    randomvariable e v = some x := by
  subst he hv
  have : (0 : ℝ) ≤ x.s ^ 2 := sq_nonneg _
  simp [randomvariable, npSqrt, this, Real.sqrt_sq h]

theorem randomvariable_some (e v : ℝ) (x : RV) (h : randomvariable e v = some x) :
    0 ≤ v ∧ x.e = e ∧ x.s ^ 2 = v ∧ 0 ≤ x.s := by
  simp only [randomvariable, npSqrt] at h
  split at h
  · rename_i hv
    simp only [Option.map_some, Option.some.injEq] at h
    subst h
    exact ⟨hv, rfl, Real.sq_sqrt hv, Real.sqrt_nonneg _⟩
  · simp at h

theorem randomvariable_none (e v : ℝ) : randomvariable e v = none ↔ v < 0 := by
  simp only [randomvariable, npSqrt]
  split <;> rename_i h <;> simp <;> linarith

/-- **C16.**  Undoing an addition. -/
theorem reverseAdd_spec (X Y Z : RV) (hX : 0 ≤ X.s) (h : IsAdd X Y Z) : reverseAdd Z Y = some X :=
  randomvariable_eq _ _ _ hX (by linarith [h.2.1]) (by simp only [RV.var]; linarith [h.2.2])

theorem reverseAdd_sound (X Y Z : RV) (hZ : 0 ≤ Z.s) (h : reverseAdd Z Y = some X) : IsAdd X Y Z := by
  obtain ⟨_, h2, h3, _⟩ := randomvariable_some _ _ _ h
  exact ⟨hZ, by linarith, by rw [h3]; simp only [RV.var]; ring⟩

/-- **C16.**  The result is not a number exactly when the total has less variance than the part. -/
theorem reverseAdd_none (Y Z : RV) : reverseAdd Z Y = none ↔ Z.s ^ 2 < Y.s ^ 2 := by
  rw [reverseAdd, randomvariable_none]
  simp only [RV.var, sub_neg]

/-- **C16.**  Undoing a subtraction. -/
theorem reverseSub_spec (X Y Z : RV) (hX : 0 ≤ X.s) (h : IsSub X Y Z) : reverseSub Z Y = some X :=
  randomvariable_eq _ _ _ hX (by linarith [h.2.1]) (by simp only [RV.var]; linarith [h.2.2])

theorem reverseSub_sound (X Y Z : RV) (hZ : 0 ≤ Z.s) (h : reverseSub Z Y = some X) : IsSub X Y Z := by
  obtain ⟨_, h2, h3, _⟩ := randomvariable_some _ _ _ h
  exact ⟨hZ, by linarith, by rw [h3]; simp only [RV.var]; ring⟩

/-- **C16.**  Undoing a multiplication. -/
theorem reverseMult_spec (X Y Z : RV) (hX : 0 ≤ X.s) (hY : Y.e ≠ 0) (h : IsMul X Y Z) :
    reverseMult Z Y = some X := by
  have he : Z.e / Y.e = X.e := by rw [h.2.1]; field_simp
  refine randomvariable_eq _ _ _ hX he ?_
  simp only [RV.var, he]
  rw [h.2.2]; field_simp; ring

theorem reverseMult_sound (X Y Z : RV) (hZ : 0 ≤ Z.s) (hY : Y.e ≠ 0) (h : reverseMult Z Y = some X) :
    IsMul X Y Z := by
  obtain ⟨_, h2, h3, _⟩ := randomvariable_some _ _ _ h
  refine ⟨hZ, by rw [h2]; field_simp, ?_⟩
  simp only [RV.var] at h3
  have e : (Y.e * X.s) ^ 2 = Y.e ^ 2 * X.s ^ 2 := by ring
  rw [e, h3, ← h2]; field_simp; ring

/-- **C16.**  Undoing a division. -/
theorem reverseDiv_spec (X Y Z : RV) (hX : 0 ≤ X.s) (h : IsDiv X Y Z) : reverseDiv Z Y = some X := by
  have hY := h.2.1
  have he : Z.e * Y.e = X.e := by rw [h.2.2.1]; field_simp
  refine randomvariable_eq _ _ _ hX he ?_
  simp only [RV.var, he]
  rw [h.2.2.2]; field_simp; ring

theorem reverseDiv_sound (X Y Z : RV) (hZ : 0 ≤ Z.s) (hY : Y.e ≠ 0) (h : reverseDiv Z Y = some X) :
    IsDiv X Y Z := by
  obtain ⟨_, h2, h3, _⟩ := randomvariable_some _ _ _ h
  refine ⟨hZ, hY, by rw [h2]; field_simp, ?_⟩
  simp only [RV.var] at h3
  have e : (1 / Y.e * X.s) ^ 2 = X.s ^ 2 / Y.e ^ 2 := by field_simp
  rw [e, h3, ← h2]; field_simp; ring

/-- **C16.**  Undoing a logarithm. -/
theorem reverseLog_spec (X Z : RV) (hX : 0 ≤ X.s) (h : IsLog X Z) : reverseLog Z = some X := by
  obtain ⟨_, hp, h1, h2⟩ := h
  have he : Real.exp Z.e = X.e := by rw [h1, Real.exp_log hp]
  refine randomvariable_eq _ _ _ hX he ?_
  simp only [RV.var, he]
  rw [h2]; field_simp

theorem reverseLog_total (Z : RV) (hZ : 0 ≤ Z.s) : ∃ X, reverseLog Z = some X ∧ IsLog X Z := by
  have hp := Real.exp_pos Z.e
  have hs : randomvariable (Real.exp Z.e) (Z.var * Real.exp Z.e * Real.exp Z.e) =
      some ⟨Real.exp Z.e, Z.s * Real.exp Z.e⟩ :=
    randomvariable_eq _ _ _ (by positivity) rfl (by simp only [RV.var]; ring)
  exact ⟨_, hs, hZ, hp, (Real.log_exp _).symm, by simp only []; field_simp⟩

/-! ## repeated and compound variables -/

/-- **C16.**  `repeat` and its reverse undo each other. -/
theorem repeat_roundtrip (N : ℝ) (hN : 0 < N) (X : RV) :
    (repeatRV N X true).bind (repeatRV N · false) = some X ∧
    (repeatRV N X false).bind (repeatRV N · true) = some X := by
  have hr : Real.sqrt N ≠ 0 := (Real.sqrt_pos.mpr hN).ne'
  constructor <;> simp only [repeatRV, npSqrt, hN.le, if_true, Option.map_some, Option.bind_some,
    Option.some.injEq] <;> ext <;> simp <;> field_simp

/-- **C16.**  Repeating `N` times improves the signal-to-noise ratio by `sqrt N`. -/
theorem repeat_snr (N : ℝ) (hN : 0 < N) (X Y : RV) (h : repeatRV N X true = some Y) :
    Y.snr = X.snr * Real.sqrt N := by
  simp only [repeatRV, npSqrt, hN.le, if_true, Option.map_some, Option.some.injEq] at h
  subst h
  have hr : 0 < Real.sqrt N := Real.sqrt_pos.mpr hN
  have : N = Real.sqrt N * Real.sqrt N := (Real.mul_self_sqrt hN.le).symm
  simp only [RV.snr]
  by_cases hs : X.s = 0
  · simp [hs]
  · field_simp
    rw [pow_two, ← this]

/-- **C16.**  Repetitions multiply. -/
theorem repeat_repeat (N M : ℝ) (hN : 0 ≤ N) (hM : 0 ≤ M) (X : RV) :
    (repeatRV M X true).bind (repeatRV N · true) = repeatRV (N * M) X true := by
  have hNM : 0 ≤ N * M := mul_nonneg hN hM
  simp only [repeatRV, npSqrt, hN, hM, hNM, if_true, Option.map_some, Option.bind_some, Option.some.injEq]
  rw [Real.sqrt_mul hN]
  ext <;> simp <;> ring

open MeasureTheory ProbabilityTheory in
/-- **C16.**  `repeat` computes the expectation and the standard deviation of a sum of `N`
independent random variables with the expectation and standard deviation of `X`. -/
theorem repeat_is_sum {Ω : Type} [MeasurableSpace Ω] (μ : Measure Ω) [IsProbabilityMeasure μ] (N : ℕ)
    (x : Fin N → Ω → ℝ) (X : RV) (hL : ∀ i, MemLp (x i) 2 μ) (hi : Pairwise fun i j => IndepFun (x i) (x j) μ)
    (he : ∀ i, ∫ ω, x i ω ∂μ = X.e) (hv : ∀ i, Var[x i; μ] = X.s ^ 2) (hs : 0 ≤ X.s) :
    repeatRV N X true = some ⟨∫ ω, (∑ i, x i) ω ∂μ, Real.sqrt (Var[∑ i, x i; μ])⟩ := by
  have h1 : ∫ ω, (∑ i, x i) ω ∂μ = X.e * N := by
    simp only [Finset.sum_apply]
    rw [integral_finsetSum _ fun i _ => (hL i).integrable (by norm_num)]
    simp [he, mul_comm]
  have h2 : Var[∑ i, x i; μ] = N * X.s ^ 2 := by
    rw [IndepFun.variance_sum (fun i _ => hL i) (fun i _ j _ hij => hi hij)]
    simp [hv]
  rw [h1, h2, Real.sqrt_mul (Nat.cast_nonneg N), Real.sqrt_sq hs]
  simp [repeatRV, npSqrt, mul_comm]

/-- **C16.**  The reverse of `compound` gives the number of terms back. -/
theorem compound_roundtrip (N X : RV) (hN : 0 ≤ N.s) (hE : 0 ≤ N.e) (hX : X.e ≠ 0) :
    (compound N X true).bind (compound · X false) = some N := by
  have hv : 0 ≤ N.var * X.e * X.e + X.var * N.e := by
    have e1 : N.var * X.e * X.e = (N.s * X.e) ^ 2 := by simp only [RV.var]; ring
    rw [e1]
    exact add_nonneg (sq_nonneg _) (mul_nonneg (sq_nonneg _) hE)
  have hf : compound N X true = some ⟨N.e * X.e, Real.sqrt (N.var * X.e * X.e + X.var * N.e)⟩ :=
    randomvariable_eq _ _ _ (Real.sqrt_nonneg _) rfl (by simp only [Real.sq_sqrt hv])
  rw [hf, Option.bind_some]
  refine randomvariable_eq _ _ _ hN (by simp [hX]) ?_
  simp only [RV.var, Real.sq_sqrt (by simpa only [RV.var] using hv)]
  field_simp; ring

/-- **C16.**  With a fixed number of terms `compound` is `repeat`. -/
theorem compound_fixed (N : ℝ) (hN : 0 ≤ N) (X : RV) (hX : 0 ≤ X.s) :
    compound ⟨N, 0⟩ X true = repeatRV N X true := by
  have : repeatRV N X true = some ⟨X.e * N, X.s * Real.sqrt N⟩ := by simp [repeatRV, npSqrt, hN]
  rw [this]
  refine randomvariable_eq _ _ _ (mul_nonneg hX (Real.sqrt_nonneg _)) (mul_comm _ _) ?_
  simp only [RV.var, mul_pow, Real.sq_sqrt hN]; ring

/-- **C16.**  Random selection (probability `p`) from a Poisson variable is a Poisson variable. -/
theorem compound_poisson_bernouilli (g p : ℝ) (hg : 0 ≤ g) (hp : 0 ≤ p) (hp1 : p ≤ 1) :
    ∃ N X Y, poisson g = some N ∧ bernouilli p = some X ∧ poisson (g * p) = some Y ∧ compound N X true = some Y := by
  have hb : 0 ≤ p * (1 - p) := mul_nonneg hp (by linarith)
  have hgp : 0 ≤ g * p := mul_nonneg hg hp
  refine ⟨⟨g, Real.sqrt g⟩, ⟨p, Real.sqrt (p * (1 - p))⟩, ⟨g * p, Real.sqrt (g * p)⟩, ?_, ?_, ?_, ?_⟩
  · exact randomvariable_eq _ _ _ (Real.sqrt_nonneg _) rfl (Real.sq_sqrt hg).symm
  · exact randomvariable_eq _ _ _ (Real.sqrt_nonneg _) rfl (Real.sq_sqrt hb).symm
  · exact randomvariable_eq _ _ _ (Real.sqrt_nonneg _) rfl (Real.sq_sqrt hgp).symm
  · refine randomvariable_eq _ _ _ (Real.sqrt_nonneg _) rfl ?_
    simp only [RV.var, Real.sq_sqrt hg, Real.sq_sqrt hb, Real.sq_sqrt hgp]; ring

/-- **C16.**  Chained stages can be combined in either order of association. -/
theorem compound_assoc (N X Y NX XY : RV) (h1 : compound N X true = some NX) (h2 : compound X Y true = some XY) :
    compound NX Y true = compound N XY true := by
  obtain ⟨_, a1, a2, _⟩ := randomvariable_some _ _ _ h1
  obtain ⟨_, b1, b2, _⟩ := randomvariable_some _ _ _ h2
  simp only [compound, if_true, RV.var, a1, a2, b1, b2]
  congr 1 <;> ring

/-- **C16.**  `compound` computes expectation and variance of a random sum: `N` takes the value `k`
with probability `p k`; given `N = k` the sum of `k` independent copies of `X` has expectation
`k E[X]` and second moment `k VAR[X] + (k E[X])^2` (`repeat_is_sum`). -/
theorem compound_total (m : ℕ) (p : Fin m → ℝ) (hp : ∑ k, p k = 1) (hp0 : ∀ k, 0 ≤ p k) (num : Fin m → ℕ)
    (X N : RV) (hNe : N.e = ∑ k, p k * num k) (hNv : N.s ^ 2 = ∑ k, p k * (num k - N.e) ^ 2) :
    ∃ Y, compound N X true = some Y ∧ Y.e = ∑ k, p k * (num k * X.e) ∧
    Y.s ^ 2 = ∑ k, p k * (num k * X.s ^ 2 + (num k * X.e) ^ 2) - Y.e ^ 2 := by
  have hE : 0 ≤ N.e := by
    rw [hNe]; exact Finset.sum_nonneg fun k _ => mul_nonneg (hp0 k) (Nat.cast_nonneg _)
  have hv : 0 ≤ N.var * X.e * X.e + X.var * N.e := by
    have e1 : N.var * X.e * X.e = (N.s * X.e) ^ 2 := by simp only [RV.var]; ring
    rw [e1]
    exact add_nonneg (sq_nonneg _) (mul_nonneg (sq_nonneg _) hE)
  refine ⟨⟨N.e * X.e, Real.sqrt (N.var * X.e * X.e + X.var * N.e)⟩,
    randomvariable_eq _ _ _ (Real.sqrt_nonneg _) rfl (by simp only [Real.sq_sqrt hv]), ?_, ?_⟩
  · simp only []
    conv_lhs => rw [hNe]
    rw [Finset.sum_mul]
    exact Finset.sum_congr rfl fun k _ => by ring
  · simp only [Real.sq_sqrt hv]
    have e1 : ∑ k, p k * (num k * X.s ^ 2 + (num k * X.e) ^ 2) =
        X.s ^ 2 * (∑ k, p k * num k) + X.e ^ 2 * ∑ k, p k * (num k : ℝ) ^ 2 := by
      rw [Finset.mul_sum, Finset.mul_sum, ← Finset.sum_add_distrib]
      exact Finset.sum_congr rfl fun k _ => by ring
    have e2 : ∑ k, p k * ((num k : ℝ) - N.e) ^ 2 = (∑ k, p k * (num k : ℝ) ^ 2) - N.e ^ 2 := by
      have : ∑ k, p k * ((num k : ℝ) - N.e) ^ 2 =
          (∑ k, p k * (num k : ℝ) ^ 2) - 2 * N.e * (∑ k, p k * num k) + N.e ^ 2 * ∑ k, p k := by
        rw [Finset.mul_sum, Finset.mul_sum, ← Finset.sum_sub_distrib, ← Finset.sum_add_distrib]
        exact Finset.sum_congr rfl fun k _ => by ring
      rw [this, hp, ← hNe]; ring
    rw [e1, ← hNe]
    simp only [RV.var]
    rw [e2] at hNv
    linear_combination X.e ^ 2 * hNv

/-! ## concrete cases -/

example : IsAdd ⟨3, 3⟩ ⟨5, 4⟩ ⟨8, 5⟩ := by simp [IsAdd]; norm_num
example : reverseAdd ⟨8, 5⟩ ⟨5, 4⟩ = some ⟨3, 3⟩ := reverseAdd_spec _ _ _ (by norm_num) (by simp [IsAdd]; norm_num)
example : IsSub ⟨3, 3⟩ ⟨5, 4⟩ ⟨-2, 5⟩ := by simp [IsSub]; norm_num
example : IsMul ⟨4, 3⟩ ⟨1, 1⟩ ⟨4, 5⟩ := by simp [IsMul]; norm_num
example : IsDiv ⟨4, 3⟩ ⟨1, 1⟩ ⟨4, 5⟩ := by simp [IsDiv]; norm_num
example : IsLog ⟨1, 3⟩ ⟨0, 3⟩ := by simp [IsLog]
example : reverseAdd ⟨8, 3⟩ ⟨5, 4⟩ = none := (reverseAdd_none _ _).mpr (by norm_num)
example : compound ⟨4, 0⟩ ⟨3, 1⟩ true = some ⟨12, 2⟩ :=
  randomvariable_eq _ _ _ (by norm_num) (by norm_num) (by simp [RV.var]; norm_num)

end SC.Noise
