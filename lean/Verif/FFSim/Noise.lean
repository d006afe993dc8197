import Verif.FFSim.Props
/-! # C82: noise in the full-field simulation -/
namespace SC.FFSim
open SC.Noise

theorem bernouilli_eq {p : ℝ} (h0 : 0 ≤ p) (h1 : p ≤ 1) : bernouilli p = some ⟨p, Real.sqrt (p * (1 - p))⟩ :=
  randomvariable_eq _ _ _ (Real.sqrt_nonneg _) rfl (Real.sq_sqrt (mul_nonneg h0 (by linarith))).symm

theorem poisson_eq {g : ℝ} (h0 : 0 ≤ g) : poisson g = some ⟨g, Real.sqrt g⟩ :=
  randomvariable_eq _ _ _ (Real.sqrt_nonneg _) rfl (Real.sq_sqrt h0).symm

/-- A stage of the chain: forward it gives the expectation and variance of the second argument list, and
backward it gives its input back. -/
theorem compound_stage (N X : RV) (hN : 0 ≤ N.s) (hE : 0 ≤ N.e) (hX : 0 < X.e) :
    ∃ Y, compound N X true = some Y ∧ Y.e = N.e * X.e ∧ 0 ≤ Y.s ∧ Y.s ^ 2 = N.s ^ 2 * X.e ^ 2 + X.s ^ 2 * N.e ∧
      compound Y X false = some N := by
  have h := compound_roundtrip N X hN hE hX.ne'
  cases hc : compound N X true with
  | none => rw [hc] at h; simp at h
  | some Y =>
    rw [hc, Option.bind_some] at h
    obtain ⟨_, h2, h3, h4⟩ := randomvariable_some _ _ _ hc
    refine ⟨Y, rfl, h2, h4, ?_, h⟩
    rw [h3]; simp only [RV.var]; ring

/-- **C82.**  The sample: expectation, variance and inverse. -/
theorem sample_stage (p : ℝ) (h0 : 0 < p) (h1 : p ≤ 1) (N : RV) (hN : 0 ≤ N.s) (hE : 0 ≤ N.e) :
    ∃ Y, sampleNoise p N true = some Y ∧ Y.e = N.e * p ∧ 0 ≤ Y.s ∧ Y.s ^ 2 = N.s ^ 2 * p ^ 2 + N.e * p * (1 - p) ∧
      sampleNoise p Y false = some N := by
  obtain ⟨Y, a, b, c, d, e⟩ := compound_stage N ⟨p, Real.sqrt (p * (1 - p))⟩ hN hE h0
  refine ⟨Y, ?_, b, c, ?_, ?_⟩
  · simp [sampleNoise, bernouilli_eq h0.le h1, a]
  · rw [d]; simp only [Real.sq_sqrt (mul_nonneg h0.le (by linarith : 0 ≤ 1 - p))]; ring
  · simp [sampleNoise, bernouilli_eq h0.le h1, e]

/-- **C82.**  Scintillator and lens: expectation, variance and inverse. -/
theorem pair_stage (p g : ℝ) (h0 : 0 < p) (h1 : p ≤ 1) (hg : 0 < g) (N : RV) (hN : 0 ≤ N.s) (hE : 0 ≤ N.e) :
    ∃ Y, pairNoise p g N true = some Y ∧ Y.e = N.e * (p * g) ∧ 0 ≤ Y.s ∧
      Y.s ^ 2 = (N.s ^ 2 * p ^ 2 + N.e * p * (1 - p)) * g ^ 2 + N.e * p * g ∧ pairNoise p g Y false = some N := by
  obtain ⟨A, a, b, c, d, e⟩ := compound_stage N ⟨p, Real.sqrt (p * (1 - p))⟩ hN hE h0
  have hA : 0 ≤ A.e := by rw [b]; exact mul_nonneg hE h0.le
  obtain ⟨Y, a', b', c', d', e'⟩ := compound_stage A ⟨g, Real.sqrt g⟩ c hA hg
  refine ⟨Y, ?_, ?_, c', ?_, ?_⟩
  · simp [pairNoise, bernouilli_eq h0.le h1, poisson_eq hg.le, a, a']
  · rw [b', b]; ring
  · rw [d', d, b]
    simp only [Real.sq_sqrt (mul_nonneg h0.le (by linarith : 0 ≤ 1 - p)), Real.sq_sqrt hg.le]; ring
  · simp [pairNoise, bernouilli_eq h0.le h1, poisson_eq hg.le, e, e']

theorem add_isAdd (X Y : RV) : IsAdd X Y (add X Y) :=
  ⟨Real.sqrt_nonneg _, rfl, Real.sq_sqrt (add_nonneg (sq_nonneg _) (sq_nonneg _))⟩

theorem scale_isMul (X : RV) (hX : 0 ≤ X.s) (c : ℝ) : IsMul X (exact c) (scale X c) := by
  refine ⟨mul_nonneg hX (abs_nonneg _), rfl, ?_⟩
  simp only [scale, exact, mul_pow, sq_abs]; ring

/-- Everything behind the conversion to electrons, and its inverse. -/
theorem det_tail (d : Det) (h : d.Ok) (t n : ℝ) (hn : 0 < n) (A : RV) (hA : 0 ≤ A.s) :
    ∃ Y, repeatRV n (add (scale (add (add A (scale ⟨d.dc, Real.sqrt d.dc⟩ t)) ⟨0, d.ro⟩) d.etoDU) (exact d.offset)) true =
        some Y ∧ Y.e = n * ((A.e + d.dc * t) * d.etoDU + d.offset) ∧ 0 ≤ Y.s ∧
      Y.s ^ 2 = n * d.etoDU ^ 2 * (A.s ^ 2 + d.dc * t ^ 2 + d.ro ^ 2) ∧
      ∀ approx, detNoise d t n approx Y false =
        (asPoisson approx A).bind (compound · ⟨d.qe, Real.sqrt d.qe⟩ false) := by
  obtain ⟨h1, h2, h3, h4⟩ := h
  set D : RV := ⟨d.dc, Real.sqrt d.dc⟩ with hD
  set R : RV := ⟨0, d.ro⟩ with hR
  set B := add A (scale D t) with hB
  set C := add B R with hC
  set F := scale C d.etoDU with hF
  set G := add F (exact d.offset) with hG
  have iB := add_isAdd A (scale D t)
  have iC := add_isAdd B R
  have iF := scale_isMul C iC.1 d.etoDU
  have iG := add_isAdd F (exact d.offset)
  have hr := (repeat_roundtrip n hn G).1
  have hrep : repeatRV n G true = some ⟨G.e * n, G.s * Real.sqrt n⟩ := by simp [repeatRV, npSqrt, hn.le]
  rw [hrep, Option.bind_some] at hr
  have r1 := reverseAdd_spec F (exact d.offset) G iF.1 iG
  have r2 := reverseMult_spec C (exact d.etoDU) F iC.1 h1.ne' iF
  -- the readout noise is undone after the dark current
  have iB' : IsAdd A R (add A R) := add_isAdd A R
  have iC' : IsAdd (add A R) (scale D t) C := by
    refine ⟨iC.1, ?_, ?_⟩
    · rw [iC.2.1, iB.2.1, iB'.2.1]; ring
    · rw [iC.2.2, iB.2.2, iB'.2.2]; ring
  have r4 := reverseAdd_spec (add A R) (scale D t) C iB'.1 iC'
  have r5 := reverseAdd_spec A R (add A R) hA iB'
  have hGs : 0 ≤ G.s := iG.1
  refine ⟨⟨G.e * n, G.s * Real.sqrt n⟩, hrep, ?_, mul_nonneg hGs (Real.sqrt_nonneg _), ?_, fun approx => ?_⟩
  · show G.e * n = _
    rw [iG.2.1, iF.2.1, iC.2.1, iB.2.1]
    simp only [scale, exact, hD, hR]; ring
  · show (G.s * Real.sqrt n) ^ 2 = _
    have c2 : C.s ^ 2 = B.s ^ 2 + R.s ^ 2 := iC.2.2
    have b2 : B.s ^ 2 = A.s ^ 2 + (scale D t).s ^ 2 := iB.2.2
    rw [mul_pow, Real.sq_sqrt hn.le, iG.2.2, iF.2.2, mul_pow _ C.s, c2, b2]
    simp only [scale, exact, hD, hR, mul_pow, sq_abs, Real.sq_sqrt h3]; ring
  · simp [detNoise, poisson_eq h3, poisson_eq h2.le, ← hD, ← hR, hr, r1, r2, r4, r5]

/-- **C82.**  The detector: expectation, variance and inverse. -/
theorem det_stage (d : Det) (h : d.Ok) (t n : ℝ) (hn : 0 < n) (N : RV) (hN : 0 ≤ N.s) (hE : 0 ≤ N.e) :
    ∃ Y, detNoise d t n false N true = some Y ∧ Y.e = n * ((N.e * d.qe + d.dc * t) * d.etoDU + d.offset) ∧ 0 ≤ Y.s ∧
      Y.s ^ 2 = n * d.etoDU ^ 2 * (N.s ^ 2 * d.qe ^ 2 + N.e * d.qe + d.dc * t ^ 2 + d.ro ^ 2) ∧
      detNoise d t n false Y false = some N := by
  obtain ⟨A, a, b, c, e, f⟩ := compound_stage N ⟨d.qe, Real.sqrt d.qe⟩ hN hE h.qe
  obtain ⟨Y, y1, y2, y3, y4, y5⟩ := det_tail d h t n hn A c
  refine ⟨Y, ?_, ?_, y3, ?_, ?_⟩
  · simpa [detNoise, poisson_eq h.dc, poisson_eq h.qe.le, a, asPoisson] using y1
  · rw [y2, b]
  · rw [y4, e]; simp only [Real.sq_sqrt h.qe.le]; ring
  · rw [y5]; simpa [asPoisson] using f

/-- Specification: variance of the number of electrons in the detector for an incoming number of photons
with expectation `e` and variance `v`, of which a fraction `p` reaches the optics. -/
def electronVar (s : Setup) (p e v : ℝ) : ℝ :=
  let n := e * p * s.pScint
  let nv := v * (p * s.pScint) ^ 2 + e * (p * s.pScint) * (1 - p * s.pScint)
  let k := s.gain * s.pLens * s.yield * s.det.qe
  nv * k ^ 2 + n * k * (1 + s.det.qe * (1 + s.yield))

/-- The sample in or out of the beam. -/
theorem beam_stage (s : Setup) (h : s.Ok) (b : Bool) (N : RV) (hN : 0 ≤ N.s) (hE : 0 ≤ N.e) :
    ∃ A, inBeamNoise s b true N = some A ∧ A.e = N.e * through s b ∧ 0 ≤ A.s ∧
      A.s ^ 2 = N.s ^ 2 * through s b ^ 2 + N.e * through s b * (1 - through s b) ∧
      inBeamNoise s b false A = some N := by
  cases b with
  | false => exact ⟨N, rfl, by simp [through], hN, by simp [through], rfl⟩
  | true =>
    cases hs : s.sample with
    | none => exact ⟨N, by simp [inBeamNoise, hs], by simp [through, hs], hN, by simp [through, hs], by simp [inBeamNoise, hs]⟩
    | some p =>
      obtain ⟨p0, p1⟩ := h.sample p hs
      obtain ⟨Y, y⟩ := sample_stage p p0 p1 N hN hE
      exact ⟨Y, by simpa [through, hs, inBeamNoise] using y⟩

/-- **C82.**  The forward chain with noise always gives a result; its expectation is the result without
noise; its variance is that of the electrons, the dark current and the readout; and the backward chain
gives the incoming photons back, expectation and standard deviation. -/
theorem chainNoise_spec (s : Setup) (h : s.Ok) (t n : ℝ) (hn : 0 < n) (b : Bool) (N : RV) (hN : 0 ≤ N.s) (hE : 0 ≤ N.e) :
    ∃ Y, chainNoise s t n false b true N = some Y ∧
      chainPlain s t n b true N.e = some Y.e ∧ 0 ≤ Y.s ∧
      Y.s ^ 2 = n * s.det.etoDU ^ 2 *
        (electronVar s (through s b) N.e (N.s ^ 2) + s.det.dc * t ^ 2 + s.det.ro ^ 2) ∧
      ∀ a, chainNoise s t n a b false Y = some N := by
  have hT := through_pos s h b
  obtain ⟨A, a1, a2, a3, a4, a5⟩ := beam_stage s h b N hN hE
  have hA : 0 ≤ A.e := by rw [a2]; exact mul_nonneg hE hT.1.le
  obtain ⟨B, b1, b2, b3, b4, b5⟩ := pair_stage s.pScint s.gain h.pScint.1 h.pScint.2 h.gain A a3 hA
  have hB : 0 ≤ B.e := by
    rw [b2]; exact mul_nonneg hA (mul_nonneg h.pScint.1.le h.gain.le)
  obtain ⟨C, c1, c2, c3, c4, c5⟩ := pair_stage s.pLens s.yield h.pLens.1 h.pLens.2 h.yield B b3 hB
  have hC : 0 ≤ C.e := by
    rw [c2]; exact mul_nonneg hB (mul_nonneg h.pLens.1.le h.yield.le)
  obtain ⟨D, d1, d2, d3, d4, d5⟩ := det_stage s.det h.det t n hn C c3 hC
  refine ⟨D, ?_, ?_, d3, ?_, ?_⟩
  · unfold chainNoise
    simp only [if_true, a1, b1, c1, d1, Option.bind_eq_bind, Option.bind_some]
  · rw [chainPlain_forward, d2, c2, b2, a2]
    simp only [electrons]
    congr 4; ring
  · rw [d4, c4, c2, b4, b2, a4, a2]
    simp only [electronVar]; ring
  · intro a
    unfold chainNoise
    simp only [Bool.false_eq_true, if_false, d5, c5, b5, a5, Option.bind_eq_bind, Option.bind_some]

/-- **C82.**  For photons with counting statistics (variance equal to the expectation) the sample and the
absorption leave counting statistics, and the number of electrons `m` has the variance
`m (1 + q (1 + y (1 + g l)))` with `q` the quantum efficiency, `y` the light yield, `g` the visible photons
per absorbed photon and `l` the transmission of the lens. -/
theorem electronVar_poisson (s : Setup) (p e : ℝ) :
    electronVar s p e e = e * p * electrons s *
      (1 + s.det.qe * (1 + s.yield * (1 + s.gain * s.pLens))) := by
  simp only [electronVar, electrons]; ring

/-- **C82 (deviation).**  The dark current is a rate of electrons per second; in `t` seconds counting
statistics would give it the variance `dc * t`.  The chain gives `dc * t ^ 2`. -/
theorem dark_variance (s : Setup) (h : s.Ok) (t n : ℝ) (hn : 0 < n) (b : Bool) :
    ∃ Y, chainNoise s t n false b true ⟨0, 0⟩ = some Y ∧
      Y.s ^ 2 = n * s.det.etoDU ^ 2 * (s.det.dc * t ^ 2 + s.det.ro ^ 2) := by
  obtain ⟨Y, h1, _, _, h4, _⟩ := chainNoise_spec s h t n hn b ⟨0, 0⟩ le_rfl le_rfl
  refine ⟨Y, h1, ?_⟩
  rw [h4]; simp [electronVar]

/-- It has counting statistics only for frames of one second. -/
theorem dark_variance_iff (s : Setup) (h : s.Ok) (t n : ℝ) (hn : 0 < n) (ht : 0 < t) (hd : 0 < s.det.dc) (b : Bool) :
    (∃ Y, chainNoise s t n false b true ⟨0, 0⟩ = some Y ∧
      Y.s ^ 2 = n * s.det.etoDU ^ 2 * (s.det.dc * t + s.det.ro ^ 2)) ↔ t = 1 := by
  obtain ⟨Y, h1, h2⟩ := dark_variance s h t n hn b
  constructor
  · rintro ⟨Z, z1, z2⟩
    rw [h1, Option.some.injEq] at z1
    subst z1
    have h3 : n * s.det.etoDU ^ 2 ≠ 0 := mul_ne_zero hn.ne' (pow_ne_zero _ h.det.etoDU.ne')
    have h4 := mul_left_cancel₀ h3 (h2.symm.trans z2)
    have h5 : s.det.dc * t * (t - 1) = 0 := by linarith [h4]
    rcases mul_eq_zero.mp h5 with h | h
    · exact absurd h (mul_pos hd ht).ne'
    · linarith
  · rintro rfl
    exact ⟨Y, h1, by simpa using h2⟩

/-- **C82 (deviation).**  In an array the numbers with uncertainty are propagated as plain numbers: same
expectation, but a variance without the noise of absorption, light production, detection, dark current
and readout. -/
theorem chainArray_spec (s : Setup) (h : s.Ok) (t n : ℝ) (hn : 0 < n) (b : Bool) (N : RV) :
    chainPlain s t n b true N.e = some (chainArray s t n b N).e ∧
    (chainArray s t n b N).s ^ 2 = (N.s * through s b * electrons s * s.det.etoDU * n) ^ 2 := by
  have sq0 : ∀ x y : ℝ, Real.sqrt ((Real.sqrt (x ^ 2) * y) ^ 2) ^ 2 = (x * y) ^ 2 := by
    intro x y
    rw [Real.sq_sqrt (sq_nonneg _), mul_pow, Real.sq_sqrt (sq_nonneg _), mul_pow]
  rw [chainPlain_forward]
  cases b <;> cases hs : s.sample <;>
    simp only [chainArray, hs, scale, add, exact, through, electrons, Option.getD_none, Option.getD_some, if_true,
      Bool.false_eq_true, if_false] <;>
    refine ⟨by congr 1; ring, ?_⟩ <;>
    · rw [zero_pow two_ne_zero, add_zero, add_zero, mul_pow, sq0]
      simp only [mul_pow, sq_abs]; ring

/-- **C82 (deviation).**  One number and an array with that number give a different noise, whenever
photons with counting statistics arrive in a single frame. -/
theorem array_noise_differs (s : Setup) (h : s.Ok) (t : ℝ) (b : Bool) (e : ℝ) (he : 0 < e) :
    ∃ Y, chainNoise s t 1 false b true ⟨e, Real.sqrt e⟩ = some Y ∧
      (chainArray s t 1 b ⟨e, Real.sqrt e⟩).s ^ 2 < Y.s ^ 2 := by
  obtain ⟨Y, h1, _, _, h4, _⟩ := chainNoise_spec s h t 1 one_pos b ⟨e, Real.sqrt e⟩ (Real.sqrt_nonneg _) he.le
  refine ⟨Y, h1, ?_⟩
  rw [(chainArray_spec s h t 1 one_pos b _).2, h4]
  simp only [mul_pow, Real.sq_sqrt he.le, one_mul, one_pow, mul_one]
  obtain ⟨T0, T1⟩ := through_pos s h b
  obtain ⟨_, ⟨p0, p1⟩, g0, ⟨l0, l1⟩, y0, hd⟩ := h
  have q0 := hd.qe
  have hu := hd.etoDU
  set T := through s b
  have hdark : 0 ≤ s.det.dc * t ^ 2 + s.det.ro ^ 2 := add_nonneg (mul_nonneg hd.dc (sq_nonneg _)) (sq_nonneg _)
  have key : e * T ^ 2 * electrons s ^ 2 < electronVar s T e e := by
    have hk : 0 < s.gain * s.pLens * s.yield * s.det.qe := by positivity
    have e1 : electronVar s T e e - e * T ^ 2 * electrons s ^ 2 =
        e * (T * s.pScint) * (1 - T * s.pScint) * (s.gain * s.pLens * s.yield * s.det.qe) ^ 2 +
        e * T * s.pScint * (s.gain * s.pLens * s.yield * s.det.qe) * (1 + s.det.qe * (1 + s.yield)) := by
      simp only [electronVar, electrons]; ring
    have h1 : T * s.pScint ≤ 1 := by nlinarith
    have h2 : 0 ≤ e * (T * s.pScint) * (1 - T * s.pScint) * (s.gain * s.pLens * s.yield * s.det.qe) ^ 2 :=
      mul_nonneg (mul_nonneg (by positivity) (by linarith)) (sq_nonneg _)
    have h3 : 0 < e * T * s.pScint * (s.gain * s.pLens * s.yield * s.det.qe) * (1 + s.det.qe * (1 + s.yield)) := by
      positivity
    linarith
  have hu2 : 0 < s.det.etoDU ^ 2 := by positivity
  nlinarith

/-- **C82 (deviation).**  Going backward does not know of `poissonapprox`: the counts computed with it have
too little noise for the chain, and going back gives a root of a negative number for any number of photons. -/
theorem approx_backward_none (s : Setup) (h : s.Ok) (t n : ℝ) (hn : 0 < n) (b a : Bool) (N : RV) (hN : 0 ≤ N.s)
    (hE : 0 < N.e) : ∃ Y, chainNoise s t n true b true N = some Y ∧ chainPlain s t n b true N.e = some Y.e ∧
      chainNoise s t n a b false Y = none := by
  have hT := through_pos s h b
  obtain ⟨A, a1, a2, a3, a4, a5⟩ := beam_stage s h b N hN hE.le
  have hA : 0 < A.e := by rw [a2]; exact mul_pos hE hT.1
  obtain ⟨B, b1, b2, b3, b4, b5⟩ := pair_stage s.pScint s.gain h.pScint.1 h.pScint.2 h.gain A a3 hA.le
  have hB : 0 < B.e := by rw [b2]; exact mul_pos hA (mul_pos h.pScint.1 h.gain)
  obtain ⟨C, c1, c2, c3, c4, c5⟩ := pair_stage s.pLens s.yield h.pLens.1 h.pLens.2 h.yield B b3 hB.le
  have hC : 0 < C.e := by rw [c2]; exact mul_pos hB (mul_pos h.pLens.1 h.yield)
  obtain ⟨D, d1, d2, d3, d4, d5⟩ := compound_stage C ⟨s.det.qe, Real.sqrt s.det.qe⟩ c3 hC.le h.det.qe
  have hD : 0 < D.e := by rw [d2]; exact mul_pos hC h.det.qe
  obtain ⟨Y, y1, y2, y3, y4, y5⟩ := det_tail s.det h.det t n hn ⟨D.e, Real.sqrt D.e⟩ (Real.sqrt_nonneg _)
  have hap : randomvariable D.e D.e = some ⟨D.e, Real.sqrt D.e⟩ := poisson_eq hD.le
  refine ⟨Y, ?_, ?_, ?_⟩
  · unfold chainNoise
    simp only [if_true, a1, b1, c1, Option.bind_eq_bind, Option.bind_some]
    simp only [detNoise, poisson_eq h.det.dc, poisson_eq h.det.qe.le, d1, asPoisson, if_true, Option.bind_eq_bind,
      Option.bind_some, hap, y1]
  · rw [chainPlain_forward, y2, d2, c2, b2, a2]
    simp only [electrons]
    congr 4; ring
  · have hq := h.det.qe
    have z1 : detNoise s.det t n false Y false = some ⟨C.e, 0⟩ := by
      rw [y5]
      simp only [asPoisson, Bool.false_eq_true, if_false, Option.bind_some]
      refine randomvariable_eq _ _ _ le_rfl ?_ ?_
      · simp only [d2]; field_simp
      · simp only [RV.var, Real.sq_sqrt hD.le, Real.sq_sqrt hq.le]; field_simp; ring
    have hy := h.yield
    have z2 : pairNoise s.pLens s.yield ⟨C.e, 0⟩ false = none := by
      have : compound ⟨C.e, 0⟩ ⟨s.yield, Real.sqrt s.yield⟩ false = none := by
        refine (randomvariable_none _ _).mpr ?_
        simp only [RV.var, Real.sq_sqrt hy.le]
        refine div_neg_of_neg_of_pos ?_ (by positivity)
        have := mul_pos hy (div_pos hC hy)
        simp only [ne_eq, OfNat.ofNat_ne_zero, not_false_eq_true, zero_pow]
        linarith
      simp [pairNoise, bernouilli_eq h.pLens.1.le h.pLens.2, poisson_eq hy.le, this]
    unfold chainNoise
    simp only [Bool.false_eq_true, if_false, z1, z2, Option.bind_eq_bind, Option.bind_some, Option.bind_none]

/-! ## Cases -/

/-- A setup: half of the photons pass the sample, a quarter is absorbed. -/
noncomputable def setup1 : Setup := ⟨some (1 / 2), 1 / 4, 100, 1 / 2, 1 / 10, ⟨2, 1 / 2, 100, 7, 1⟩⟩

theorem setup1_ok : setup1.Ok := by
  refine ⟨?_, ?_, ?_, ?_, ?_, ⟨?_, ?_, ?_, ?_⟩⟩ <;> simp [setup1] <;> norm_num

/-- Round trip of a Poisson variable through this setup. -/
example : ∃ Y, chainNoise setup1 (1 / 10) 5 false true true ⟨10000, 100⟩ = some Y ∧
    chainNoise setup1 (1 / 10) 5 false true false Y = some ⟨10000, 100⟩ := by
  obtain ⟨Y, a, _, _, _, b⟩ := chainNoise_spec setup1 setup1_ok (1 / 10) 5 (by norm_num) true ⟨10000, 100⟩
    (by norm_num) (by norm_num)
  exact ⟨Y, a, b false⟩

/-- Transmission of this setup. -/
example : (measurement setup1 1000 ⟨1 / 10, 5, 2 / 10, 3, 4⟩).bind (transmission · ⟨1 / 10, 5, 2 / 10, 3, 4⟩) =
    some (1 / 2) := by
  have := transmission_exact setup1 setup1_ok 1000 ⟨1 / 10, 5, 2 / 10, 3, 4⟩ (by norm_num) (by norm_num)
    (by norm_num) (by norm_num) (by norm_num) (by norm_num)
  simpa [through, setup1] using this

/-- Frames of a tenth of a second: the flux comes back ten times too large. -/
example : (flatfromflux setup1 (1 / 10) 5 1000).bind (fluxfromflat setup1 (1 / 10) 5) = some 10000 := by
  rw [flux_flat_roundtrip setup1 setup1_ok (1 / 10) 5 (by norm_num) (by norm_num)]; norm_num

/-- Ten seconds of which a fifth for flats, frames of a tenth of a second. -/
example : getnframes 10 (1 / 10) (1 / 10) (1 / 5) = (80, 20) := by decide +kernel

/-- The lens of magnification 10 with F-number 1/2 (half opening angle of 45 degrees). -/
example : (Lens.mk 10 (Real.sin (Real.pi / 4)) 8 1).lightyield .point = (10 / 22) ^ 2 := by
  have := (lightyield_formula ⟨10, Real.sin (Real.pi / 4), 8, 1⟩ (Real.pi / 4) (1 / 2) (by positivity)
    (by linarith [Real.pi_pos]) rfl (by norm_num) (by rw [Real.tan_pi_div_four]; norm_num) (by norm_num)).1
  rw [this]; norm_num

end SC.FFSim
