import Verif.Fit.Lemmas
import Mathlib.Tactic.NormNum
/-! # C44: closed-form linear fits -/
namespace SC.Fit
variable {K : Type} [Field K] [LinearOrder K] [IsStrictOrderedRing K]

/-- linfit2 gives the one line with the least misfit when two abscissae differ, and no finite
answer otherwise. -/
theorem linfit2_spec (x y : List K) (h : x.length = y.length) :
    (Spread x → ∃ m b, linfit2 x y = .ok (m, b) ∧ BestLine (x.zip y) m b) ∧
    (¬ Spread x → linfit2 x y = .notfinite) := by
  constructor
  · intro hs
    have hd := (den_ne_zero_iff x).mpr hs
    refine ⟨_, _, linfit2_ok h hd, ?_⟩
    intro m' b'
    have e := misfit_diff h hd m' b'
    have hq := quad_nonneg (m' - slope x y) (b' - icept x y) x
    refine ⟨by rw [e]; linarith, ?_⟩
    intro he
    have h0 : quad (m' - slope x y) (b' - icept x y) x = 0 := by linarith
    obtain ⟨h1, h2⟩ := spread_quad hs h0
    exact ⟨sub_eq_zero.mp h1, sub_eq_zero.mp h2⟩
  · intro hs
    have hd : den x = 0 := by
      by_contra hd
      exact hs ((den_ne_zero_iff x).mp hd)
    exact linfit2_bad h hd

example : ∃ m b, linfit2 ([0, 1, 3] : List ℚ) [1, 3, 4] = .ok (m, b) ∧
    BestLine [(0, 1), (1, 3), (3, 4)] m b :=
  (linfit2_spec [0, 1, 3] [1, 3, 4] rfl).1 ⟨0, by simp, 1, by simp, by norm_num⟩

/-- Points on one line are fitted by that line. -/
theorem linfit2_exact (x : List K) (m b : K) (hs : Spread x) :
    linfit2 x (x.map fun a => m * a + b) = .ok (m, b) := by
  have hl : x.length = (x.map fun a => m * a + b).length := by simp
  obtain ⟨m', b', h, hb⟩ := (linfit2_spec x _ hl).1 hs
  have h0 : misfit m b (x.zip (x.map fun a => m * a + b)) = 0 := by
    clear h hb hs hl
    induction x with
    | nil => simp [misfit]
    | cons a x ih =>
        simp only [misfit, List.map_cons, List.zip_cons_cons, List.sum_cons] at ih ⊢
        rw [ih]
        ring
  have h1 := hb m b
  have h2 := misfit_nonneg m' b' (x.zip (x.map fun a => m * a + b))
  obtain ⟨e1, e2⟩ := h1.2 (by linarith [h1.1])
  rw [h, e1, e2]

example : linfit2 ([0, 1, 3] : List ℚ) [1, 3, 7] = .ok (2, 1) := by
  have := linfit2_exact ([0, 1, 3] : List ℚ) 2 1 ⟨0, by simp, 1, by simp, by norm_num⟩
  norm_num at this
  exact this

/-- The errors of linfit2: the misfit over `n - 2`, divided by the spread of the abscissae for the
slope, and times the mean square of the abscissae for the intercept.  `n · den` is the sum of the
squared differences with the mean, times `n²`. -/
theorem linfit2_errors (x y : List K) (h : x.length = y.length) (hs : Spread x) (m b : K)
    (hm : linfit2 x y = .ok (m, b)) :
    let n : K := x.length
    let mean := x.sum / n
    let spread := (x.map fun a => (a - mean) ^ 2).sum
    let s2 := misfit m b (x.zip y) / (n - 2)
    (x.length ≠ 2 → linfit2Var x y = .ok (s2 / spread, s2 * ((x.map fun a => a ^ 2).sum / n) / spread)) ∧
    (x.length = 2 → linfit2Var x y = .notfinite) := by
  intro n mean spread s2
  have hd := (den_ne_zero_iff x).mpr hs
  rw [linfit2_ok h hd] at hm
  obtain ⟨rfl, rfl⟩ : slope x y = m ∧ icept x y = b := by simpa using hm
  have hn : n ≠ 0 := by
    obtain ⟨a, ha, -⟩ := hs
    have : x.length ≠ 0 := by
      intro h0
      rw [List.length_eq_zero_iff.mp h0] at ha
      simp at ha
    exact Nat.cast_ne_zero.mpr this
  have hsp : n * spread = den x := by
    have e : spread = quad 1 (-mean) x := by
      simp only [spread, quad, one_mul, sub_eq_add_neg]
    rw [e, quad_eq, den]
    have hmean : mean * n = x.sum := div_mul_cancel₀ _ hn
    show n * (1 ^ 2 * sq x + n * (-mean) ^ 2 + 2 * 1 * (-mean) * x.sum) = n * sq x - x.sum * x.sum
    rw [← hmean]
    ring
  have hsp0 : spread ≠ 0 := by
    intro h0
    rw [h0, mul_zero] at hsp
    exact hd hsp.symm
  have hnum := misfit_best h hd
  have hsq : (x.map fun a => a ^ 2).sum = sq x := by simp only [pow_two, sq]
  have hv : linfit2Var x y = match
        quotient ((x.length : K) * misfit (slope x y) (icept x y) (x.zip y)) ((n - 2) * den x),
        quotient ((x.length : K) * misfit (slope x y) (icept x y) (x.zip y) * sq x) (n * (n - 2) * den x) with
      | some vm, some vb => .ok (vm, vb)
      | _, _ => .notfinite := by
    rw [hnum]
    simp only [linfit2Var, mulArrays_eq h, linfit2Sums_eq, quotient_eq hd]
    rfl
  constructor
  · intro h2
    have hn2 : n - 2 ≠ 0 := by
      intro h0
      apply h2
      have : (x.length : K) = 2 := sub_eq_zero.mp h0
      exact_mod_cast this
    rw [hv, quotient_eq (mul_ne_zero hn2 hd), quotient_eq (mul_ne_zero (mul_ne_zero hn hn2) hd), hsq]
    have e1 : (x.length : K) * misfit (slope x y) (icept x y) (x.zip y) / ((n - 2) * den x) = s2 / spread := by
      rw [← hsp]
      simp only [s2]
      show n * _ / _ = _
      field_simp
    have e2 : (x.length : K) * misfit (slope x y) (icept x y) (x.zip y) * sq x / (n * (n - 2) * den x)
        = s2 * (sq x / n) / spread := by
      rw [← hsp]
      simp only [s2]
      show n * _ * _ / _ = _
      field_simp
    rw [e1, e2]
  · intro h2
    have hn2 : n - 2 = 0 := by
      simp only [n, h2]
      norm_num
    rw [hv, hn2]
    simp [quotient]

example : linfit2Var ([0, 1, 3, 4] : List ℚ) [1, 3, 4, 6] = .ok (9 / 200, 117 / 400) := by decide +kernel
example : linfit2 ([0, 1, 3, 4] : List ℚ) [1, 3, 4, 6] = .ok (11 / 10, 13 / 10) := by decide +kernel

/-- Arrays of different lengths, none with a single element, are refused. -/
theorem linfit2_lengths (x y : List K) (h : x.length ≠ y.length) (hx : x.length ≠ 1) (hy : y.length ≠ 1) :
    linfit2 x y = .valueError ∧ linfitZero2 x y = .valueError := by
  simp [linfit2, linfitZero2, mulArrays, h, hx, hy]

example : linfit2 ([0, 1, 3] : List ℚ) [1, 3] = .valueError ∧ linfitZero2 ([0, 1, 3] : List ℚ) [1, 3] = .valueError :=
  linfit2_lengths _ _ (by decide) (by decide) (by decide)

/-- A single ordinate is broadcast in the products but not in the sum of the ordinates: a constant
is fitted by a line that is not constant. -/
theorem linfit2_broadcast_wrong :
    linfit2 ([0, 1, 2] : List ℚ) [1] = .ok (1, -2 / 3) ∧ linfit2 ([0, 1, 2] : List ℚ) [1, 1, 1] = .ok (0, 1) := by
  decide +kernel

/-- linfit_zerointercept2 gives the slope of the one line through the origin with the least misfit
when an abscissa differs from zero, and no finite answer otherwise. -/
theorem linfit_zero_spec (x y : List K) (h : x.length = y.length) :
    ((∃ a ∈ x, a ≠ 0) → ∃ m, linfitZero2 x y = .ok m ∧ BestSlope (x.zip y) m) ∧
    ((∀ a ∈ x, a = 0) → linfitZero2 x y = .notfinite) := by
  constructor
  · rintro ⟨a, ha, ha0⟩
    have hd : sq x ≠ 0 := fun h0 => ha0 ((sq_zero_iff x).mp h0 a ha)
    refine ⟨dotp x y / sq x, ?_, ?_⟩
    · simp only [linfitZero2, mulArrays_eq h, sq_def, dotp_def, quotient_eq hd]
    · intro m'
      have e : misfit m' 0 (x.zip y) = misfit (dotp x y / sq x) 0 (x.zip y)
          + (m' - dotp x y / sq x) ^ 2 * sq x := by
        rw [misfit_eq x y h, misfit_eq x y h]
        field_simp
        ring
      have hp : 0 < sq x := lt_of_le_of_ne (sq_nonneg' x) (Ne.symm hd)
      have hq : 0 ≤ (m' - dotp x y / sq x) ^ 2 * sq x := by positivity
      refine ⟨by rw [e]; linarith, ?_⟩
      intro he
      have h0 : (m' - dotp x y / sq x) ^ 2 * sq x = 0 := by linarith
      rcases mul_eq_zero.mp h0 with h0 | h0
      · exact sub_eq_zero.mp ((pow_eq_zero_iff two_ne_zero).mp h0)
      · exact absurd h0 hd
  · intro hx
    have hd : sq x = 0 := (sq_zero_iff x).mpr hx
    simp only [linfitZero2, mulArrays_eq h, sq_def, dotp_def, hd, quotient_zero]

example : ∃ m, linfitZero2 ([0, 1, 3] : List ℚ) [1, 3, 4] = .ok m ∧ BestSlope [(0, 1), (1, 3), (3, 4)] m :=
  (linfit_zero_spec [0, 1, 3] [1, 3, 4] rfl).1 ⟨1, by simp, by norm_num⟩

/-- The error of linfit_zerointercept2: the misfit over `n - 1`, divided by the sum of the squares
of the abscissae. -/
theorem linfit_zero_errors (x y : List K) (h : x.length = y.length) (m : K)
    (hm : linfitZero2 x y = .ok m) :
    (x.length ≠ 1 → linfitZero2Var x y
        = .ok (misfit m 0 (x.zip y) / ((x.length : K) - 1) / (x.map fun a => a ^ 2).sum)) ∧
    (x.length = 1 → linfitZero2Var x y = .notfinite) := by
  have hd : sq x ≠ 0 := by
    intro hd
    rw [(linfit_zero_spec x y h).2 ((sq_zero_iff x).mp hd)] at hm
    cases hm
  have e : linfitZero2 x y = .ok (dotp x y / sq x) := by
    simp only [linfitZero2, mulArrays_eq h, sq_def, dotp_def, quotient_eq hd]
  rw [e] at hm
  obtain rfl : dotp x y / sq x = m := by simpa using hm
  have hnum : sq y + dotp x y / sq x * (dotp x y / sq x) * sq x - 2 * (dotp x y / sq x) * dotp x y
      = misfit (dotp x y / sq x) 0 (x.zip y) := by
    rw [misfit_eq x y h]
    ring
  have hsq : (x.map fun a => a ^ 2).sum = sq x := by simp only [pow_two, sq]
  have hv : linfitZero2Var x y = match
      quotient (misfit (dotp x y / sq x) 0 (x.zip y)) (((x.length : K) - 1) * sq x) with
      | some v => .ok v
      | none => .notfinite := by
    rw [← hnum]
    simp only [linfitZero2Var, mulArrays_eq h, sq_def, dotp_def, quotient_eq hd]
    rfl
  constructor
  · intro h1
    have hn1 : (x.length : K) - 1 ≠ 0 := by
      intro h0
      apply h1
      have : (x.length : K) = 1 := sub_eq_zero.mp h0
      exact_mod_cast this
    rw [hv, quotient_eq (mul_ne_zero hn1 hd), hsq]
    simp only [Res.ok.injEq]
    field_simp
  · intro h1
    rw [hv, h1]
    simp [quotient]

example : linfitZero2Var ([0, 1, 3] : List ℚ) [1, 3, 4] = .ok (7 / 40) := by decide +kernel

/-- nanlinfit2 fits the points of which both coordinates are numbers. -/
theorem nanlinfit2_spec (x y : List (Option K)) :
    (x.length ≠ y.length → nanlinfit2 x y = .valueError) ∧
    (x.length = y.length →
      (Spread ((points x y).map Prod.fst) → ∃ m b, nanlinfit2 x y = .ok (m, b) ∧ BestLine (points x y) m b) ∧
      (¬ Spread ((points x y).map Prod.fst) → nanlinfit2 x y = .notfinite)) := by
  constructor
  · intro h
    simp [nanlinfit2, xyremovenan, h]
  · intro h
    have e : nanlinfit2 x y = linfit2 ((points x y).map Prod.fst) ((points x y).map Prod.snd) := by
      simp [nanlinfit2, xyremovenan, h, length_points x y h]
    have hs := linfit2_spec ((points x y).map Prod.fst) ((points x y).map Prod.snd) (by simp)
    rw [zip_map_fst_snd] at hs
    rw [e]
    exact hs

example : nanlinfit2 ([some 0, none, some 1, some 2, some 3] : List (Option ℚ))
    [some 1, some 9, some 3, none, some 7] = .ok (2, 1) := by decide +kernel
example : points ([some 0, none, some 1, some 2, some 3] : List (Option ℚ))
    [some 1, some 9, some 3, none, some 7] = [(0, 1), (1, 3), (3, 7)] := rfl

/-- With errors: the roots of the variances; known variances of the ordinates are refused. -/
theorem linfit2_roots (x y : List ℝ) (h : x.length = y.length) (hs : Spread x) (h2 : x.length ≠ 2) :
    (∃ m b vm vb, linfit2 x y = .ok (m, b) ∧ linfit2Var x y = .ok (vm, vb) ∧
      ∃ sm sb, linfit2Errors x y none = .ok ((m, b), (sm, sb)) ∧
        0 ≤ sm ∧ 0 ≤ sb ∧ sm ^ 2 = vm ∧ sb ^ 2 = vb) ∧
    ∀ v, linfit2Errors x y (some v) = .notImplemented := by
  refine ⟨?_, fun v => rfl⟩
  have hd := (den_ne_zero_iff x).mpr hs
  have hm := linfit2_ok h hd
  have hv := (linfit2_errors x y h hs _ _ hm).1 h2
  have hn : (2 : ℝ) < x.length ∨ (x.length : ℝ) < 2 := by
    rcases lt_or_gt_of_ne h2 with h | h
    · right; exact_mod_cast h
    · left; exact_mod_cast h
  have hlen : 2 ≤ x.length := by
    obtain ⟨a, ha, b, hb, hab⟩ := hs
    rcases x with - | ⟨c, - | ⟨d, x⟩⟩
    · simp at ha
    · simp only [List.mem_singleton] at ha hb
      exact absurd (ha.trans hb.symm) hab
    · simp
  have hn2 : (0 : ℝ) < (x.length : ℝ) - 2 := by
    have : 2 < x.length := lt_of_le_of_ne hlen (Ne.symm h2)
    have : (2 : ℝ) < x.length := by exact_mod_cast this
    linarith
  have hmis := misfit_nonneg (slope x y) (icept x y) (x.zip y)
  have hspread : ∀ c : ℝ, 0 ≤ (x.map fun a => (a - c) ^ 2).sum := by
    intro c
    apply List.sum_nonneg
    intro z hz
    obtain ⟨a, -, rfl⟩ := List.mem_map.mp hz
    positivity
  have hsq : 0 ≤ (x.map fun a => a ^ 2).sum := by
    have := hspread 0
    simpa using this
  have hp1 := hspread (x.sum / x.length)
  refine ⟨_, _, _, _, hm, hv, _, _, by simp only [linfit2Errors, hm, hv], Real.sqrt_nonneg _,
    Real.sqrt_nonneg _, Real.sq_sqrt ?_, Real.sq_sqrt ?_⟩
  · positivity
  · positivity

example : linfit2Errors ([0, 1] : List ℝ) [1, 2] (some [1, 1]) = .notImplemented := rfl

/-- The same without intercept. -/
theorem linfit_zero_roots (x y : List ℝ) (h : x.length = y.length) (hs : ∃ a ∈ x, a ≠ 0) (h1 : x.length ≠ 1) :
    ∃ m v, linfitZero2 x y = .ok m ∧ linfitZero2Var x y = .ok v ∧
      ∃ s, linfitZero2Errors x y = .ok (m, s) ∧ 0 ≤ s ∧ s ^ 2 = v := by
  obtain ⟨m, hm, -⟩ := (linfit_zero_spec x y h).1 hs
  have hv := (linfit_zero_errors x y h m hm).1 h1
  have hn1 : (0 : ℝ) ≤ (x.length : ℝ) - 1 := by
    obtain ⟨a, ha, -⟩ := hs
    have : 1 ≤ x.length := by
      rcases x with - | ⟨c, x⟩
      · simp at ha
      · simp
    have : (1 : ℝ) ≤ x.length := by exact_mod_cast this
    linarith
  have hmis := misfit_nonneg m 0 (x.zip y)
  have hsq : 0 ≤ (x.map fun a => a ^ 2).sum := by
    apply List.sum_nonneg
    intro z hz
    obtain ⟨a, -, rfl⟩ := List.mem_map.mp hz
    positivity
  refine ⟨m, _, hm, hv, _, by simp only [linfitZero2Errors, hm, hv], Real.sqrt_nonneg _, Real.sq_sqrt ?_⟩
  positivity

end SC.Fit
