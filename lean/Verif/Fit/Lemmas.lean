import Verif.Fit.Spec
import Mathlib.Tactic.Ring
import Mathlib.Tactic.FieldSimp
import Mathlib.Tactic.LinearCombination
import Mathlib.Tactic.Linarith
import Mathlib.Tactic.Positivity
/-! # Lemmas about the sums of a linear fit -/
namespace SC.Fit
variable {K : Type} [Field K] [LinearOrder K] [IsStrictOrderedRing K]

/-- Sum of squares of a list. -/
def sq (x : List K) : K := (x.map fun a => a * a).sum

@[simp] theorem sq_nil : sq ([] : List K) = 0 := rfl
@[simp] theorem sq_cons (a : K) (x : List K) : sq (a :: x) = a * a + sq x := by simp [sq]

theorem sq_def (x : List K) : (x.map fun a => a * a).sum = sq x := rfl

theorem mulArrays_eq {x y : List K} (h : x.length = y.length) :
    mulArrays x y = some (List.zipWith (· * ·) x y) := by simp [mulArrays, h]

/-- `Σ x y` -/
def dotp (x y : List K) : K := (List.zipWith (· * ·) x y).sum

@[simp] theorem dotp_nil (y : List K) : dotp [] y = 0 := by simp [dotp]
@[simp] theorem dotp_cons (a b : K) (x y : List K) : dotp (a :: x) (b :: y) = a * b + dotp x y := by
  simp [dotp]

theorem dotp_def (x y : List K) : (List.zipWith (· * ·) x y).sum = dotp x y := rfl

theorem misfit_eq : ∀ (x y : List K), x.length = y.length → ∀ m b : K,
    misfit m b (x.zip y) = sq y + m ^ 2 * sq x + (x.length : K) * b ^ 2 - 2 * m * dotp x y
      - 2 * b * y.sum + 2 * m * b * x.sum
  | [], [], _, m, b => by simp [misfit]
  | a :: x, c :: y, h, m, b => by
      have ih := misfit_eq x y (by simpa using h) m b
      simp only [misfit, List.zip_cons_cons, List.map_cons, List.sum_cons] at ih ⊢
      rw [ih]
      simp only [sq_cons, dotp_cons, List.length_cons, List.sum_cons]
      push_cast
      ring
  | [], _ :: _, h, _, _ => by simp at h
  | _ :: _, [], h, _, _ => by simp at h

/-- `Σ (u x + v)²` -/
def quad (u v : K) (x : List K) : K := (x.map fun a => (u * a + v) ^ 2).sum

theorem quad_eq (u v : K) (x : List K) :
    quad u v x = u ^ 2 * sq x + (x.length : K) * v ^ 2 + 2 * u * v * x.sum := by
  induction x with
  | nil => simp [quad]
  | cons a x ih =>
      simp only [quad, List.map_cons, List.sum_cons] at ih ⊢
      rw [ih]
      simp only [sq_cons, List.length_cons]
      push_cast
      ring

theorem quad_nonneg (u v : K) (x : List K) : 0 ≤ quad u v x := by
  induction x with
  | nil => simp [quad]
  | cons a x ih =>
      simp only [quad, List.map_cons, List.sum_cons] at ih ⊢
      positivity

theorem quad_zero (u v : K) (x : List K) (h : quad u v x = 0) : ∀ a ∈ x, u * a + v = 0 := by
  induction x with
  | nil => simp
  | cons a x ih =>
      have hn := quad_nonneg u v x
      have e : quad u v (a :: x) = (u * a + v) ^ 2 + quad u v x := by simp [quad]
      rw [e] at h
      have h1 : (u * a + v) ^ 2 = 0 := by nlinarith [sq_nonneg (u * a + v)]
      have h2 : quad u v x = 0 := by nlinarith [sq_nonneg (u * a + v)]
      intro c hc
      rcases List.mem_cons.mp hc with rfl | hc
      · exact pow_eq_zero_iff (two_ne_zero) |>.mp h1
      · exact ih h2 c hc

/-- The denominator of linfit2. -/
def den (x : List K) : K := (x.length : K) * sq x - x.sum * x.sum

theorem den_quad (x : List K) : quad (x.length : K) (-x.sum) x = (x.length : K) * den x := by
  rw [quad_eq, den]
  ring

theorem den_nonneg (x : List K) : 0 ≤ den x := by
  rcases x with - | ⟨a, x⟩
  · simp [den]
  · have h := quad_nonneg (((a :: x).length : Nat) : K) (-(a :: x).sum) (a :: x)
    rw [den_quad] at h
    have hp : (0 : K) < ((a :: x).length : K) := by simp; positivity
    exact nonneg_of_mul_nonneg_right h hp

theorem den_ne_zero_iff (x : List K) : den x ≠ 0 ↔ Spread x := by
  constructor
  · intro h
    by_contra hs
    apply h
    have hc : ∀ a ∈ x, ∀ b ∈ x, a = b := by
      intro a ha b hb
      by_contra hab
      exact hs ⟨a, ha, b, hb, hab⟩
    rcases x with - | ⟨a, x⟩
    · simp [den]
    · have e : (a :: x) = List.replicate (a :: x).length a := by
        apply List.eq_replicate_of_mem
        intro b hb
        exact hc b hb a (by simp)
      have h1 : (a :: x).sum = ((a :: x).length : K) * a := by
        conv_lhs => rw [e]
        simp
      have h2 : sq (a :: x) = ((a :: x).length : K) * (a * a) := by
        conv_lhs => rw [e]
        simp [sq]
      rw [den, h1, h2]
      ring
  · rintro ⟨a, ha, b, hb, hab⟩ h
    have hq := den_quad x
    rw [h, mul_zero] at hq
    have e1 := quad_zero _ _ _ hq a ha
    have e2 := quad_zero _ _ _ hq b hb
    have hn : (x.length : K) ≠ 0 := by
      have : x.length ≠ 0 := by
        intro h0
        rw [List.length_eq_zero_iff.mp h0] at ha
        simp at ha
      exact_mod_cast this
    apply hab
    have : (x.length : K) * (a - b) = 0 := by linear_combination e1 - e2
    rcases mul_eq_zero.mp this with h | h
    · exact absurd h hn
    · exact sub_eq_zero.mp h

theorem quotient_eq {a d : K} (h : d ≠ 0) : quotient a d = some (a / d) := by simp [quotient, h]
theorem quotient_zero (a : K) : quotient a 0 = none := by simp [quotient]

/-- Slope and intercept as linfit2 computes them. -/
def slope (x y : List K) : K := ((x.length : K) * dotp x y - x.sum * y.sum) / den x
def icept (x y : List K) : K := (sq x * y.sum - x.sum * dotp x y) / den x

theorem linfit2Sums_eq (x y : List K) :
    linfit2Sums x y (List.zipWith (· * ·) x y)
      = (den x, (x.length : K) * dotp x y - x.sum * y.sum, sq x * y.sum - x.sum * dotp x y) := rfl

theorem linfit2_ok {x y : List K} (h : x.length = y.length) (hd : den x ≠ 0) :
    linfit2 x y = .ok (slope x y, icept x y) := by
  simp only [linfit2, mulArrays_eq h, linfit2Sums_eq, quotient_eq hd]
  rfl

theorem linfit2_bad {x y : List K} (h : x.length = y.length) (hd : den x = 0) :
    linfit2 x y = .notfinite := by
  simp only [linfit2, mulArrays_eq h, linfit2Sums_eq, hd, quotient_zero]

theorem normal1 (x y : List K) (hd : den x ≠ 0) :
    slope x y * sq x + icept x y * x.sum = dotp x y := by
  have hd' := hd
  simp only [slope, icept]
  rw [div_mul_eq_mul_div, div_mul_eq_mul_div, ← add_div, div_eq_iff hd]
  simp only [den]
  ring

theorem normal2 (x y : List K) (hd : den x ≠ 0) :
    slope x y * x.sum + (x.length : K) * icept x y = y.sum := by
  simp only [slope, icept]
  rw [div_mul_eq_mul_div, mul_div_assoc', ← add_div, div_eq_iff hd]
  simp only [den]
  ring

theorem misfit_diff {x y : List K} (h : x.length = y.length) (hd : den x ≠ 0) (m b : K) :
    misfit m b (x.zip y) = misfit (slope x y) (icept x y) (x.zip y)
      + quad (m - slope x y) (b - icept x y) x := by
  rw [misfit_eq x y h, misfit_eq x y h, quad_eq]
  have h1 := normal1 x y hd
  have h2 := normal2 x y hd
  linear_combination (2 * (m - slope x y)) * h1 + (2 * (b - icept x y)) * h2

theorem spread_quad {x : List K} (hs : Spread x) {u v : K} (h : quad u v x = 0) : u = 0 ∧ v = 0 := by
  obtain ⟨a, ha, b, hb, hab⟩ := hs
  have e1 := quad_zero _ _ _ h a ha
  have e2 := quad_zero _ _ _ h b hb
  have hu : u * (a - b) = 0 := by linear_combination e1 - e2
  rcases mul_eq_zero.mp hu with hu | hu
  · subst hu
    exact ⟨rfl, by linear_combination e1⟩
  · exact absurd (sub_eq_zero.mp hu) hab

/-- The misfit of the best line. -/
theorem misfit_best {x y : List K} (h : x.length = y.length) (hd : den x ≠ 0) :
    (x.length : K) * misfit (slope x y) (icept x y) (x.zip y)
      = (x.length : K) * sq y - y.sum * y.sum
        - slope x y * ((x.length : K) * dotp x y - x.sum * y.sum) := by
  rw [misfit_eq x y h]
  have h1 := normal1 x y hd
  have h2 := normal2 x y hd
  linear_combination ((x.length : K) * slope x y) * h1 + ((x.length : K) * icept x y - y.sum) * h2

theorem misfit_nonneg (m b : K) (pts : List (K × K)) : 0 ≤ misfit m b pts := by
  induction pts with
  | nil => simp [misfit]
  | cons p pts ih =>
      simp only [misfit, List.map_cons, List.sum_cons] at ih ⊢
      positivity

theorem sq_nonneg' (x : List K) : 0 ≤ sq x := by
  induction x with
  | nil => simp
  | cons a x ih =>
      rw [sq_cons]
      nlinarith [mul_self_nonneg a]

theorem sq_zero_iff (x : List K) : sq x = 0 ↔ ∀ a ∈ x, a = 0 := by
  induction x with
  | nil => simp
  | cons a x ih =>
      rw [sq_cons]
      have h1 := mul_self_nonneg a
      have h2 := sq_nonneg' x
      constructor
      · intro h
        have ha : a * a = 0 := by linarith
        have hx : sq x = 0 := by linarith
        intro b hb
        rcases List.mem_cons.mp hb with rfl | hb
        · exact mul_self_eq_zero.mp ha
        · exact ih.mp hx b hb
      · intro h
        rw [h a (by simp), ih.mpr fun b hb => h b (by simp [hb])]
        simp

theorem length_points : ∀ (x y : List (Option K)), x.length = y.length →
    ((x.zip y).filterMap fun p => p.1.bind fun a => p.2.map fun b => (a, b)) = points x y
  | [], [], _ => by simp [points]
  | some a :: x, some b :: y, h => by
      simp [points, length_points x y (by simpa using h)]
  | none :: x, b :: y, h => by
      simp [points, length_points x y (by simpa using h)]
  | some a :: x, none :: y, h => by
      simp [points, length_points x y (by simpa using h)]
  | [], _ :: _, h => by simp at h
  | _ :: _, [], h => by simp at h

theorem zip_map_fst_snd {α β : Type} (l : List (α × β)) : (l.map Prod.fst).zip (l.map Prod.snd) = l := by
  induction l with
  | nil => rfl
  | cons p l ih => simp [ih]

end SC.Fit
