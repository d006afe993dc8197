import Verif.Linop.Model
import Mathlib.Order.WithBot
import Mathlib.Tactic.Order
import Mathlib.Tactic.Ring
import Mathlib.Tactic.FieldSimp
import Mathlib.Tactic.Linarith
/-! # Floats without rounding: order and linear maps -/
namespace SC.Linop
namespace F

variable {K : Type} [Field K] [LinearOrder K]

/-- Position on the extended line (NaN: junk). -/
def val : F K → WithBot (WithTop K)
  | nan => ⊥
  | ninf => ⊥
  | fin a => ((a : WithTop K) : WithBot (WithTop K))
  | pinf => ((⊤ : WithTop K) : WithBot (WithTop K))

theorem val_inj {a b : F K} (ha : a ≠ nan) (hb : b ≠ nan) (h : a.val = b.val) : a = b := by
  cases a <;> cases b <;> simp_all [val]

theorem lt_val {a b : F K} (ha : a ≠ nan) (hb : b ≠ nan) : lt a b = true ↔ a.val < b.val := by
  cases a <;> cases b <;> simp_all [val, lt]
  rw [← WithBot.coe_top]; exact WithBot.coe_lt_coe.mpr (WithTop.coe_lt_top _)

theorem le_val {a b : F K} (ha : a ≠ nan) (hb : b ≠ nan) : le a b = true ↔ a.val ≤ b.val := by
  have : le a b = !(lt b a) := by cases a <;> cases b <;> simp_all [le]
  rw [this, Bool.not_eq_true', ← not_lt, ← lt_val hb ha, Bool.not_eq_true]

@[simp] theorem lt_nan_left (a : F K) : lt nan a = false := by cases a <;> rfl
@[simp] theorem lt_nan_right (a : F K) : lt a nan = false := by cases a <;> rfl
@[simp] theorem le_nan_left (a : F K) : le nan a = false := by cases a <;> rfl
@[simp] theorem le_nan_right (a : F K) : le a nan = false := by cases a <;> rfl

/-- `m * x + b` -/
def lin (m b : K) (x : F K) : F K := add (mul (fin m) x) (fin b)
/-- `(c - b) / m` -/
def linv (m b : K) (c : F K) : F K := div (sub c (fin b)) (fin m)

@[simp] theorem lin_nan (m b : K) : lin m b nan = nan := by simp [lin, mul, add]
@[simp] theorem linv_nan (m b : K) : linv m b nan = nan := by simp [linv, sub, add, div]

theorem linv_ne {m b : K} (hm : m ≠ 0) {c : F K} (hc : c ≠ nan) : linv m b c ≠ nan := by
  cases c <;> simp_all [linv, sub, neg, add, div] <;> split <;> simp

theorem lin_ne {m b : K} (hm : m ≠ 0) {c : F K} (hc : c ≠ nan) : lin m b c ≠ nan := by
  rcases lt_or_gt_of_ne hm with h | h <;>
  cases c <;> simp_all [lin, mul, add, signInf, neg, not_lt_of_gt]

theorem lin_linv {m b : K} (hm : m ≠ 0) {c : F K} (hc : c ≠ nan) : lin m b (linv m b c) = c := by
  rcases lt_or_gt_of_ne hm with h | h <;>
  cases c <;> simp_all [lin, linv, sub, neg, mul, add, div, signInf, not_lt_of_gt] <;> field_simp <;> ring

theorem linv_lin {m b : K} (hm : m ≠ 0) {c : F K} (hc : c ≠ nan) : linv m b (lin m b c) = c := by
  rcases lt_or_gt_of_ne hm with h | h <;>
  cases c <;> simp_all [lin, linv, sub, neg, mul, add, div, signInf, not_lt_of_gt] <;> field_simp

variable [IsStrictOrderedRing K]

theorem linear_comp (m m' b b' : K) (x : F K) :
    lin m b (lin m' b' x) = add (mul (mul (fin m) (fin m')) x) (add (mul (fin b') (fin m)) (fin b)) := by
  have hs : signInf (m * m') = mul (fin m) (signInf m') := by
    rcases lt_trichotomy m 0 with h | rfl | h <;> rcases lt_trichotomy m' 0 with h' | rfl | h' <;>
      simp [signInf, mul, neg, not_lt_of_gt, mul_pos_of_neg_of_neg, mul_neg_of_neg_of_pos,
        mul_neg_of_pos_of_neg, *]
  have hn : ∀ y : F K, neg (mul (fin m) y) = mul (fin m) (neg y) := by
    intro y
    rcases lt_trichotomy m 0 with h | rfl | h <;> cases y <;>
      simp [signInf, mul, neg, not_lt_of_gt, *]
  have hadd : ∀ (y : F K) (c d : K), (∀ k, y ≠ fin k) → add y (fin c) = add y (fin d) := by
    intro y c d hy
    cases y <;> simp_all [add]
  have hinf : ∀ a k : K, signInf a ≠ fin k := by intro a k; simp only [signInf]; (repeat' split) <;> simp
  have hninf : ∀ a k : K, neg (signInf a) ≠ fin k := by
    intro a k; simp only [signInf]; (repeat' split) <;> simp [neg]
  have hadd0 : ∀ (y : F K) (c : K), (∀ k, y ≠ fin k) → add y (fin c) = y := by
    intro y c hy
    cases y <;> simp_all [add]
  cases x with
  | nan => simp [mul, add]
  | fin k => simp [lin, mul, add]; ring
  | pinf =>
    simp only [lin]
    have e1 : mul (fin m') pinf = signInf m' := rfl
    have e2 : mul (mul (fin m) (fin m')) pinf = signInf (m * m') := rfl
    rw [e1, e2, hadd0 _ _ (hinf m'), hs, hadd0 _ _ (by rw [← hs]; exact hinf _)]
    show _ = add _ (fin (b' * m + b))
    rw [hadd0 _ _ (by rw [← hs]; exact hinf _)]
  | ninf =>
    simp only [lin]
    have e1 : mul (fin m') ninf = neg (signInf m') := rfl
    have e2 : mul (mul (fin m) (fin m')) ninf = neg (signInf (m * m')) := rfl
    rw [e1, e2, hadd0 _ _ (hninf m'), hs, hn, hadd0 _ _ (by rw [← hn, ← hs]; exact hninf _)]
    show _ = add _ (fin (b' * m + b))
    rw [hadd0 _ _ (by rw [← hn, ← hs]; exact hninf _)]

theorem lin_lt_pos {m b : K} (hm : 0 < m) (x c : F K) : lt (lin m b x) c = lt x (linv m b c) := by
  cases x <;> cases c <;> simp [lin, linv, sub, neg, mul, add, div, signInf, lt, hm, hm.ne', not_lt_of_gt hm]
  rw [lt_div_iff₀ hm]
  constructor <;> intro h <;> linarith

theorem lt_lin_pos {m b : K} (hm : 0 < m) (x c : F K) : lt c (lin m b x) = lt (linv m b c) x := by
  cases x <;> cases c <;> simp [lin, linv, sub, neg, mul, add, div, signInf, lt, hm, hm.ne', not_lt_of_gt hm]
  rw [div_lt_iff₀ hm]
  constructor <;> intro h <;> linarith

theorem lin_lt_neg {m b : K} (hm : m < 0) (x c : F K) : lt (lin m b x) c = lt (linv m b c) x := by
  cases x <;> cases c <;> simp [lin, linv, sub, neg, mul, add, div, signInf, lt, hm, hm.ne, not_lt_of_gt hm]
  rw [div_lt_iff_of_neg hm]
  constructor <;> intro h <;> linarith

theorem lt_lin_neg {m b : K} (hm : m < 0) (x c : F K) : lt c (lin m b x) = lt x (linv m b c) := by
  cases x <;> cases c <;> simp [lin, linv, sub, neg, mul, add, div, signInf, lt, hm, hm.ne, not_lt_of_gt hm]
  rw [lt_div_iff_of_neg hm]
  constructor <;> intro h <;> linarith

end F
end SC.Linop
