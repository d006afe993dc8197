import Verif.AlignFFT.Props
/-! # C48: the translation found between images -/
namespace SC.AlignFFT
open SC.Ft SC.Center Finset

local notation "conj" => starRingEnd ℂ

/-- The image `g` moved by `sy` rows and `sx` columns, around the ends -/
def moved2 (g : Img) (sy sx : ℤ) : Img := { ny := g.ny, nx := g.nx, v := fun i j => g.v (rot g.ny (-sy) i) (rot g.nx (-sx) j) }

/-- Pixel `(i, j)` moved to pixel `(i + sy, j + sx)`. -/
theorem moved2_spec (g : Img) (sy sx : ℤ) {i j : ℕ} (hi : i < g.ny) (hj : j < g.nx) :
    (moved2 g sy sx).v (((i : ℤ) + sy) % g.ny).toNat (((j : ℤ) + sx) % g.nx).toNat = g.v i j := by
  have e1 : rot g.ny (-sy) (rot g.ny sy i) = i := by rw [rot_rot _ (by omega), add_neg_cancel, rot_zero _ hi]
  have e2 : rot g.nx (-sx) (rot g.nx sx j) = j := by rw [rot_rot _ (by omega), add_neg_cancel, rot_zero _ hj]
  change g.v (rot g.ny (-sy) (rot g.ny sy i)) (rot g.nx (-sx) (rot g.nx sx j)) = _
  rw [e1, e2]

/-- No translation of the image (around the ends) is a multiple of the image. -/
def NoPeriod2 (g : Img) : Prop :=
  ∀ dy dx : ℤ, ¬ ((g.ny : ℤ) ∣ dy ∧ (g.nx : ℤ) ∣ dx) →
    ¬ ∃ c : ℂ, ∀ i < g.ny, ∀ j < g.nx, g.v (((i : ℤ) + dy) % g.ny).toNat (((j : ℤ) + dx) % g.nx).toNat = c * g.v i j

theorem fwd_mul (n : ℕ) (c : ℂ) (f : ℕ → ℂ) (k : ℕ) : fwd n false .numpy (fun j => c * f j) k = c * fwd n false .numpy f k := by
  unfold fwd
  simp only [reduceCtorEq, if_false, one_mul, Finset.mul_sum]
  apply Finset.sum_congr rfl; intro j _; ring

theorem fwd_swap (n m : ℕ) (g : ℕ → ℕ → ℂ) (i j : ℕ) :
    fwd n false .numpy (fun l => fwd m false .numpy (fun k => g k l) i) j = fwd m false .numpy (fun k => fwd n false .numpy (fun l => g k l) j) i := by
  unfold fwd
  simp only [reduceCtorEq, if_false, one_mul, Finset.mul_sum]
  rw [Finset.sum_comm]
  apply Finset.sum_congr rfl; intro l _
  apply Finset.sum_congr rfl; intro k _; ring

theorem inv_sum {ι : Type} (S : Finset ι) (n : ℕ) (F : ι → ℕ → ℂ) (t : ℝ) :
    inv n false .numpy (fun k => ∑ i ∈ S, F i k) t = ∑ i ∈ S, inv n false .numpy (F i) t := by
  unfold inv
  simp only [Finset.mul_sum]
  rw [Finset.sum_comm]

theorem fwd2_moved (g : Img) (hy : 0 < g.ny) (hx : 0 < g.nx) (sy sx : ℤ) (k l : ℕ) :
    (fwd2 false .numpy (moved2 g sy sx)).v k l = e (-(fr g.ny false k * sy / g.ny + fr g.nx false l * sx / g.nx)) * (fwd2 false .numpy g).v k l := by
  unfold fwd2 moved2
  simp only
  have h1 : ∀ l', fwd g.ny false .numpy (fun k' => g.v (rot g.ny (-sy) k') (rot g.nx (-sx) l')) k =
      e (-(fr g.ny false k * sy / g.ny)) * fwd g.ny false .numpy (fun k' => g.v k' (rot g.nx (-sx) l')) k :=
    fun l' => fwd_rot g.ny hy (fun k' => g.v k' (rot g.nx (-sx) l')) sy k
  simp only [h1]
  rw [fwd_mul, fwd_rot g.nx hx (fun l' => fwd g.ny false .numpy (fun k' => g.v k' l') k) sx l, ← mul_assoc, ← e_add]
  congr 2; ring

/-- The product of the transforms -/
noncomputable def prod2 (f g : Img) : Img :=
  { ny := g.ny, nx := g.nx, v := fun k l => (fwd2 false .numpy f).v k l * conj ((fwd2 false .numpy g).v k l) }

/-- Cross-correlation theorem for images -/
theorem correlation2 (f g : Img) (hfy : f.ny = g.ny) (hfx : f.nx = g.nx) (hy : 0 < g.ny) (hx : 0 < g.nx) (dy dx : ℤ) :
    inv2 false .numpy (prod2 f g) dy dx = ∑ i ∈ range g.ny, ∑ j ∈ range g.nx, f.v (rot g.ny dy i) (rot g.nx dx j) * conj (g.v i j) := by
  unfold inv2 prod2 fwd2
  simp only [hfy, hfx]
  have h1 : ∀ l, inv g.ny false .numpy (fun k => fwd g.nx false .numpy (fun l' => fwd g.ny false .numpy (fun k' => f.v k' l') k) l *
      conj (fwd g.nx false .numpy (fun l' => fwd g.ny false .numpy (fun k' => g.v k' l') k) l)) dy =
      ∑ i ∈ range g.ny, fwd g.nx false .numpy (fun l' => f.v (rot g.ny dy i) l') l * conj (fwd g.nx false .numpy (fun l' => g.v i l') l) := by
    intro l
    simp only [fwd_swap g.nx g.ny]
    exact correlation g.ny hy (fun i => fwd g.nx false .numpy (fun l' => f.v i l') l) (fun i => fwd g.nx false .numpy (fun l' => g.v i l') l) dy
  simp only [h1]
  rw [inv_sum]
  apply Finset.sum_congr rfl; intro i _
  exact correlation g.nx hx (fun l' => f.v (rot g.ny dy i) l') (fun l' => g.v i l') dx

/-- The correlation of the moved image with the image, at any point -/
noncomputable def corr2 (g : Img) (sy sx : ℤ) (y x : ℝ) : ℂ :=
  ((g.nx : ℂ) * g.ny)⁻¹ * ∑ p ∈ range g.ny ×ˢ range g.nx, ((‖(fwd2 false .numpy g).v p.1 p.2‖ ^ 2 : ℝ) : ℂ) *
    e (fr g.ny false p.1 * (y - sy) / g.ny + fr g.nx false p.2 * (x - sx) / g.nx)

theorem corr2_eq (g : Img) (hy : 0 < g.ny) (hx : 0 < g.nx) (sy sx : ℤ) (y x : ℝ) :
    inv2 false .numpy (prod2 (moved2 g sy sx) g) y x = corr2 g sy sx y x := by
  have hx' : (g.nx : ℝ) ≠ 0 := by positivity
  have hy' : (g.ny : ℝ) ≠ 0 := by positivity
  rw [inv2_sum]
  unfold corr2 prod2
  simp only [reduceCtorEq, if_false]
  congr 1
  rw [Finset.sum_product_right]
  apply Finset.sum_congr rfl; intro l _
  rw [Finset.sum_mul]
  apply Finset.sum_congr rfl; intro k _
  rw [fwd2_moved g hy hx]
  have h1 : ∀ (a b c z : ℂ), a * (b * z * conj z) * c = (‖z‖ : ℂ) ^ 2 * (a * b * c) := by
    intro a b c z
    rw [← Complex.mul_conj']; ring
  rw [h1, ← e_add, ← e_add]
  push_cast
  congr 2
  field_simp
  ring

/-- The sum of the squares -/
noncomputable def energy2 (g : Img) : ℝ := ∑ p ∈ range g.ny ×ˢ range g.nx, ‖g.v p.1 p.2‖ ^ 2

theorem parseval2 (g : Img) (hy : 0 < g.ny) (hx : 0 < g.nx) :
    ((g.nx : ℝ) * g.ny)⁻¹ * ∑ p ∈ range g.ny ×ˢ range g.nx, ‖(fwd2 false .numpy g).v p.1 p.2‖ ^ 2 = energy2 g := by
  have h := corr2_eq g hy hx 0 0 ((0 : ℤ) : ℝ) ((0 : ℤ) : ℝ)
  rw [correlation2 (moved2 g 0 0) g rfl rfl hy hx] at h
  unfold corr2 at h
  simp only [sub_self, mul_zero, zero_div, e_zero, mul_one, add_zero] at h
  have e2 : ∑ i ∈ range g.ny, ∑ j ∈ range g.nx, (moved2 g 0 0).v (rot g.ny 0 i) (rot g.nx 0 j) * conj (g.v i j) = ((energy2 g : ℝ) : ℂ) := by
    unfold energy2
    rw [Complex.ofReal_sum, Finset.sum_product]
    apply Finset.sum_congr rfl; intro i hi
    apply Finset.sum_congr rfl; intro j hj
    simp only [moved2, neg_zero]
    rw [rot_rot _ hy, rot_rot _ hx, add_zero, rot_zero _ (Finset.mem_range.1 hi), rot_zero _ (Finset.mem_range.1 hj), Complex.mul_conj']
    push_cast; rfl
  rw [e2] at h
  apply Complex.ofReal_injective
  rw [h]
  push_cast; rfl

theorem corr2_le (g : Img) (hy : 0 < g.ny) (hx : 0 < g.nx) (sy sx : ℤ) (y x : ℝ) : ‖corr2 g sy sx y x‖ ≤ energy2 g := by
  unfold corr2
  rw [← parseval2 g hy hx, norm_mul, norm_inv, norm_mul, Complex.norm_natCast, Complex.norm_natCast]
  apply mul_le_mul_of_nonneg_left _ (by positivity)
  exact norm_sum_le' _ (fun p : ℕ × ℕ => ‖(fwd2 false .numpy g).v p.1 p.2‖ ^ 2) _ (fun p _ => by positivity) (fun k _ => e_norm _)

theorem corr2_self (g : Img) (hy : 0 < g.ny) (hx : 0 < g.nx) (sy sx : ℤ) : ‖corr2 g sy sx sy sx‖ = energy2 g := by
  unfold corr2
  rw [← parseval2 g hy hx]
  simp only [sub_self, mul_zero, zero_div, e_zero, mul_one, add_zero]
  rw [← Complex.ofReal_sum, norm_mul, norm_inv, norm_mul, Complex.norm_natCast, Complex.norm_natCast, Complex.norm_real, Real.norm_of_nonneg]
  exact Finset.sum_nonneg fun k _ => by positivity

theorem corr2_symm (g : Img) (sy sx : ℤ) (y x : ℝ) : ‖corr2 g sy sx (sy - y) (sx - x)‖ = ‖corr2 g sy sx (sy + y) (sx + x)‖ := by
  rw [← Complex.norm_conj]
  congr 1
  unfold corr2
  simp only [map_mul, map_sum, map_inv₀, Complex.conj_natCast, Complex.conj_ofReal, e_conj]
  congr 1
  apply Finset.sum_congr rfl; intro k _
  congr 2; ring

theorem corr2_periodic (g : Img) (hy : 0 < g.ny) (hx : 0 < g.nx) (sy sx : ℤ) (y x : ℝ) (p q : ℤ) :
    corr2 g sy sx (y + g.ny * p) (x + g.nx * q) = corr2 g sy sx y x := by
  have hx' : (g.nx : ℝ) ≠ 0 := by positivity
  have hy' : (g.ny : ℝ) ≠ 0 := by positivity
  unfold corr2
  congr 1
  apply Finset.sum_congr rfl; intro k _
  congr 1
  apply e_congr
  refine ⟨fr g.ny false k.1 * p + fr g.nx false k.2 * q, ?_⟩
  push_cast; field_simp; ring

theorem fr_zero_one {n : ℕ} (hn : 2 ≤ n) : fr n false 0 = 0 ∧ (fr n false 1 = 1 ∨ fr n false 1 = -1) := by
  unfold fr
  refine ⟨by simp, ?_⟩
  simp only [Bool.false_eq_true, if_false]
  split
  · left; rfl
  · right; omega

theorem e_fr_one_ne {n : ℕ} (hn : 2 ≤ n) (t : ℝ) (ht : ∀ q : ℤ, t ≠ n * q) : e (fr n false 1 * t / n) ≠ 1 := by
  have hn' : (n : ℝ) ≠ 0 := by positivity
  intro h
  obtain ⟨q, hq⟩ := (e_eq_one_iff _).1 h
  rw [div_eq_iff hn'] at hq
  rcases (fr_zero_one hn).2 with h' | h'
  · rw [h'] at hq
    exact ht q (by push_cast at hq; linarith)
  · rw [h'] at hq
    exact ht (-q) (by push_cast at hq ⊢; linarith)

theorem corr2_lt_frequency (g : Img) (hy : 2 ≤ g.ny) (hx : 2 ≤ g.nx) (h00 : (fwd2 false .numpy g).v 0 0 ≠ 0) (h10 : (fwd2 false .numpy g).v 1 0 ≠ 0)
    (h01 : (fwd2 false .numpy g).v 0 1 ≠ 0) (sy sx : ℤ) (y x : ℝ) (ht : (∀ q : ℤ, y - sy ≠ g.ny * q) ∨ (∀ q : ℤ, x - sx ≠ g.nx * q)) :
    ‖corr2 g sy sx y x‖ < energy2 g := by
  have hy0 : 0 < g.ny := by omega
  have hx0 : 0 < g.nx := by omega
  have hmem : ∀ a b, a < 2 → b < 2 → (a, b) ∈ range g.ny ×ˢ range g.nx := by
    intro a b ha hb
    rw [Finset.mem_product]
    exact ⟨Finset.mem_range.2 (by simp only; omega), Finset.mem_range.2 (by simp only; omega)⟩
  unfold corr2
  rw [← parseval2 g hy0 hx0, norm_mul, norm_inv, norm_mul, Complex.norm_natCast, Complex.norm_natCast]
  apply mul_lt_mul_of_pos_left _ (by positivity)
  rcases ht with ht | ht
  · apply norm_sum_lt _ (fun p : ℕ × ℕ => ‖(fwd2 false .numpy g).v p.1 p.2‖ ^ 2) _ (fun p _ => by positivity) (fun k _ => e_norm _) (k := (0, 0)) (l := (1, 0)) (hmem 0 0 (by omega) (by omega)) (hmem 1 0 (by omega) (by omega))
    · positivity
    · positivity
    · simp only [(fr_zero_one hy).1, (fr_zero_one hx).1, Int.cast_zero, zero_mul, zero_div, add_zero, e_zero]
      exact (e_fr_one_ne hy _ ht).symm
  · apply norm_sum_lt _ (fun p : ℕ × ℕ => ‖(fwd2 false .numpy g).v p.1 p.2‖ ^ 2) _ (fun p _ => by positivity) (fun k _ => e_norm _) (k := (0, 0)) (l := (0, 1)) (hmem 0 0 (by omega) (by omega)) (hmem 0 1 (by omega) (by omega))
    · positivity
    · positivity
    · simp only [(fr_zero_one hy).1, (fr_zero_one hx).1, Int.cast_zero, zero_mul, zero_div, zero_add, e_zero]
      exact (e_fr_one_ne hx _ ht).symm

theorem corr2_lt_period (g : Img) (hy : 0 < g.ny) (hx : 0 < g.nx) (h : NoPeriod2 g) (sy sx dy dx : ℤ) (hd : ¬ ((g.ny : ℤ) ∣ dy - sy ∧ (g.nx : ℤ) ∣ dx - sx)) :
    ‖corr2 g sy sx dy dx‖ < energy2 g := by
  rw [← corr2_eq g hy hx, correlation2 (moved2 g sy sx) g rfl rfl hy hx]
  have e1 : ∑ i ∈ range g.ny, ∑ j ∈ range g.nx, (moved2 g sy sx).v (rot g.ny dy i) (rot g.nx dx j) * conj (g.v i j) =
      ∑ p ∈ range g.ny ×ˢ range g.nx, g.v (rot g.ny (dy - sy) p.1) (rot g.nx (dx - sx) p.2) * conj (g.v p.1 p.2) := by
    rw [Finset.sum_product]
    apply Finset.sum_congr rfl; intro i _
    apply Finset.sum_congr rfl; intro j _
    simp only [moved2]
    rw [rot_rot _ hy, rot_rot _ hx]
    rfl
  rw [e1]
  unfold energy2
  apply correlation_lt (range g.ny ×ˢ range g.nx) (fun p => g.v p.1 p.2) (fun p => g.v (rot g.ny (dy - sy) p.1) (rot g.nx (dx - sx) p.2))
  · rw [Finset.sum_product, Finset.sum_product]
    simp only
    rw [sum_rot g.ny hy (dy - sy) (fun i => ∑ j ∈ range g.nx, ‖g.v i (rot g.nx (dx - sx) j)‖ ^ 2)]
    apply Finset.sum_congr rfl; intro i _
    exact sum_rot g.nx hx (dx - sx) (fun j => ‖g.v i j‖ ^ 2)
  · rintro ⟨c, hc⟩
    apply h (dy - sy) (dx - sx) hd
    refine ⟨c, fun i hi j hj => ?_⟩
    exact hc (i, j) (Finset.mem_product.2 ⟨Finset.mem_range.2 hi, Finset.mem_range.2 hj⟩)

/-- The centre of the super-sampled region -/
def centre (sampling : ℕ) : ℕ := (3 * sampling + 1) / 2 - 1

theorem determine_core2 (g : Img) (hy : 0 < g.ny) (hx : 0 < g.nx) (henergy : 1 < energy2 g) (ry rx : ℤ)
    (hry : -((g.ny : ℤ) / 2) ≤ ry ∧ ry ≤ ((g.ny : ℤ) + 1) / 2 - 1) (hrx : -((g.nx : ℤ) / 2) ≤ rx ∧ rx ≤ ((g.nx : ℤ) + 1) / 2 - 1)
    (hpix : ∀ dy dx : ℤ, ¬ ((g.ny : ℤ) ∣ dy - ry ∧ (g.nx : ℤ) ∣ dx - rx) → ‖corr2 g ry rx dy dx‖ < energy2 g) (sampling : ℕ) (m : Method)
    (hsub : 1 < sampling → ∀ i j : ℕ, i < 3 * sampling → j < 3 * sampling → (i, j) ≠ (centre sampling, centre sampling) →
      ‖corr2 g ry rx (ry + ((i : ℝ) - centre sampling) / sampling) (rx + ((j : ℝ) - centre sampling) / sampling)‖ < energy2 g)
    (F G : Img) (hF : F.Same (fwd2 false .numpy (moved2 g ry rx))) (hG : G.Same (fwd2 false .numpy g)) :
    determineShift2 sampling m F G = some ((ry : ℝ), (rx : ℝ)) := by
  obtain ⟨f1, f2, f3⟩ := hF
  obtain ⟨g1, g2, g3⟩ := hG
  have f1' : F.ny = g.ny := f1
  have f2' : F.nx = g.nx := f2
  have g1' : G.ny = g.ny := g1
  have g2' : G.nx = g.nx := g2
  unfold determineShift2
  rw [if_neg (by omega)]
  set P : Img := { ny := F.ny, nx := F.nx, v := fun i j => F.v i j * conj (G.v i j) } with hP
  have hPy : P.ny = g.ny := f1'
  have hPx : P.nx = g.nx := f2'
  have hinv : ∀ y x, inv2 false .numpy P y x = corr2 g ry rx y x := by
    intro y x
    rw [← corr2_eq g hy hx]
    unfold inv2
    rw [hPy, hPx]
    apply inv_congr
    intro l hl
    apply inv_congr
    intro k hk
    simp only [hP, prod2]
    rw [f3 k (by omega) l (by omega), g3 k (by omega) l (by omega)]
  simp only
  obtain ⟨cc, hcc, c1, c2, c3⟩ := ifft2_spec P (by omega) (by omega) 1 1 one_ne_zero one_ne_zero false .numpy
  rw [show dft2 P (inverse := true) = dft2 P 1 0 none [] 1 0 none [] false true .numpy from rfl, hcc, Option.bind_some]
  rw [hPy] at c1
  rw [hPx] at c2
  set p0 := (rot g.ny ry 0, rot g.nx rx 0) with hp0
  have hp1 : p0.1 < g.ny := rot_lt g.ny hy ry 0
  have hp2 : p0.2 < g.nx := rot_lt g.nx hx rx 0
  obtain ⟨q1, hq1⟩ := rot_cast g.ny hy ry 0
  obtain ⟨q2, hq2⟩ := rot_cast g.nx hx rx 0
  have hself : ‖corr2 g ry rx (p0.1 : ℝ) (p0.2 : ℝ)‖ = energy2 g := by
    rw [← corr2_self g hy hx ry rx, ← corr2_periodic g hy hx ry rx ry rx q1 q2]
    have e1 : (p0.1 : ℝ) = ry + g.ny * q1 := by
      have : (p0.1 : ℤ) = ry + g.ny * q1 := by rw [hp0]; push_cast at hq1 ⊢; linarith
      exact_mod_cast this
    have e2 : (p0.2 : ℝ) = rx + g.nx * q2 := by
      have : (p0.2 : ℤ) = rx + g.nx * q2 := by rw [hp0]; push_cast at hq2 ⊢; linarith
      exact_mod_cast this
    rw [e1, e2]
  have key : ∀ i < g.ny, ∀ j < g.nx, (i, j) ≠ p0 → modulus (cc.v i j) < modulus (cc.v p0.1 p0.2) := by
    intro i hi j hj hne
    rw [c3 i (by omega) j (by omega), c3 p0.1 (by omega) p0.2 (by omega), hinv, hinv]
    apply modulus_lt
    · rw [hself]; exact henergy
    · rw [hself]
      have := hpix i j (by
        rintro ⟨⟨a, ha⟩, ⟨b, hb⟩⟩
        apply hne
        have e1 : i = p0.1 := by
          have hdvd : (g.ny : ℤ) ∣ (i : ℤ) - p0.1 := ⟨a - q1, by rw [hp0]; push_cast at hq1 ⊢; linear_combination ha - hq1⟩
          have := Int.eq_zero_of_abs_lt_dvd hdvd (by rw [abs_lt]; omega)
          omega
        have e2 : j = p0.2 := by
          have hdvd : (g.nx : ℤ) ∣ (j : ℤ) - p0.2 := ⟨b - q2, by rw [hp0]; push_cast at hq2 ⊢; linear_combination hb - hq2⟩
          have := Int.eq_zero_of_abs_lt_dvd hdvd (by rw [abs_lt]; omega)
          omega
        rw [e1, e2])
      exact_mod_cast this
  have hmax : fmax2 (modulus2 cc) = some p0 := by
    rw [fmax2_spec]
    refine ⟨by simp only [modulus2]; omega, by simp only [modulus2]; omega, ?_, ?_⟩
    · intro i hi j hj
      simp only [modulus2] at hi hj ⊢
      by_cases h : (i, j) = p0
      · rw [← h]
      · exact (key i (by omega) j (by omega) h).le
    · intro i hi j hj hlt
      simp only [modulus2] at hi hj ⊢
      apply key i (by omega) j (by omega)
      intro h
      rw [← h] at hlt
      simp only at hlt
      omega
  rw [hmax, Option.bind_some]
  simp only [c1, c2]
  have hu1 : unwrap g.ny p0.1 = ry := unwrap_spec g.ny hy ry hry
  have hu2 : unwrap g.nx p0.2 = rx := unwrap_spec g.nx hx rx hrx
  rw [hu1, hu2]
  split
  · next hs =>
    have hs' : (sampling : ℝ) ≠ 0 := by positivity
    have hk : (freqind ((3 * sampling : ℕ) : ℤ) .numpy).2 = ((centre sampling : ℕ) : ℤ) := by unfold freqind centre; simp only; omega
    rw [hk]
    set K := centre sampling with hK
    have hKlt : K < 3 * sampling := by rw [hK]; unfold centre; omega
    unfold ifftInterpolate2
    simp only
    set oy : ℝ := ((K : ℤ) : ℝ) - ry * sampling with hoy
    set ox : ℝ := ((K : ℤ) : ℝ) - rx * sampling with hox
    have hsize : (1 : ℝ) ≤ ((3 * sampling : ℕ) : ℝ) := by exact_mod_cast (by omega : 1 ≤ 3 * sampling)
    obtain ⟨u, v, sc, hu, hv, hsc, s1, s2, s3⟩ := ifft2_super P (by omega) (by omega) (sampling : ℝ) hs' (-ox) (-ox + ((3 * sampling : ℕ) : ℝ) - 1) (-oy) (-oy + ((3 * sampling : ℕ) : ℝ) - 1)
      (by linarith) (by linarith) .numpy
    rw [hu, Option.bind_some, hv, Option.bind_some]
    rw [show dft2 P (x0 := -ox) (x1 := some (-ox + ((3 * sampling : ℕ) : ℝ) - 1)) (u := u) (y0 := -oy) (y1 := some (-oy + ((3 * sampling : ℕ) : ℝ) - 1)) (v := v) (inverse := true) =
      dft2 P 1 (-ox) (some (-ox + ((3 * sampling : ℕ) : ℝ) - 1)) u 1 (-oy) (some (-oy + ((3 * sampling : ℕ) : ℝ) - 1)) v false true .numpy from rfl, hsc, Option.bind_some]
    have ey : -oy + ((3 * sampling : ℕ) : ℝ) - 1 + 1 - -oy = ((3 * sampling : ℕ) : ℝ) := by ring
    have ex : -ox + ((3 * sampling : ℕ) : ℝ) - 1 + 1 - -ox = ((3 * sampling : ℕ) : ℝ) := by ring
    rw [ey, Int.ceil_natCast, Int.toNat_natCast] at s1
    rw [ex, Int.ceil_natCast, Int.toNat_natCast] at s2
    have hpy : ∀ i : ℕ, (-oy + (i : ℝ)) / sampling = ry + ((i : ℝ) - K) / sampling := by
      intro i; rw [hoy]; push_cast; field_simp; ring
    have hpx : ∀ i : ℕ, (-ox + (i : ℝ)) / sampling = rx + ((i : ℝ) - K) / sampling := by
      intro i; rw [hox]; push_cast; field_simp; ring
    have hval : ∀ i < 3 * sampling, ∀ j < 3 * sampling, sc.v i j = corr2 g ry rx (ry + ((i : ℝ) - K) / sampling) (rx + ((j : ℝ) - K) / sampling) := by
      intro i hi j hj
      rw [s3 i (by omega) j (by omega), hinv, hpy, hpx]
    have hcen : ‖sc.v K K‖ = energy2 g := by
      rw [hval K hKlt K hKlt, sub_self, zero_div, add_zero, add_zero, corr2_self g hy hx]
    have hkey : ∀ i < 3 * sampling, ∀ j < 3 * sampling, (i, j) ≠ (K, K) → modulus (sc.v i j) < modulus (sc.v K K) := by
      intro i hi j hj hne
      apply modulus_lt
      · rw [hcen]; exact henergy
      · rw [hcen, hval i hi j hj]; exact hsub hs i j hi hj hne
    have hfirst : IsFirstMax2 (modulus2 sc) (K, K) := by
      refine ⟨by simp only [modulus2]; omega, by simp only [modulus2]; omega, ?_, ?_⟩
      · intro i hi j hj
        simp only [modulus2] at hi hj ⊢
        by_cases h : (i, j) = (K, K)
        · rw [Prod.mk.injEq] at h; rw [h.1, h.2]
        · exact (hkey i (by omega) j (by omega) h).le
      · intro i hi j hj hlt
        simp only [modulus2] at hi hj hlt ⊢
        apply hkey i (by omega) j (by omega)
        intro h
        rw [Prod.mk.injEq] at h
        omega
    have hccm : ccMaximum2 m sc = some ((K : ℝ), (K : ℝ)) := by
      unfold ccMaximum2
      cases m
      · simp only
        rw [(fmax2_spec _ _).2 hfirst, Option.map_some]
      · simp only
        apply fcentroid2_symmetric _ _ (K, K) hfirst
        · simp only [modulus2]
          rw [modulus_of (by rw [hcen]; exact henergy), hcen]; linarith
        · intro i j i' j' hi hj hi' hj' h1 h2
          simp only [modulus2] at *
          rw [hval i (by omega) j (by omega), hval i' (by omega) j' (by omega)]
          have e1 : ((i : ℝ) - K) = -((i' : ℝ) - K) := by
            have : (i : ℝ) + i' = 2 * K := by exact_mod_cast h1
            linarith
          have e2 : ((j : ℝ) - K) = -((j' : ℝ) - K) := by
            have : (j : ℝ) + j' = 2 * K := by exact_mod_cast h2
            linarith
          rw [e1, e2, neg_div, neg_div, ← sub_eq_add_neg, ← sub_eq_add_neg]
          unfold modulus
          rw [corr2_symm]
        · intro i _ j _
          exact modulus_nonneg _
    rw [hccm, Option.map_some]
    simp only
    congr 1
    rw [hoy, hox]
    ext
    · simp only; push_cast; field_simp; ring
    · simp only; push_cast; field_simp; ring
  · rfl

theorem moved2_congr (g : Img) {sy ty sx tx : ℤ} (h : (g.ny : ℤ) ∣ sy - ty) (h' : (g.nx : ℤ) ∣ sx - tx) : moved2 g sy sx = moved2 g ty tx := by
  unfold moved2
  congr 1
  funext i j
  rw [rot_congr g.ny i (show (g.ny : ℤ) ∣ -sy - -ty by rw [show -sy - -ty = -(sy - ty) by ring]; exact (Int.dvd_neg).2 h),
    rot_congr g.nx j (show (g.nx : ℤ) ∣ -sx - -tx by rw [show -sx - -tx = -(sx - tx) by ring]; exact (Int.dvd_neg).2 h')]

/-- Within half the image, and equal to `s` up to whole images -/
def Near (n : ℕ) (s r : ℤ) : Prop := (-((n : ℤ) / 2) ≤ r ∧ r ≤ ((n : ℤ) + 1) / 2 - 1) ∧ (n : ℤ) ∣ r - s

/-- C48: whole-pixel search between images. -/
theorem shift2_pixels (g : Img) (hy : 0 < g.ny) (hx : 0 < g.nx) (hperiod : NoPeriod2 g) (henergy : 1 < energy2 g) (sy sx : ℤ) (sampling : ℕ) (hs : sampling ≤ 1) (m : Method) :
    ∃ F G, dft2 (moved2 g sy sx) = some F ∧ dft2 g = some G ∧ ∃ ry rx : ℤ, Near g.ny sy ry ∧ Near g.nx sx rx ∧
      determineShift2 sampling m F G = some ((ry : ℝ), (rx : ℝ)) := by
  obtain ⟨ry, hry, hrys⟩ := representative g.ny hy sy
  obtain ⟨rx, hrx, hrxs⟩ := representative g.nx hx sx
  obtain ⟨F, hF, hF'⟩ := fft2_spec (moved2 g ry rx) hy hx 1 1 one_ne_zero one_ne_zero false .numpy
  obtain ⟨G, hG, hG'⟩ := fft2_spec g hy hx 1 1 one_ne_zero one_ne_zero false .numpy
  refine ⟨F, G, by rw [← moved2_congr g hrys hrxs]; exact hF, hG, ry, rx, ⟨hry, hrys⟩, ⟨hrx, hrxs⟩, ?_⟩
  exact determine_core2 g hy hx henergy ry rx hry hrx (fun dy dx hd => corr2_lt_period g hy hx hperiod ry rx dy dx hd) sampling m (fun h => absurd h (by omega)) F G hF' hG'

/-- A point of the region next to the centre is no whole number of images away. -/
theorem window_not_period {n sampling i : ℕ} (hn : 2 ≤ n) (hs : 1 < sampling) (hi : i < 3 * sampling) (hne : i ≠ centre sampling) (s : ℤ) (q : ℤ) :
    (s : ℝ) + ((i : ℝ) - centre sampling) / sampling - s ≠ n * q := by
  intro hq
  rw [add_sub_cancel_left] at hq
  have hs' : (0 : ℝ) < sampling := by positivity
  have hc : 2 * (centre sampling) + 2 ≤ 3 * sampling + 1 ∧ 3 * sampling ≤ 2 * centre sampling + 2 := by unfold centre; omega
  have hc1 : 2 * (centre sampling : ℝ) + 2 ≤ 3 * sampling + 1 := by exact_mod_cast hc.1
  have hc2 : 3 * (sampling : ℝ) ≤ 2 * centre sampling + 2 := by exact_mod_cast hc.2
  have hi0 : (0 : ℝ) ≤ i := by positivity
  have hi1 : (i : ℝ) + 1 ≤ 3 * sampling := by exact_mod_cast hi
  have hs2 : (2 : ℝ) ≤ sampling := by exact_mod_cast hs
  have hup : ((i : ℝ) - centre sampling) / sampling < 2 := by rw [div_lt_iff₀ hs']; linarith
  have hlo : -2 < ((i : ℝ) - centre sampling) / sampling := by rw [lt_div_iff₀ hs']; linarith
  have hnz : ((i : ℝ) - centre sampling) / sampling ≠ 0 := by
    rw [div_ne_zero_iff]
    refine ⟨?_, hs'.ne'⟩
    intro h
    apply hne
    have : (i : ℝ) = centre sampling := by linarith
    exact_mod_cast this
  rw [hq] at hup hlo hnz
  have hn2 : (2 : ℝ) ≤ n := by exact_mod_cast hn
  rcases lt_trichotomy q 0 with h | h | h
  · have : (q : ℝ) ≤ -1 := by exact_mod_cast (by omega : q ≤ -1)
    nlinarith
  · rw [h] at hnz; simp at hnz
  · have : (1 : ℝ) ≤ q := by exact_mod_cast (by omega : 1 ≤ q)
    nlinarith

/-- C48: sub-pixel search between images, both methods. -/
theorem shift2_subpixels (g : Img) (hy : 2 ≤ g.ny) (hx : 2 ≤ g.nx) (h00 : (fwd2 false .numpy g).v 0 0 ≠ 0) (h10 : (fwd2 false .numpy g).v 1 0 ≠ 0)
    (h01 : (fwd2 false .numpy g).v 0 1 ≠ 0) (henergy : 1 < energy2 g) (sy sx : ℤ) (sampling : ℕ) (m : Method) :
    ∃ F G, dft2 (moved2 g sy sx) = some F ∧ dft2 g = some G ∧ ∃ ry rx : ℤ, Near g.ny sy ry ∧ Near g.nx sx rx ∧
      determineShift2 sampling m F G = some ((ry : ℝ), (rx : ℝ)) := by
  have hy0 : 0 < g.ny := by omega
  have hx0 : 0 < g.nx := by omega
  obtain ⟨ry, hry, hrys⟩ := representative g.ny hy0 sy
  obtain ⟨rx, hrx, hrxs⟩ := representative g.nx hx0 sx
  obtain ⟨F, hF, hF'⟩ := fft2_spec (moved2 g ry rx) hy0 hx0 1 1 one_ne_zero one_ne_zero false .numpy
  obtain ⟨G, hG, hG'⟩ := fft2_spec g hy0 hx0 1 1 one_ne_zero one_ne_zero false .numpy
  refine ⟨F, G, by rw [← moved2_congr g hrys hrxs]; exact hF, hG, ry, rx, ⟨hry, hrys⟩, ⟨hrx, hrxs⟩, ?_⟩
  refine determine_core2 g hy0 hx0 henergy ry rx hry hrx ?_ sampling m ?_ F G hF' hG'
  · intro dy dx hd
    apply corr2_lt_frequency g hy hx h00 h10 h01
    by_contra hc
    rw [not_or] at hc
    simp only [not_forall, not_not] at hc
    obtain ⟨⟨a, ha⟩, ⟨b, hb⟩⟩ := hc
    exact hd ⟨⟨a, by exact_mod_cast ha⟩, ⟨b, by exact_mod_cast hb⟩⟩
  · intro hs i j hi hj hne
    apply corr2_lt_frequency g hy hx h00 h10 h01
    by_cases h : i = centre sampling
    · right
      intro q
      apply window_not_period hx hs hj
      intro h'
      exact hne (by rw [h, h'])
    · left
      intro q
      exact window_not_period hy hs hi h _ q

/-- C48: the transformation of `execute_alignkernel`: columns first. -/
theorem align_images (g : Img) (hy : 2 ≤ g.ny) (hx : 2 ≤ g.nx) (h00 : (fwd2 false .numpy g).v 0 0 ≠ 0) (h10 : (fwd2 false .numpy g).v 1 0 ≠ 0)
    (h01 : (fwd2 false .numpy g).v 0 1 ≠ 0) (henergy : 1 < energy2 g) (sy sx : ℤ) (sampling : ℕ) (m : Method) :
    ∃ ry rx : ℤ, Near g.ny sy ry ∧ Near g.nx sx rx ∧ alignKernel sampling m g (moved2 g sy sx) = some ((rx : ℝ), (ry : ℝ)) := by
  obtain ⟨F, G, hF, hG, ry, rx, h1, h2, h3⟩ := shift2_subpixels g hy hx h00 h10 h01 henergy sy sx sampling m
  refine ⟨ry, rx, h1, h2, ?_⟩
  unfold alignKernel
  have hm1 : (moved2 g sy sx).ny = g.ny := rfl
  have hm2 : (moved2 g sy sx).nx = g.nx := rfl
  rw [if_neg]
  · rw [hF, Option.bind_some, hG, Option.bind_some, h3, Option.map_some]
  · rw [hm1, hm2]
    rintro (h | h)
    · have : g.ny * 2 ≤ g.ny * g.nx := Nat.mul_le_mul_left _ hx
      omega
    · have : 2 * g.nx ≤ g.ny * g.nx := Nat.mul_le_mul_right _ hy
      omega

/-- C48: a single row or column is translated along itself. -/
theorem align_line (g : List ℂ) (hg : 2 ≤ g.length) (h0 : fwd g.length false .numpy (fun j => g.getD j 0) 0 ≠ 0)
    (h1 : fwd g.length false .numpy (fun j => g.getD j 0) 1 ≠ 0) (henergy : 1 < energy g) (s : ℤ) (sampling : ℕ) (m : Method) :
    ∃ r : ℤ, Near g.length s r ∧
      (∀ a b : Img, a.ny = 1 → flatten a = moved g s → flatten b = g → alignKernel sampling m b a = some ((r : ℝ), 0)) ∧
      (∀ a b : Img, a.nx = 1 → flatten a = moved g s → flatten b = g → alignKernel sampling m b a = some (0, (r : ℝ))) := by
  obtain ⟨F, G, hF, hG, r, hr, hrs, h⟩ := shift_subpixels g hg h0 h1 henergy s sampling m
  refine ⟨r, ⟨hr, hrs⟩, ?_, ?_⟩
  · intro a b ha hfa hfb
    unfold alignKernel
    rw [if_pos (by rw [ha]; simp), hfa, hfb, hF, Option.bind_some, hG, Option.bind_some, h, Option.map_some, if_pos ha]
  · intro a b ha hfa hfb
    have hlen : a.ny = g.length := by
      have := congrArg List.length hfa
      simp only [flatten, moved, List.length_map, List.length_range, ha, Nat.mul_one] at this
      exact this
    unfold alignKernel
    rw [if_pos (by rw [ha]; simp), hfa, hfb, hF, Option.bind_some, hG, Option.bind_some, h, Option.map_some, if_neg (by omega)]

/-- C48, end to end: the moved image, transformed by what was found, is the reference wherever the
reference did not leave the image, and the fill value elsewhere. -/
theorem align_restores (g : Img) (hy : 2 ≤ g.ny) (hx : 2 ≤ g.nx) (h00 : (fwd2 false .numpy g).v 0 0 ≠ 0) (h10 : (fwd2 false .numpy g).v 1 0 ≠ 0)
    (h01 : (fwd2 false .numpy g).v 0 1 ≠ 0) (henergy : 1 < energy2 g) (sy sx : ℤ) (sampling : ℕ) (m : Method) (interp : Img → ℝ → ℝ → ℂ) (cval : ℂ) :
    ∃ ry rx t, Near g.ny sy ry ∧ Near g.nx sx rx ∧ alignKernel sampling m g (moved2 g sy sx) = some t ∧
      ∀ i < g.ny, ∀ j < g.nx, (transformImage interp cval t (moved2 g sy sx)).v i j =
        if 0 ≤ (i : ℤ) + ry ∧ (i : ℤ) + ry < g.ny ∧ 0 ≤ (j : ℤ) + rx ∧ (j : ℤ) + rx < g.nx then g.v i j else cval := by
  obtain ⟨ry, rx, hry, hrx, ht⟩ := align_images g hy hx h00 h10 h01 henergy sy sx sampling m
  refine ⟨ry, rx, _, hry, hrx, ht, ?_⟩
  intro i hi j hj
  have hmv : moved2 g sy sx = moved2 g ry rx := (moved2_congr g hry.2 hrx.2).symm
  rw [hmv]
  unfold transformImage
  simp only
  split
  · next h0 =>
    have e1 : rx = 0 := by exact_mod_cast h0.1
    have e2 : ry = 0 := by exact_mod_cast h0.2
    rw [if_pos (by omega)]
    subst e1; subst e2
    simp only [moved2, neg_zero, rot_zero _ hi, rot_zero _ hj]
  · simp only [moved2, sub_neg_eq_add]
    have c1 : ((i : ℝ) + ry < 0) ↔ ((i : ℤ) + ry < 0) := by
      rw [← Int.cast_natCast, ← Int.cast_add]; exact_mod_cast Iff.rfl
    have c2 : ((g.ny : ℝ) - 1 < (i : ℝ) + ry) ↔ ((g.ny : ℤ) - 1 < (i : ℤ) + ry) := by
      constructor
      · intro h; exact_mod_cast (by push_cast; exact h : (((g.ny : ℤ) - 1 : ℤ) : ℝ) < (((i : ℤ) + ry : ℤ) : ℝ))
      · intro h; have : (((g.ny : ℤ) - 1 : ℤ) : ℝ) < (((i : ℤ) + ry : ℤ) : ℝ) := by exact_mod_cast h
        push_cast at this; exact this
    have c3 : ((j : ℝ) + rx < 0) ↔ ((j : ℤ) + rx < 0) := by
      rw [← Int.cast_natCast, ← Int.cast_add]; exact_mod_cast Iff.rfl
    have c4 : ((g.nx : ℝ) - 1 < (j : ℝ) + rx) ↔ ((g.nx : ℤ) - 1 < (j : ℤ) + rx) := by
      constructor
      · intro h; exact_mod_cast (by push_cast; exact h : (((g.nx : ℤ) - 1 : ℤ) : ℝ) < (((j : ℤ) + rx : ℤ) : ℝ))
      · intro h; have : (((g.nx : ℤ) - 1 : ℤ) : ℝ) < (((j : ℤ) + rx : ℤ) : ℝ) := by exact_mod_cast h
        push_cast at this; exact this
    simp only [c1, c2, c3, c4]
    by_cases hin : 0 ≤ (i : ℤ) + ry ∧ (i : ℤ) + ry < g.ny ∧ 0 ≤ (j : ℤ) + rx ∧ (j : ℤ) + rx < g.nx
    · rw [if_pos hin, if_neg (by omega), if_pos ⟨⟨(i : ℤ) + ry, by push_cast; ring⟩, ⟨(j : ℤ) + rx, by push_cast; ring⟩⟩]
      have f1 : ⌊(i : ℝ) + ry⌋ = (i : ℤ) + ry := by
        rw [show (i : ℝ) + ry = (((i : ℤ) + ry : ℤ) : ℝ) by push_cast; rfl, Int.floor_intCast]
      have f2 : ⌊(j : ℝ) + rx⌋ = (j : ℤ) + rx := by
        rw [show (j : ℝ) + rx = (((j : ℤ) + rx : ℤ) : ℝ) by push_cast; rfl, Int.floor_intCast]
      rw [f1, f2]
      have r1 : rot g.ny (-ry) ((i : ℤ) + ry).toNat = i := by
        unfold rot
        rw [Int.toNat_of_nonneg hin.1, show (i : ℤ) + ry + -ry = i by ring, Int.emod_eq_of_lt (by omega) (by omega)]
        simp
      have r2 : rot g.nx (-rx) ((j : ℤ) + rx).toNat = j := by
        unfold rot
        rw [Int.toNat_of_nonneg hin.2.2.1, show (j : ℤ) + rx + -rx = j by ring, Int.emod_eq_of_lt (by omega) (by omega)]
        simp
      rw [r1, r2]
    · rw [if_neg hin, if_pos (by omega)]

end SC.AlignFFT
