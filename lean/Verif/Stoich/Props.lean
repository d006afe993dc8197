import Verif.Stoich.Model
import Verif.Stoich.Spec
import Mathlib.Algebra.BigOperators.Field
import Mathlib.Tactic.FinCases
import Mathlib.Tactic.FieldSimp
import Mathlib.Tactic.Ring
import Mathlib.Tactic.NormNum
import Mathlib.Tactic.Positivity
import Mathlib.Tactic.Linarith
/-! # C15: composition fractions -/
namespace SC.Stoich
open Finset

set_option linter.unusedSectionVars false

variable {K : Type} [Field K] [LinearOrder K] [IsStrictOrderedRing K] {n : Nat}

theorem sum_pos_of {f : Fin n → K} (h : ∀ i, 0 ≤ f i) (hs : ∃ i, 0 < f i) : 0 < ∑ i, f i := by
  obtain ⟨i, hi⟩ := hs
  exact Finset.sum_pos' (fun i _ => h i) ⟨i, Finset.mem_univ i, hi⟩

theorem Mix.Valid.mass_sum {m : Mix K n} (h : m.Valid) : 0 < ∑ j, m.mass j := sum_pos_of h.mass_nonneg h.some_mass
theorem Mix.Valid.moles_sum {m : Mix K n} (h : m.Valid) : 0 < ∑ j, m.moles j :=
  sum_pos_of (fun i => div_nonneg (h.mass_nonneg i) (h.MM_pos i).le)
    (by obtain ⟨i, hi⟩ := h.some_mass; exact ⟨i, div_pos hi (h.MM_pos i)⟩)
theorem Mix.Valid.vol_sum {m : Mix K n} (h : m.Valid) : 0 < ∑ j, m.vol j :=
  sum_pos_of (fun i => div_nonneg (h.mass_nonneg i) (h.rho_pos i).le)
    (by obtain ⟨i, hi⟩ := h.some_mass; exact ⟨i, div_pos hi (h.rho_pos i)⟩)

theorem share_fractions {f : Fin n → K} (h : ∀ i, 0 ≤ f i) (hs : 0 < ∑ i, f i) : Fractions (share f) := by
  refine ⟨fun i => div_nonneg (h i) hs.le, ?_⟩
  simp only [share]
  rw [← Finset.sum_div, div_self hs.ne']

/-- Shares do not change when all amounts are scaled. -/
theorem share_scale (f g : Fin n → K) (c : K) (hc : c ≠ 0) (h : ∀ i, g i = c * f i) : share g = share f := by
  funext i
  simp only [share, h]
  rw [← Finset.mul_sum, mul_div_mul_left _ _ hc]

/-- **C15.**  Every conversion maps the fractions of one kind of a mixture to the fractions of the
other kind. -/
theorem conversions_correct (m : Mix K n) (h : m.Valid) :
    fracMoleToWeight m.x m.MM = m.w ∧ fracWeightToMole m.w m.MM = m.x ∧
    fracWeightToVolume m.w m.rho = m.v ∧ fracVolumeToWeight m.v m.rho = m.w ∧
    fracVolumeToMole m.v m.rho m.MM = m.x ∧ fracMoleToVolume m.x m.rho m.MM = m.v := by
  have hm := h.mass_sum
  have hx := h.moles_sum
  have hv := h.vol_sum
  have M0 : ∀ i, m.MM i ≠ 0 := fun i => (h.MM_pos i).ne'
  have R0 : ∀ i, m.rho i ≠ 0 := fun i => (h.rho_pos i).ne'
  have div_form : ∀ a b : Fin n → K, (fun i => a i / (b i * ∑ j, a j / b j)) = share (fun i => a i / b i) := by
    intro a b; funext i; simp only [share]; rw [div_div]
  refine ⟨?_, ?_, ?_, ?_, ?_, ?_⟩
  · exact share_scale m.mass _ (∑ j, m.moles j)⁻¹ (inv_ne_zero hx.ne')
      (fun i => by simp only [Mix.x, share, Mix.moles]; field_simp [M0 i])
  · unfold fracWeightToMole
    rw [div_form]
    exact share_scale m.moles _ (∑ j, m.mass j)⁻¹ (inv_ne_zero hm.ne')
      (fun i => by simp only [Mix.w, share, Mix.moles]; rw [div_right_comm, div_eq_inv_mul])
  · unfold fracWeightToVolume
    rw [div_form]
    exact share_scale m.vol _ (∑ j, m.mass j)⁻¹ (inv_ne_zero hm.ne')
      (fun i => by simp only [Mix.w, share, Mix.vol]; rw [div_right_comm, div_eq_inv_mul])
  · exact share_scale m.mass _ (∑ j, m.vol j)⁻¹ (inv_ne_zero hv.ne')
      (fun i => by simp only [Mix.v, share, Mix.vol]; field_simp [R0 i])
  · unfold fracVolumeToMole
    rw [div_form (fun i => m.v i * m.rho i) m.MM]
    exact share_scale m.moles _ (∑ j, m.vol j)⁻¹ (inv_ne_zero hv.ne')
      (fun i => by simp only [Mix.v, share, Mix.vol, Mix.moles]; field_simp [R0 i, M0 i])
  · unfold fracMoleToVolume
    rw [div_form (fun i => m.x i * m.MM i) m.rho]
    exact share_scale m.vol _ (∑ j, m.moles j)⁻¹ (inv_ne_zero hx.ne')
      (fun i => by simp only [Mix.x, share, Mix.vol, Mix.moles]; field_simp [R0 i, M0 i])

/-- The fractions of a mixture are normalised. -/
theorem mix_fractions (m : Mix K n) (h : m.Valid) : Fractions m.w ∧ Fractions m.x ∧ Fractions m.v :=
  ⟨share_fractions h.mass_nonneg h.mass_sum,
   share_fractions (fun i => div_nonneg (h.mass_nonneg i) (h.MM_pos i).le) h.moles_sum,
   share_fractions (fun i => div_nonneg (h.mass_nonneg i) (h.rho_pos i).le) h.vol_sum⟩

/-- **C15.**  The molar mass and the three densities are those of the mixture. -/
theorem densities_correct (m : Mix K n) (h : m.Valid) :
    molarmassFromWfrac m.w m.MM = m.molarmass ∧ densityFromMassfrac m.w m.rho = m.density ∧
    densityFromVolumefrac m.v m.rho = m.density ∧ densityFromMolefrac m.x m.rho m.MM = m.density := by
  have hm := h.mass_sum
  have hx := h.moles_sum
  have hv := h.vol_sum
  have M0 : ∀ i, m.MM i ≠ 0 := fun i => (h.MM_pos i).ne'
  have R0 : ∀ i, m.rho i ≠ 0 := fun i => (h.rho_pos i).ne'
  refine ⟨?_, ?_, ?_, ?_⟩
  · have : ∑ j, m.w j / m.MM j = (∑ j, m.moles j) / ∑ j, m.mass j := by
      rw [Finset.sum_div]
      exact Finset.sum_congr rfl fun i _ => by simp only [Mix.w, share, Mix.moles]; rw [div_right_comm]
    simp only [molarmassFromWfrac, this, Mix.molarmass, one_div_div]
  · have : ∑ j, m.w j / m.rho j = (∑ j, m.vol j) / ∑ j, m.mass j := by
      rw [Finset.sum_div]
      exact Finset.sum_congr rfl fun i _ => by simp only [Mix.w, share, Mix.vol]; rw [div_right_comm]
    simp only [densityFromMassfrac, this, Mix.density, one_div_div]
  · simp only [densityFromVolumefrac, Mix.density]
    rw [Finset.sum_div]
    exact Finset.sum_congr rfl fun i _ => by simp only [Mix.v, share, Mix.vol]; field_simp [R0 i]
  · have e1 : ∑ j, m.x j * m.MM j = (∑ j, m.mass j) / ∑ j, m.moles j := by
      rw [Finset.sum_div]
      exact Finset.sum_congr rfl fun i _ => by simp only [Mix.x, share, Mix.moles]; field_simp [M0 i]
    have e2 : ∑ j, m.x j * m.MM j / m.rho j = (∑ j, m.vol j) / ∑ j, m.moles j := by
      rw [Finset.sum_div]
      exact Finset.sum_congr rfl fun i _ => by simp only [Mix.x, share, Mix.moles, Mix.vol]; field_simp [M0 i, R0 i]
    simp only [densityFromMolefrac, e1, e2, Mix.density]
    rw [div_div_div_cancel_right₀ hx.ne']

theorem share_self {f : Fin n → K} (h : ∑ i, f i = 1) : share f = f := by
  funext i; simp [share, h]

theorem exists_pos_of_fractions {f : Fin n → K} (h : Fractions f) : ∃ i, 0 < f i := by
  by_contra hc
  push Not at hc
  have : ∑ i, f i ≤ 0 := Finset.sum_nonpos fun i _ => hc i
  rw [h.2] at this
  exact absurd this (not_le.mpr one_pos)

/-- **C15.**  Round trips: from any normalised fractions, each conversion followed by its reverse
gives the fractions back, and every intermediate result is normalised. -/
theorem roundtrips (f MM rho : Fin n → K) (hf : Fractions f) (hM : ∀ i, 0 < MM i) (hr : ∀ i, 0 < rho i) :
    (fracWeightToMole (fracMoleToWeight f MM) MM = f ∧ Fractions (fracMoleToWeight f MM)) ∧
    (fracMoleToWeight (fracWeightToMole f MM) MM = f ∧ Fractions (fracWeightToMole f MM)) ∧
    (fracVolumeToWeight (fracWeightToVolume f rho) rho = f ∧ Fractions (fracWeightToVolume f rho)) ∧
    (fracWeightToVolume (fracVolumeToWeight f rho) rho = f ∧ Fractions (fracVolumeToWeight f rho)) ∧
    (fracVolumeToMole (fracMoleToVolume f rho MM) rho MM = f ∧ Fractions (fracMoleToVolume f rho MM)) ∧
    (fracMoleToVolume (fracVolumeToMole f rho MM) rho MM = f ∧ Fractions (fracVolumeToMole f rho MM)) := by
  obtain ⟨k, hk⟩ := exists_pos_of_fractions hf
  -- the mixtures with these weight, mole and volume fractions
  let mw : Mix K n := ⟨f, MM, rho⟩
  let mx : Mix K n := ⟨fun i => f i * MM i, MM, rho⟩
  let mv : Mix K n := ⟨fun i => f i * rho i, MM, rho⟩
  have vw : mw.Valid := ⟨hf.1, ⟨k, hk⟩, hM, hr⟩
  have vx : mx.Valid := ⟨fun i => mul_nonneg (hf.1 i) (hM i).le, ⟨k, mul_pos hk (hM k)⟩, hM, hr⟩
  have vv : mv.Valid := ⟨fun i => mul_nonneg (hf.1 i) (hr i).le, ⟨k, mul_pos hk (hr k)⟩, hM, hr⟩
  have ew : mw.w = f := share_self hf.2
  have ex : mx.x = f := by
    have : mx.moles = f := by funext i; simp [mx, Mix.moles, (hM i).ne']
    simp only [Mix.x, this]; exact share_self hf.2
  have ev : mv.v = f := by
    have : mv.vol = f := by funext i; simp [mv, Mix.vol, (hr i).ne']
    simp only [Mix.v, this]; exact share_self hf.2
  obtain ⟨w1, w2, w3, w4, w5, w6⟩ := conversions_correct mw vw
  obtain ⟨x1, x2, x3, x4, x5, x6⟩ := conversions_correct mx vx
  obtain ⟨v1, v2, v3, v4, v5, v6⟩ := conversions_correct mv vv
  have fw := mix_fractions mw vw
  have fx := mix_fractions mx vx
  have fv := mix_fractions mv vv
  rw [ew] at w2 w3
  rw [ex] at x1 x6
  rw [ev] at v4 v5
  have hMw : mw.MM = MM := rfl
  have hMx : mx.MM = MM := rfl
  have hMv : mv.MM = MM := rfl
  have hRw : mw.rho = rho := rfl
  have hRx : mx.rho = rho := rfl
  have hRv : mv.rho = rho := rfl
  rw [hMw] at w1 w2; rw [hRw] at w3 w4
  rw [hMx] at x1 x2; rw [hMx, hRx] at x5 x6
  rw [hRv] at v3 v4; rw [hMv, hRv] at v5 v6
  refine ⟨⟨?_, ?_⟩, ⟨?_, ?_⟩, ⟨?_, ?_⟩, ⟨?_, ?_⟩, ⟨?_, ?_⟩, ⟨?_, ?_⟩⟩
  · rw [x1, x2, ex]
  · rw [x1]; exact fx.1
  · rw [w2, w1, ew]
  · rw [w2]; exact fw.2.1
  · rw [w3, w4, ew]
  · rw [w3]; exact fw.2.2
  · rw [v4, v3, ev]
  · rw [v4]; exact fv.1
  · rw [x6, x5, ex]
  · rw [x6]; exact fx.2.2
  · rw [v5, v6, ev]
  · rw [v5]; exact fv.2.1

/-- **C15.**  `add_frac` appends the new compounds with exactly the wanted fractions of the total,
scales the old ones evenly and keeps the total. -/
theorem addFrac_spec (x f : List K) (h : f.sum ≤ 1) :
    ∃ y, addFrac x f = some y ∧ y.sum = x.sum ∧ y.length = x.length + f.length ∧
    y.drop x.length = f.map (· * y.sum) ∧ y.take x.length = x.map (· * (1 - f.sum)) := by
  have hx : max (1 - f.sum) 0 = 1 - f.sum := max_eq_left (by linarith)
  have smul : ∀ (l : List K) (c : K), (l.map (· * c)).sum = l.sum * c := by
    intro l c
    induction l with
    | nil => simp
    | cons a l ih => simp only [List.map_cons, List.sum_cons, ih]; ring
  have hs : (x.map (· * (1 - f.sum)) ++ f.map (· * x.sum)).sum = x.sum := by
    rw [List.sum_append, smul, smul]; ring
  refine ⟨x.map (· * (1 - f.sum)) ++ f.map (· * x.sum), ?_, hs, by simp, ?_, ?_⟩
  · simp only [addFrac, gt_iff_lt, not_lt.mpr h, if_false, hx]
  · rw [hs, List.drop_append_of_le_length (by simp)]; simp
  · rw [List.take_append_of_le_length (by simp)]; simp

/-- **C15.**  More than everything is refused. -/
theorem addFrac_refuses (x f : List K) (h : 1 < f.sum) : addFrac x f = none := by
  simp [addFrac, h]

/-! ## concrete cases -/

/-- water as a mixture of H2 and O -/
def water : Mix ℚ 2 := ⟨![2, 16], ![1, 16], ![1/10, 1]⟩
theorem water_valid : water.Valid :=
  ⟨by intro i; fin_cases i <;> simp [water], ⟨0, by simp [water]⟩, by intro i; fin_cases i <;> simp [water],
   by intro i; fin_cases i <;> simp [water]⟩
example : fracMoleToWeight water.x water.MM = water.w := (conversions_correct water water_valid).1
example : fracMoleToWeight ![2/3, 1/3] ![1, (16 : ℚ)] 0 = 1/9 := by
  simp [fracMoleToWeight, Fin.sum_univ_two]; norm_num
example : Fractions (![2/3, 1/3] : Fin 2 → ℚ) := by
  refine ⟨by intro i; fin_cases i <;> simp <;> norm_num, by simp [Fin.sum_univ_two]; norm_num⟩
example : addFrac [1, 3] [1/2, (1/4 : ℚ)] = some [1/4, 3/4, 2, 1] := by
  norm_num [addFrac]
example : addFrac [1, 3] [1/2, (3/4 : ℚ)] = none := addFrac_refuses _ _ (by norm_num)
example : ([1/2, 1/4] : List ℚ).sum ≤ 1 := by norm_num

end SC.Stoich
