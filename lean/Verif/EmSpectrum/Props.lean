import Verif.EmSpectrum.Model
import Verif.ListTools.Props
import Mathlib.Algebra.Order.BigOperators.Group.List
import Mathlib.Tactic.Ring
import Mathlib.Tactic.Linarith
import Mathlib.Tactic.FieldSimp
/-! # C95: means over the lines of a spectrum -/
namespace SC.EmSpectrum
open SC.Lut SC.ListTools

/-- Specification: weighted sum over lines with their intensities. -/
def wsum (g : Rat → Rat) (l : List (Rat × Rat)) : Rat := (l.map fun p => g p.1 * p.2).sum

/-- Specification: `m` is the mean of `g` over the lines. -/
def IsMean (g : Rat → Rat) (l : List (Rat × Rat)) (m : Rat) : Prop :=
  (l.map (·.2)).sum ≠ 0 ∧ m * (l.map (·.2)).sum = wsum g l

theorem mapM_call (t : Lut.Lut Rat) (g : Rat → Rat) (hg : ∀ e, Lut.call t e = some (g e)) (l : List Rat) :
    l.mapM (Lut.call t) = some (l.map g) := by
  induction l with
  | nil => rfl
  | cons a l ih => rw [List.mapM_cons, hg, ih]; rfl

theorem zip_sum (f : Rat → Rat) (T : Rat) (xs ys : List Rat) (h : xs.length = ys.length) :
    (List.zipWith (fun a b => a * b) (xs.map f) (ys.map fun y => y / T)).sum = wsum f (xs.zip ys) / T := by
  induction xs generalizing ys with
  | nil => simp [wsum]
  | cons x xs ih =>
    cases ys with
    | nil => simp at h
    | cons y ys =>
      have := ih ys (by simpa using h)
      simp only [wsum, List.map_cons, List.zipWith_cons_cons, List.sum_cons, List.zip_cons_cons] at this ⊢
      rw [this]
      ring

/-- A sample is the mean of the table over the lines, in the units of the table. -/
theorem sample_mean (s t : Lut.Lut Rat) (conv g : Rat → Rat) (xs ys : List Rat) (hx : s.x = some xs) (hy : s.y = some ys)
    (hl : xs.length = ys.length) (ht : Lut.isempty t = false) (hg : ∀ e, Lut.call t e = some (g e)) (h0 : ys.sum ≠ 0) :
    ∃ m, sample s t conv = some m ∧ IsMean (fun e => g (conv e)) (xs.zip ys) m := by
  have hz : (xs.zip ys).map (·.2) = ys := List.map_snd_zip (by omega)
  refine ⟨wsum (fun e => g (conv e)) (xs.zip ys) / ys.sum, ?_, by rw [hz]; exact h0, by rw [hz]; field_simp⟩
  unfold sample
  rw [hx, hy]
  simp only [ht, Bool.false_eq_true, if_false, mapM_call t g hg, ratios, h0, List.map_map]
  rw [← zip_sum _ _ _ _ hl]
  rfl

/-- Without lines the sample is the default of the table, also for an empty table. -/
theorem sample_empty (s t : Lut.Lut Rat) (conv : Rat → Rat) :
    (s.x = none → sample s t conv = some t.default) ∧
    (∀ xs ys, s.x = some xs → s.y = some ys → xs.length = ys.length → ys.sum ≠ 0 → t = Lut.clear t.default →
      sample s t conv = some t.default) := by
  refine ⟨fun h => by unfold sample; rw [h], ?_⟩
  intro xs ys hx hy hl h0 ht
  have he : Lut.isempty t = true := by rw [ht]; rfl
  have hc : ∀ e, Lut.call t e = some ((fun _ => t.default) e) := by
    intro e
    unfold Lut.call
    rw [he]; rfl
  unfold sample
  rw [hx, hy]
  simp only [he, if_true, mapM_call t _ hc, ratios, h0, if_false]
  rw [zip_sum _ _ _ _ hl]
  have hw : ∀ (xs ys : List Rat), xs.length = ys.length → wsum (fun _ => t.default) (xs.zip ys) = t.default * ys.sum := by
    intro xs
    induction xs with
    | nil => intro ys h; cases ys with
      | nil => simp [wsum]
      | cons y ys => simp at h
    | cons x xs ih =>
      intro ys h
      cases ys with
      | nil => simp at h
      | cons y ys =>
        have := ih ys (by simpa using h)
        simp only [wsum, List.zip_cons_cons, List.map_cons, List.sum_cons] at this ⊢
        rw [this]; ring
  rw [hw xs ys hl]
  field_simp

/-- There is only one mean; for intensities that are not negative it is between the lowest and the highest value. -/
theorem mean_bounds (g : Rat → Rat) (l : List (Rat × Rat)) (m lo hi : Rat) (h : IsMean g l m) (hw : ∀ p ∈ l, 0 ≤ p.2)
    (hb : ∀ p ∈ l, lo ≤ g p.1 ∧ g p.1 ≤ hi) : lo ≤ m ∧ m ≤ hi ∧ ∀ m', IsMean g l m' → m' = m := by
  have hs : 0 ≤ (l.map (·.2)).sum := by
    apply List.sum_nonneg
    intro x hx
    obtain ⟨p, hp, rfl⟩ := List.mem_map.mp hx
    exact hw p hp
  have hpos : 0 < (l.map (·.2)).sum := lt_of_le_of_ne hs h.1.symm
  have key : lo * (l.map (·.2)).sum ≤ wsum g l ∧ wsum g l ≤ hi * (l.map (·.2)).sum := by
    clear h hs hpos
    induction l with
    | nil => simp [wsum]
    | cons p l ih =>
      obtain ⟨i1, i2⟩ := ih (fun q hq => hw q (List.mem_cons_of_mem _ hq)) fun q hq => hb q (List.mem_cons_of_mem _ hq)
      have b := hb p List.mem_cons_self
      have w := hw p List.mem_cons_self
      simp only [wsum, List.map_cons, List.sum_cons] at i1 i2 ⊢
      constructor <;> nlinarith [mul_le_mul_of_nonneg_right b.1 w, mul_le_mul_of_nonneg_right b.2 w]
  rw [← h.2] at key
  refine ⟨le_of_mul_le_mul_right key.1 hpos, le_of_mul_le_mul_right key.2 hpos, ?_⟩
  intro m' h'
  have := h'.2.trans h.2.symm
  exact mul_right_cancel₀ h.1 this

/-- Multiplying all intensities does not change the mean. -/
theorem mean_scale (g : Rat → Rat) (l : List (Rat × Rat)) (m c : Rat) (hc : c ≠ 0) (h : IsMean g l m) :
    IsMean g (l.map fun p => (p.1, c * p.2)) m := by
  have e1 : ((l.map fun p => (p.1, c * p.2)).map (·.2)).sum = c * (l.map (·.2)).sum := by
    rw [List.map_map]
    clear h
    induction l with
    | nil => simp
    | cons p l ih => simp only [List.map_cons, List.sum_cons, ih, Function.comp]; ring
  have e2 : wsum g (l.map fun p => (p.1, c * p.2)) = c * wsum g l := by
    unfold wsum
    rw [List.map_map]
    clear h e1
    induction l with
    | nil => simp
    | cons p l ih => simp only [List.map_cons, List.sum_cons, ih, Function.comp]; ring
  refine ⟨by rw [e1]; exact mul_ne_zero hc h.1, ?_⟩
  rw [e1, e2, ← h.2]; ring

theorem sum_ite (ks : List Rat) (hn : ks.Nodup) (k : Rat) (hk : k ∈ ks) (f : Rat → Rat) :
    (ks.map fun a => if k = a then f a else 0).sum = f k := by
  induction ks with
  | nil => simp at hk
  | cons a ks ih =>
    obtain ⟨h1, h2⟩ := List.nodup_cons.mp hn
    rcases List.mem_cons.mp hk with rfl | hk
    · have : (ks.map fun a => if k = a then f a else 0).sum = 0 := by
        apply List.sum_eq_zero
        intro x hx
        obtain ⟨b, hb, rfl⟩ := List.mem_map.mp hx
        rw [if_neg]
        rintro rfl
        exact h1 hb
      simp [this]
    · have hka : k ≠ a := fun e => h1 (e ▸ hk)
      simp [hka, ih h2 hk]

theorem total_sum (g : Rat → Rat) (ks : List Rat) (hn : ks.Nodup) (l : List (Rat × Rat)) (hk : ∀ p ∈ l, p.1 ∈ ks) :
    (ks.map fun k => g k * total k l).sum = wsum g l := by
  induction l with
  | nil => simp [total, wsum]
  | cons p l ih =>
    have i := ih fun q hq => hk q (List.mem_cons_of_mem _ hq)
    have e : ∀ k, g k * total k (p :: l) = (if p.1 = k then g k * p.2 else 0) + g k * total k l := by
      intro k
      unfold total
      by_cases h : p.1 = k
      · simp [h, mul_add]
      · simp [h]
    simp only [e]
    rw [List.sum_map_add, i, sum_ite ks hn p.1 (hk p List.mem_cons_self) fun k => g k * p.2]
    simp [wsum]

/-- Adding lines: all sums over the spectrum are those over both sets of lines, also when lines are the same. -/
theorem add_lines (s : Lut.Lut Rat) (xs ys x y : List Rat) (hs : (s.x = some xs ∧ s.y = some ys) ∨ (s.x = none ∧ xs = [] ∧ ys = []))
    (hl : xs.length = ys.length) (hl' : x.length = y.length) (hne : x ≠ []) :
    ∃ s' xs' ys', iadd (.discrete s) x y = some (.discrete s') ∧ s'.x = some xs' ∧ s'.y = some ys' ∧ xs'.length = ys'.length ∧
      xs'.Pairwise (· ≤ ·) ∧ xs'.Nodup ∧ ∀ g, wsum g (xs'.zip ys') = wsum g (x.zip y) + wsum g (xs.zip ys) := by
  have hj : Lut.joined s x y = (x ++ xs, y ++ ys) := by
    unfold Lut.joined
    rcases hs with ⟨h1, h2⟩ | ⟨h1, rfl, rfl⟩
    · rw [h1, h2]
    · rw [h1]; simp
  have hlen : (x ++ xs).length = (y ++ ys).length := by simp [hl, hl']
  obtain ⟨u1, u2⟩ := unique2listsAdd_spec (x ++ xs) (y ++ ys) hlen
  have hfk : uniqueEverseen id [] (x ++ xs) = firstKeys (x ++ xs) := by
    rw [uniqueEverseen_spec]; simp [firstKeys]
  have hnd : (firstKeys (x ++ xs)).Nodup := by
    rw [← hfk]; simpa using (uniqueEverseen_nodup id (x ++ xs)).1
  have hmem : ∀ k ∈ x ++ xs, k ∈ firstKeys (x ++ xs) := by
    intro k hk
    have := (uniqueEverseen_nodup id (x ++ xs)).2.1 k
    rw [hfk] at this
    simpa using this.mpr (by simpa using hk)
  have hfne : firstKeys (x ++ xs) ≠ [] := by
    obtain ⟨a, ha⟩ := List.exists_mem_of_ne_nil x hne
    exact List.ne_nil_of_mem (hmem a (List.mem_append_left _ ha))
  obtain ⟨s1, s2, hs12, l1, l2, hp, hsorted, _⟩ := sort2lists_spec (firstKeys (x ++ xs))
    ((firstKeys (x ++ xs)).map (fun k => total k ((x ++ xs).zip (y ++ ys)))) (by simp) hfne
  have hz1 : (s1.zip s2).map Prod.fst = s1 := List.map_fst_zip (by omega)
  have hp1 : s1.Perm (firstKeys (x ++ xs)) := by
    have := hp.map Prod.fst
    rw [hz1, List.map_fst_zip (by simp)] at this
    exact this
  unfold iadd Lut.newData Lut.uniq
  simp only [hj, if_true]
  rw [u1, u2]
  simp only [hs12]
  refine ⟨_, s1, s2, rfl, rfl, rfl, by omega, hsorted, hp1.nodup_iff.mpr hnd, ?_⟩
  intro g
  have e1 : wsum g (s1.zip s2) = wsum g ((firstKeys (x ++ xs)).zip ((firstKeys (x ++ xs)).map (fun k => total k ((x ++ xs).zip (y ++ ys))))) :=
    (hp.map _).sum_eq
  rw [e1]
  have e2 : ∀ (ks : List Rat) (f : Rat → Rat), wsum g (ks.zip (ks.map f)) = (ks.map fun k => g k * f k).sum := by
    intro ks f
    induction ks with
    | nil => rfl
    | cons k ks ih => simp only [wsum, List.map_cons, List.zip_cons_cons, List.sum_cons] at ih ⊢; rw [ih]
  rw [e2, total_sum g _ hnd _ fun p hp => hmem p.1 (List.of_mem_zip hp).1, List.zip_append hl']
  simp [wsum]

/-- Adding to a dark source leaves nothing, and adding again raises. -/
theorem dark_lost (x y : List Rat) : iadd .dark x y = some .nothing ∧ (iadd .dark x y).bind (fun s => iadd s x y) = none := ⟨rfl, rfl⟩

/-- Intensities with sum zero have no mean. -/
theorem sample_zero (s t : Lut.Lut Rat) (conv : Rat → Rat) (xs ys : List Rat) (hx : s.x = some xs) (hy : s.y = some ys) (h : ys.sum = 0) :
    sample s t conv = none := by
  unfold sample
  rw [hx, hy]
  simp only [ratios, h, if_true]
  split <;> simp_all

example : IsMean (fun e => e) [(1, 1), (4, 2)] 3 := by constructor <;> norm_num [wsum]
example : sample ⟨some [1, 4], some [1, 2], none, 0⟩ ⟨some [0], some [5], some (.const 5), 0⟩ id = some 5 := by decide +kernel

end SC.EmSpectrum
