import Verif.Compound.Lemmas
/-! # Lemmas about fractions -/
namespace SC.Compound
open SC.Stoich

set_option linter.unusedSectionVars false
variable {K : Type} [Field K] [LinearOrder K] [IsStrictOrderedRing K]
variable {E α β : Type} [DecidableEq E] [DecidableEq β]

/-- Shares of the total in some unit. -/
def shares (g : α → K) (d : Items α K) : Items α K := d.map fun p => (p.1, p.2 * g p.1 / wsum g d)

theorem normalize_eq (d : Items α K) : normalize d = shares (fun _ => 1) d := by
  simp [normalize, shares, wsum_one, total_vals]
theorem moleToWeight_eq (d : Items α K) (MM : α → K) : moleToWeight d MM = shares MM d := by
  simp [moleToWeight, shares, wsum_eq]
theorem moleToVolume_eq (d : Items α K) (rho MM : α → K) :
    moleToVolume d rho MM = shares (fun a => MM a / rho a) d := by
  have : (d.map fun p => p.2 * MM p.1 / rho p.1).sum = wsum (fun a => MM a / rho a) d := by
    rw [← wsum_eq]; simp [mul_div_assoc]
  simp only [moleToVolume, shares, this]
  refine List.map_congr_left fun p _ => ?_
  rw [← mul_div_assoc, div_div]

theorem names_shares (key : α → β) (g : α → K) (d : Items α K) : names key (shares g d) = names key d := by
  simp [names, shares, Function.comp_def]
theorem shares_inUnits (g : α → K) (d : Items α K) :
    shares g d = inUnits (fun a => g a / wsum g d) d := by
  simp [shares, inUnits, mul_div_assoc]
theorem shares_eq_scale (g : α → K) (d : Items α K) :
    shares g d = inUnits (fun _ => (wsum g d)⁻¹) (inUnits g d) := by
  simp [shares, inUnits, div_eq_mul_inv]
theorem amount_shares (key : α → β) (g : α → K) (d : Items α K) (b : β) :
    amount key (shares g d) b = amount key (inUnits g d) b / total (inUnits g d) := by
  rw [shares_eq_scale, amount_map key _ _ b _ fun _ _ _ => rfl, div_eq_mul_inv]; rfl
theorem total_shares (g : α → K) (d : Items α K) (h : total (inUnits g d) ≠ 0) : total (shares g d) = 1 := by
  rw [shares_eq_scale, total_scale]; exact mul_inv_cancel₀ h
theorem keys_shares (g : α → K) (d : Items α K) : keys (shares g d) = keys d := by
  simp [keys, shares, Function.comp_def]
theorem shares_nonneg (g : α → K) (d : Items α K) (h : Proper d) (hg : ∀ p ∈ d, 0 < g p.1) :
    ∀ p ∈ shares g d, 0 ≤ p.2 := by
  intro p hp
  obtain ⟨q, hq, rfl⟩ := List.mem_map.mp hp
  exact div_nonneg (mul_nonneg (h.nonneg q hq) (hg q hq).le) (h.inUnits g hg).pos.le

/-- From shares of some kind back to moles, up to a common factor `k`. -/
def toMoles (g : α → K) (k : K) (l : Items α K) : Items α K := l.map fun p => (p.1, p.2 / g p.1 * k)

theorem toMoles_eq (g : α → K) (k : K) (l : Items α K) : toMoles g k l = inUnits (fun a => (g a)⁻¹ * k) l := by
  simp [toMoles, inUnits, div_eq_mul_inv, mul_assoc]
theorem names_toMoles (key : α → β) (g : α → K) (k : K) (l : Items α K) :
    names key (toMoles g k l) = names key l := by simp [names, toMoles, Function.comp_def]
theorem keys_toMoles (g : α → K) (k : K) (l : Items α K) : keys (toMoles g k l) = keys l := by
  simp [keys, toMoles, Function.comp_def]

theorem Respects.toMoles {key : α → β} {g f : α → K} {l : Items α K} (h : Respects key f l) (k : K) :
    Respects key f (toMoles g k l) := by
  intro p hp q hq e
  obtain ⟨p', hp', rfl⟩ := List.mem_map.mp hp
  obtain ⟨q', hq', rfl⟩ := List.mem_map.mp hq
  exact h p' hp' q' hq' e

theorem wsum_toMoles (g : α → K) (k : K) (l : Items α K) (hg : ∀ p ∈ l, g p.1 ≠ 0) :
    wsum g (toMoles g k l) = total l * k := by
  induction l with
  | nil => simp [toMoles, wsum, inUnits, total]
  | cons p l ih =>
    obtain ⟨a, n⟩ := p
    have h0 : g a ≠ 0 := hg (a, n) (List.mem_cons_self ..)
    have := ih fun p hp => hg p (List.mem_cons_of_mem _ hp)
    simp only [toMoles, List.map_cons] at this ⊢
    rw [wsum_cons, total_cons, this]
    field_simp

/-- All components of a dictionary with the name of a component of `l` give the same `g`. -/
theorem respects_compose {key : α → β} {g : α → K} {l : Items α K} (h : Respects key g l) :
    Respects key g (compose key l) := by
  intro p hp q hq e
  have hp' := keys_compose key l p.1 (List.mem_map.mpr ⟨p, hp, rfl⟩)
  have hq' := keys_compose key l q.1 (List.mem_map.mpr ⟨q, hq, rfl⟩)
  obtain ⟨m, hm⟩ := mem_keys.mp hp'
  obtain ⟨m', hm'⟩ := mem_keys.mp hq'
  exact h (p.1, m) hm (q.1, m') hm' e

/-- Composing from shares of some kind and asking for the shares of that kind gives them back,
merged and normalised. -/
theorem shares_compose (key : α → β) (g : α → K) (k : K) (l : Items α K) (hg : ∀ p ∈ l, g p.1 ≠ 0) (hk : k ≠ 0)
    (hr : Respects key g l) :
    IsTable key (shares g (compose key (toMoles g k l))) (names key l) (fun b => amount key l b / total l) := by
  refine isTable_of key _ _ _ ?_ ?_ ?_
  · rw [names_shares]; exact compose_nodup key _
  · intro b; rw [names_shares, compose_names, names_toMoles]
  · intro b hb
    have hr2 : Respects key g (toMoles g k l) := hr.toMoles k
    have hr3 := respects_compose hr2
    obtain ⟨⟨a, n⟩, hp, rfl⟩ := List.mem_map.mp hb
    have ht : total (inUnits g (compose key (toMoles g k l))) = total l * k := by
      have := wsum_compose key g _ hr2
      rw [wsum_toMoles g k l hg] at this
      exact this
    have hga : g a ≠ 0 := hg (a, n) hp
    rw [amount_shares, ht]
    rw [amount_map key g _ (key a) (g a), compose_amount, toMoles_eq,
      amount_map key _ l (key a) ((g a)⁻¹ * k)]
    · rw [show amount key l (key a) * ((g a)⁻¹ * k) * g a = amount key l (key a) * k by field_simp]
      rw [mul_div_mul_right _ _ hk]
    · intro q hq e
      rw [hr q hq (a, n) hp e]
    · intro q hq e
      obtain ⟨m, hm⟩ := mem_keys.mp (keys_compose key _ q.1 (List.mem_map.mpr ⟨q, hq, rfl⟩))
      obtain ⟨q', hq', e'⟩ := List.mem_map.mp hm
      simp only [Prod.mk.injEq] at e'
      rw [← e'.1]
      exact hr q' hq' (a, n) hp (by rw [e'.1]; exact e)

theorem Proper.toMoles {l : Items α K} (h : Proper l) (g : α → K) (k : K) (hg : ∀ p ∈ l, 0 < g p.1) (hk : 0 < k) :
    Proper (toMoles g k l) := by
  rw [toMoles_eq]
  exact h.inUnits _ fun p hp => mul_pos (inv_pos.mpr (hg p hp)) hk

/-- A merged and normalised composition keeps its total. -/
theorem total_toMoles_norm (g : α → K) (l : Items α K) (h : wsum (fun a => (g a)⁻¹) l ≠ 0) :
    total (toMoles g (wsum (fun a => (g a)⁻¹) l)⁻¹ l) = 1 := by
  have : toMoles g (wsum (fun a => (g a)⁻¹) l)⁻¹ l = shares (fun a => (g a)⁻¹) l := by
    simp [toMoles, shares, div_eq_mul_inv]
  rw [this]; exact total_shares _ _ h

/-! ## arrays -/

theorem zip_fst (a : List α) (b : List K) (h : a.length = b.length) : keys (a.zip b) = a := by
  simp only [keys]; exact List.map_fst_zip (by omega)
theorem zip_snd (a : List α) (b : List K) (h : a.length = b.length) : vals (a.zip b) = b := by
  simp only [vals]; exact List.map_snd_zip (by omega)
theorem zip_keys_vals (d : Items α K) : (keys d).zip (vals d) = d := by
  induction d with
  | nil => rfl
  | cons p d ih => obtain ⟨a, n⟩ := p; simp only [keys, vals, List.map_cons, List.zip_cons_cons] at ih ⊢; rw [ih]
theorem vals_length (d : Items α K) : (vals d).length = d.length := by simp [vals]
theorem keys_length (d : Items α K) : (keys d).length = d.length := by simp [keys]

theorem weightToMole_eq (els : List α) (MM : α → K) (w : List K) (h : els.length = w.length) :
    ∃ n, weightToMole w (els.map MM) = some n ∧
      els.zip n = toMoles MM (wsum (fun a => (MM a)⁻¹) (els.zip w))⁻¹ (els.zip w) := by
  have hb : bcast w (els.map MM) = some ((els.zip w).map fun p => (p.2, MM p.1)) := by
    have : w.zip (els.map MM) = (els.zip w).map fun p => (p.2, MM p.1) := by
      rw [List.zip_map_right, ← List.zip_swap, List.map_map]; rfl
    simp only [bcast, List.length_map, h, if_true, this]
  refine ⟨_, by simp only [weightToMole, hb, Option.map_some]; rfl, ?_⟩
  have hs : (((els.zip w).map fun p => (p.2, MM p.1)).map fun p => p.1 / p.2).sum
      = wsum (fun a => (MM a)⁻¹) (els.zip w) := by
    rw [← wsum_eq, List.map_map]
    congr 1
    refine List.map_congr_left fun p _ => ?_
    simp only [Function.comp, div_eq_mul_inv]
  simp only [hs]
  generalize wsum (fun a => (MM a)⁻¹) (els.zip w) = s
  clear hs hb
  induction els generalizing w with
  | nil => rfl
  | cons e els ih =>
    cases w with
    | nil => rfl
    | cons x w =>
      simp only [List.length_cons, Nat.add_right_cancel_iff] at h
      have := ih w h
      simp only [List.zip_cons_cons, List.map_cons, toMoles] at this ⊢
      rw [this]
      congr 2
      rw [← div_div, div_eq_mul_inv _ s]

theorem volumeToMole_eq (els : List α) (rho MM : α → K) (w : List K) (h : els.length = w.length) :
    ∃ n, volumeToMole w (els.map rho) (els.map MM) = some n ∧
      els.zip n = toMoles (fun a => MM a / rho a) (wsum (fun a => (MM a / rho a)⁻¹) (els.zip w))⁻¹ (els.zip w) := by
  have hz : (els.map rho).zip (els.map MM) = els.map fun a => (rho a, MM a) := by
    rw [List.zip_map']
  have hb : bcast w ((els.map rho).zip (els.map MM)) = some ((els.zip w).map fun p => (p.2, rho p.1, MM p.1)) := by
    have : w.zip ((els.map rho).zip (els.map MM)) = (els.zip w).map fun p => (p.2, rho p.1, MM p.1) := by
      rw [hz, List.zip_map_right, ← List.zip_swap, List.map_map]; rfl
    rw [hz] at this ⊢
    simp only [bcast, List.length_map, h, if_true, this]
  refine ⟨_, by simp only [volumeToMole, hb, Option.map_some]; rfl, ?_⟩
  have hs : (((els.zip w).map fun p => (p.2, rho p.1, MM p.1)).map fun p => p.1 * p.2.1 / p.2.2).sum
      = wsum (fun a => (MM a / rho a)⁻¹) (els.zip w) := by
    rw [← wsum_eq, List.map_map]
    congr 1
    refine List.map_congr_left fun p _ => ?_
    simp only [Function.comp, inv_div]; rw [mul_div_assoc]
  simp only [hs]
  generalize wsum (fun a => (MM a / rho a)⁻¹) (els.zip w) = s
  clear hs hb hz
  induction els generalizing w with
  | nil => rfl
  | cons e els ih =>
    cases w with
    | nil => rfl
    | cons x w =>
      simp only [List.length_cons, Nat.add_right_cancel_iff] at h
      have := ih w h
      simp only [List.zip_cons_cons, List.map_cons, toMoles] at this ⊢
      rw [this]
      congr 2
      rw [← div_div, div_eq_mul_inv _ s, div_div_eq_mul_div]

/-! ## adding components -/

theorem addFrac_items (old : Items α K) (els : List α) (f : List K) (h : els.length = f.length) (hF : f.sum ≤ 1) :
    ∃ n, addFrac (vals old) f = some n ∧ (keys old ++ els).length = n.length ∧
      (keys old ++ els).zip n
        = inUnits (fun _ => 1 - f.sum) old ++ inUnits (fun _ => total old) (els.zip f) := by
  have hx : max (1 - f.sum) 0 = 1 - f.sum := max_eq_left (by linarith)
  refine ⟨(vals old).map (· * (1 - f.sum)) ++ f.map (· * (vals old).sum),
    by simp only [addFrac, gt_iff_lt, not_lt.mpr hF, if_false, hx], by simp [keys, vals, h], ?_⟩
  rw [List.zip_append (by simp [keys, vals])]
  congr 1
  · rw [List.zip_map_right, zip_keys_vals]; rfl
  · rw [List.zip_map_right]; rfl

end SC.Compound
