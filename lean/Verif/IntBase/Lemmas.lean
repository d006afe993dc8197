import Verif.IntBase.Model
/-! Helper lemmas about the integer base model. -/
namespace SC.IntBase

theorem emit_zero (b : Nat) : emit b 0 = [] := by rw [emit]; simp
theorem emit_pos {b x : Nat} (hb : 2 ≤ b) (hx : x ≠ 0) :
    emit b x = (x % b) :: emit b (x / b) := by
  rw [emit]; simp [loopStep, hx, Nat.not_lt.mpr hb]

theorem emit_lt {b : Nat} (hb : 2 ≤ b) (x : Nat) : ∀ d ∈ emit b x, d < b := by
  induction x using Nat.strongRecOn with
  | ind x ih =>
    by_cases hx : x = 0
    · subst hx; simp [emit_zero]
    · rw [emit_pos hb hx]
      intro d hd
      rcases List.mem_cons.mp hd with h | h
      · subst h; exact Nat.mod_lt _ (by omega)
      · exact ih _ (Nat.div_lt_self (by omega) (by omega)) d h

/-- value of a least-significant-first list -/
def lsValue (b : Nat) : List Nat → Nat
  | [] => 0
  | d :: ds => d + b * lsValue b ds

theorem lsValue_emit {b : Nat} (hb : 2 ≤ b) (x : Nat) : lsValue b (emit b x) = x := by
  induction x using Nat.strongRecOn with
  | ind x ih =>
    by_cases hx : x = 0
    · subst hx; simp [emit_zero, lsValue]
    · rw [emit_pos hb hx, lsValue, ih _ (Nat.div_lt_self (by omega) (by omega))]
      exact Nat.mod_add_div x b

theorem emit_ne_nil {b x : Nat} (hb : 2 ≤ b) (hx : x ≠ 0) : emit b x ≠ [] := by
  rw [emit_pos hb hx]; simp

theorem emit_getLast {b : Nat} (hb : 2 ≤ b) (x : Nat) (h : emit b x ≠ []) :
    (emit b x).getLast h ≠ 0 := by
  induction x using Nat.strongRecOn with
  | ind x ih =>
    by_cases hx : x = 0
    · subst hx; exact absurd (emit_zero b) h
    · by_cases hq : x / b = 0
      · have e : emit b x = [x % b] := by rw [emit_pos hb hx, hq, emit_zero]
        simp only [e, List.getLast_singleton]
        have : x < b := by
          rcases Nat.div_eq_zero_iff.mp hq with h | h <;> omega
        rw [Nat.mod_eq_of_lt this]; exact hx
      · have hne : emit b (x / b) ≠ [] := emit_ne_nil hb hq
        have e := emit_pos hb hx
        simp only [e]
        rw [List.getLast_cons hne]
        exact ih _ (Nat.div_lt_self (by omega) (by omega)) hne

/-- Uniqueness of the digit expansion. -/
theorem emit_lsValue {b : Nat} (hb : 2 ≤ b) : ∀ (l : List Nat), (∀ d ∈ l, d < b) →
    (∀ h : l ≠ [], l.getLast h ≠ 0) → emit b (lsValue b l) = l
  | [], _, _ => by simp [lsValue, emit_zero]
  | d :: ds, hlt, hlast => by
    have hd : d < b := hlt d (by simp)
    have hne : lsValue b (d :: ds) ≠ 0 := by
      intro h0
      simp only [lsValue] at h0
      have hd0 : d = 0 := by omega
      have hz : b * lsValue b ds = 0 := by omega
      have hz' : lsValue b ds = 0 := by
        rcases Nat.mul_eq_zero.mp hz with h | h <;> omega
      cases ds with
      | nil => exact hlast (by simp) (by simpa using hd0)
      | cons e es =>
        have hrec := emit_lsValue hb (e :: es) (fun x hx => hlt x (by simp [hx]))
          (fun h => by have := hlast (by simp); rwa [List.getLast_cons h] at this)
        rw [hz', emit_zero] at hrec
        simp at hrec
    rw [emit_pos hb hne]
    have e1 : lsValue b (d :: ds) % b = d := by
      simp [lsValue, Nat.add_mul_mod_self_left, Nat.mod_eq_of_lt hd]
    have e2 : lsValue b (d :: ds) / b = lsValue b ds := by
      simp only [lsValue]
      rw [Nat.add_mul_div_left _ _ (by omega : 0 < b), Nat.div_eq_of_lt hd, Nat.zero_add]
    rw [e1, e2, emit_lsValue hb ds (fun x hx => hlt x (by simp [hx]))
      (fun h => by have := hlast (by simp); rwa [List.getLast_cons h] at this)]

theorem index?_getElem {α : Type} [DecidableEq α] (digs : List α) (hn : digs.Nodup) (i : Nat)
    (c : α) (h : digs[i]? = some c) : index? digs c = some i := by
  induction digs generalizing i with
  | nil => simp at h
  | cons d ds ih =>
    rw [List.nodup_cons] at hn
    cases i with
    | zero => simp at h; simp [index?, h]
    | succ i =>
      simp at h
      have hm : c ∈ ds := List.mem_of_getElem? h
      have hne : d ≠ c := fun e => hn.1 (e ▸ hm)
      simp [index?, hne, ih hn.2 i h]

theorem getElem_index? {α : Type} [DecidableEq α] (digs : List α) (i : Nat) (c : α)
    (h : index? digs c = some i) : digs[i]? = some c := by
  induction digs generalizing i with
  | nil => simp [index?] at h
  | cons d ds ih =>
    simp only [index?] at h
    split at h
    · next e => simp at h; subst h; simp [e]
    · cases hh : index? ds c with
      | none => simp [hh] at h
      | some j => simp [hh] at h; subst h; simpa using ih j hh

theorem index?_none {α : Type} [DecidableEq α] (digs : List α) (c : α) (h : c ∉ digs) :
    index? digs c = none := by
  induction digs with
  | nil => rfl
  | cons d ds ih =>
    simp at h
    simp [index?, Ne.symm h.1, ih h.2]

theorem index?_some {α : Type} [DecidableEq α] (digs : List α) (c : α) (h : c ∈ digs) :
    ∃ i, index? digs c = some i := by
  induction digs with
  | nil => simp at h
  | cons d ds ih =>
    by_cases e : d = c
    · exact ⟨0, by simp [index?, e]⟩
    · simp [Ne.symm e] at h
      obtain ⟨i, hi⟩ := ih h
      exact ⟨i + 1, by simp [index?, e, hi]⟩

/-- translate digit indices to characters -/
theorem filterMap_lookup_length {α : Type} (digs : List α) (l : List Nat)
    (h : ∀ d ∈ l, d < digs.length) :
    (l.filterMap (fun i => digs[i]?)).map some = l.map (fun i => digs[i]?) := by
  induction l with
  | nil => rfl
  | cons d ds ih =>
    have hd : d < digs.length := h d (by simp)
    have : digs[d]? = some digs[d] := List.getElem?_eq_getElem hd
    simp [this, ih (fun x hx => h x (by simp [hx]))]

theorem accum_ok {α : Type} [DecidableEq α] (digs : List α) (hn : digs.Nodup) :
    ∀ (l : List Nat), (∀ d ∈ l, d < digs.length) → ∀ i v,
    accum digs i v (l.filterMap (fun i => digs[i]?)) = .ok (v + digs.length ^ i * lsValue digs.length l)
  | [], _, i, v => by simp [accum, lsValue]
  | d :: ds, h, i, v => by
    have hd : d < digs.length := h d (by simp)
    have e : digs[d]? = some digs[d] := List.getElem?_eq_getElem hd
    rw [List.filterMap_cons, e]
    simp only [accum]
    rw [index?_getElem digs hn d _ e]
    simp only
    rw [accum_ok digs hn ds (fun x hx => h x (by simp [hx]))]
    simp only [lsValue, Nat.pow_succ]
    congr 1
    rw [Nat.mul_add, Nat.mul_comm d, Nat.add_assoc, Nat.mul_assoc]

theorem accum_error {α : Type} [DecidableEq α] (digs : List α) (c : α) (hc : c ∉ digs)
    (l₂ : List α) : ∀ (l₁ : List α) (i v : Nat), accum digs i v (l₁ ++ c :: l₂) = .error .valueError
  | [], i, v => by simp [accum, index?_none digs c hc]
  | a :: l₁, i, v => by
    simp only [List.cons_append, accum]
    cases h : index? digs a with
    | none => rfl
    | some d => exact accum_error digs c hc l₂ l₁ _ _

theorem exists_indices {α : Type} [DecidableEq α] (digs : List α) (s : List α)
    (h : ∀ c ∈ s, c ∈ digs) :
    ∃ l : List Nat, (∀ d ∈ l, d < digs.length) ∧ s = l.filterMap (fun i => digs[i]?) ∧
      l.map (fun i => digs[i]?) = s.map some := by
  induction s with
  | nil => exact ⟨[], by simp, rfl, rfl⟩
  | cons c s ih =>
    obtain ⟨l, h1, h2, h3⟩ := ih (fun x hx => h x (by simp [hx]))
    obtain ⟨i, hi⟩ := index?_some digs c (h c (by simp))
    have hg := getElem_index? digs i c hi
    have hlt : i < digs.length := by
      rcases Nat.lt_or_ge i digs.length with h | h
      · exact h
      · rw [List.getElem?_eq_none h] at hg; simp at hg
    refine ⟨i :: l, ?_, ?_, ?_⟩
    · intro d hd
      rcases List.mem_cons.mp hd with rfl | hd
      · exact hlt
      · exact h1 d hd
    · rw [List.filterMap_cons, hg, ← h2]
    · simp [hg, h3]

theorem lsValue_bounds (b : Nat) (hb : 2 ≤ b) : ∀ (l : List Nat), (∀ d ∈ l, d < b) →
    lsValue b l < b ^ l.length
  | [], _ => by simp [lsValue]
  | d :: ds, h => by
    have hd : d < b := h d (by simp)
    have ih := lsValue_bounds b hb ds (fun x hx => h x (by simp [hx]))
    simp only [lsValue, List.length_cons, Nat.pow_succ]
    calc d + b * lsValue b ds < b + b * lsValue b ds := by omega
      _ = b * (lsValue b ds + 1) := by rw [Nat.mul_add]; omega
      _ ≤ b * b ^ ds.length := Nat.mul_le_mul_left _ ih
      _ = b ^ ds.length * b := Nat.mul_comm _ _

theorem lsValue_lower (b : Nat) : ∀ (l : List Nat) (h : l ≠ []),
    l.getLast h ≠ 0 → b ^ (l.length - 1) ≤ lsValue b l
  | [d], _, hl => by simp at hl; simp [lsValue]; omega
  | d :: e :: ds, _, hl => by
    have ih := lsValue_lower b (e :: ds) (by simp) (by rwa [List.getLast_cons (by simp)] at hl)
    simp only [lsValue, List.length_cons, Nat.add_sub_cancel, Nat.pow_succ] at *
    calc b ^ ds.length * b = b * b ^ ds.length := Nat.mul_comm _ _
      _ ≤ b * (e + b * lsValue b ds) := Nat.mul_le_mul_left _ ih
      _ ≤ _ := by omega

end SC.IntBase
