import Verif.ListTools.Model
import Verif.ListTools.Spec
/-! Helper lemmas for the list tools. -/
namespace SC.ListTools
open SC.Py

section counter
variable {κ β : Type} [DecidableEq κ]

theorem Counter.get_set [Zero β] (c : Counter κ β) (x y : κ) (v : β) :
    (c.set x v).get y = if x = y then v else c.get y := by
  induction c with
  | nil => simp [Counter.set, Counter.get]
  | cons p c ih =>
    obtain ⟨k, w⟩ := p
    by_cases hk : k = x
    · subst hk
      by_cases hy : k = y <;> simp [Counter.set, Counter.get, hy]
    · simp only [Counter.set, hk, if_false, Counter.get, ih]
      by_cases hx : x = y
      · subst hx; simp [hk]
      · simp [hx]

theorem Counter.keys_set (c : Counter κ β) (x : κ) (v : β) :
    (c.set x v).map Prod.fst = if x ∈ c.map Prod.fst then c.map Prod.fst else c.map Prod.fst ++ [x] := by
  induction c with
  | nil => simp [Counter.set]
  | cons p c ih =>
    obtain ⟨k, w⟩ := p
    by_cases hk : k = x
    · subst hk; simp [Counter.set]
    · have hk' : ¬ x = k := fun h => hk h.symm
      simp only [Counter.set, hk, if_false, List.map_cons, ih, List.mem_cons, hk', false_or]
      split <;> simp

theorem Counter.mem_iff (c : Counter κ β) (x : κ) : c.mem x = true ↔ x ∈ c.map Prod.fst := by
  simp [Counter.mem]

theorem addLoop_get [AddCommMonoid β] (l : List (κ × β)) : ∀ (c : Counter κ β) (k : κ),
    (addLoop c l).2.get k = c.get k + total k l := by
  induction l with
  | nil => intro c k; simp [addLoop, total]
  | cons p l ih =>
    obtain ⟨x, y⟩ := p
    intro c k
    simp only [addLoop, ih, Counter.get_set]
    by_cases h : x = k
    · subst h; simp [total, add_assoc]
    · simp [total, h]

theorem addLoop_keys [AddCommMonoid β] (l : List (κ × β)) : ∀ (c : Counter κ β),
    (addLoop c l).1 = uniqueEverseen id (c.map Prod.fst) (l.map Prod.fst) := by
  induction l with
  | nil => intro c; simp [addLoop, uniqueEverseen]
  | cons p l ih =>
    obtain ⟨x, y⟩ := p
    intro c
    have cong : ∀ (s₁ s₂ : List κ) (m : List κ), (∀ a, a ∈ s₁ ↔ a ∈ s₂) →
        uniqueEverseen id s₁ m = uniqueEverseen id s₂ m := by
      intro s₁ s₂ m
      induction m generalizing s₁ s₂ with
      | nil => intro _; rfl
      | cons a m ihm =>
        intro h
        simp only [uniqueEverseen, id, h a]
        split
        · exact ihm _ _ h
        · rw [ihm (a :: s₁) (a :: s₂) (fun b => by simp [h b])]
    simp only [addLoop, ih, Counter.keys_set, List.map_cons, uniqueEverseen, id]
    by_cases hm : x ∈ c.map Prod.fst
    · have : c.mem x = true := (Counter.mem_iff c x).mpr hm
      rw [if_pos hm]
      simp only [this, Bool.not_true, Bool.false_eq_true, if_false, if_pos hm]
    · have : c.mem x = false := by
        cases h : c.mem x with
        | false => rfl
        | true => exact absurd ((Counter.mem_iff c x).mp h) hm
      rw [if_neg hm]
      simp only [this, Bool.not_false, if_true, if_neg hm]
      rw [cong (List.map Prod.fst c ++ [x]) (x :: List.map Prod.fst c) _ (fun a => by
        simp only [List.mem_append, List.mem_cons, List.not_mem_nil, or_false]
        exact or_comm)]

end counter

theorem uniqueEverseen_eq {α κ : Type} [DecidableEq κ] (key : α → κ) (l : List α) :
    ∀ seen, uniqueEverseen key seen l = keepFirst key seen l := by
  induction l with
  | nil => intro seen; simp [uniqueEverseen, keepFirst]
  | cons a l ih =>
    intro seen
    simp only [keepFirst, List.length_cons, List.range_succ_eq_map, List.filterMap_cons,
      List.filterMap_map]
    have hstep : ∀ s : List κ, (∀ k, k ∈ s ↔ (k ∈ seen ∨ k = key a)) →
        (List.range l.length).filterMap ((fun i =>
          if (∀ j < i, ((a :: l)[j]?).map key ≠ ((a :: l)[i]?).map key) ∧
            (∀ k ∈ seen, some k ≠ ((a :: l)[i]?).map key) then (a :: l)[i]? else none) ∘ Nat.succ)
        = keepFirst key s l := by
      intro s hs
      simp only [keepFirst]
      apply List.filterMap_congr
      intro i hi
      simp only [Function.comp]
      have e : (a :: l)[i.succ]? = l[i]? := by simp
      rw [e]
      apply if_congr _ rfl rfl
      constructor
      · rintro ⟨h1, h2⟩
        refine ⟨fun j hj => ?_, fun k hk => ?_⟩
        · have := h1 (j + 1) (by omega); simpa using this
        · rcases (hs k).mp hk with h | h
          · exact h2 k h
          · have := h1 0 (by omega); subst h; simpa using this
      · rintro ⟨h1, h2⟩
        refine ⟨fun j hj => ?_, fun k hk => h2 k ((hs k).mpr (Or.inl hk))⟩
        cases j with
        | zero => have := h2 (key a) ((hs _).mpr (Or.inr rfl)); simpa using this
        | succ j => have := h1 j (by omega); simpa using this
    by_cases hm : key a ∈ seen
    · rw [hstep seen (fun k => ⟨Or.inl, fun h => h.elim id (fun e => e ▸ hm)⟩)]
      simp only [uniqueEverseen, if_pos hm, ih]
      have : ¬ ((∀ j < 0, ((a :: l)[j]?).map key ≠ ((a :: l)[0]?).map key) ∧
            (∀ k ∈ seen, some k ≠ ((a :: l)[0]?).map key)) := by
        rintro ⟨_, h⟩; exact h _ hm (by simp)
      rw [if_neg this]
    · rw [hstep (key a :: seen) (fun k => by simp [or_comm])]
      simp only [uniqueEverseen, if_neg hm, ih]
      have : ((∀ j < 0, ((a :: l)[j]?).map key ≠ ((a :: l)[0]?).map key) ∧
            (∀ k ∈ seen, some k ≠ ((a :: l)[0]?).map key)) := by
        refine ⟨fun j hj => by omega, fun k hk => ?_⟩
        simp; rintro rfl; exact hm hk
      rw [if_pos this]
      simp

/-- Grand total preserved by aggregation. -/
theorem total_sum_partition {κ β : Type} [DecidableEq κ] [AddCommMonoid β] (ks : List κ)
    (hnd : ks.Nodup) : ∀ (l : List (κ × β)), (∀ p ∈ l, p.1 ∈ ks) →
    (ks.map (fun k => total k l)).sum = (l.map (·.2)).sum := by
  intro l
  induction l with
  | nil => intro _; simp [total]
  | cons p l ih =>
    intro h
    obtain ⟨x, y⟩ := p
    have hx : x ∈ ks := h (x, y) (by simp)
    have ih' := ih (fun q hq => h q (by simp [hq]))
    have step : ∀ (ks : List κ), ks.Nodup → x ∈ ks →
        (ks.map (fun k => total k ((x, y) :: l))).sum = y + (ks.map (fun k => total k l)).sum := by
      intro ks
      induction ks with
      | nil => intro _ h; simp at h
      | cons k ks ihk =>
        intro hnd hx
        rw [List.nodup_cons] at hnd
        by_cases e : x = k
        · subst e
          have hrest : ks.map (fun k => total k ((x, y) :: l)) = ks.map (fun k => total k l) := by
            apply List.map_congr_left
            intro k hk
            have : ¬ x = k := fun e => hnd.1 (e ▸ hk)
            simp [total, this]
          rw [List.map_cons, List.sum_cons, hrest, List.map_cons, List.sum_cons, ← add_assoc]
          congr 1
          simp [total]
        · have hx' : x ∈ ks := by
            rcases List.mem_cons.mp hx with h | h
            · exact absurd h e
            · exact h
          rw [List.map_cons, List.sum_cons, ihk hnd.2 hx', List.map_cons, List.sum_cons]
          have : total k ((x, y) :: l) = total k l := by simp [total, e]
          rw [this, ← add_assoc, ← add_assoc, add_comm y]
    rw [step ks hnd hx, ih', List.map_cons, List.sum_cons]

theorem sumrepeats_loop {κ β : Type} [DecidableEq κ] [AddCommMonoid β] (l : List (κ × β)) :
    ∀ c : Counter κ β, (c.map Prod.fst).Nodup →
    let r := l.foldl (fun (c : Counter κ β) p => c.set p.1 (p.2 + c.get p.1)) c
    (∀ k, r.get k = c.get k + total k l) ∧
    r.map Prod.fst = c.map Prod.fst ++ uniqueEverseen id (c.map Prod.fst) (l.map Prod.fst) := by
  induction l with
  | nil => intro c _; simp [total, uniqueEverseen]
  | cons p l ih =>
    obtain ⟨x, y⟩ := p
    intro c hc
    have hset := Counter.keys_set c x (y + c.get x)
    have hnd : ((c.set x (y + c.get x)).map Prod.fst).Nodup := by
      rw [hset]; split
      · exact hc
      · next hm => rw [List.nodup_append]; exact ⟨hc, by simp, fun a ha b hb => by
          simp at hb; subst hb; rintro rfl; exact hm ha⟩
    have := ih (c.set x (y + c.get x)) hnd
    simp only [List.foldl_cons] at this ⊢
    refine ⟨fun k => ?_, ?_⟩
    · rw [this.1 k, Counter.get_set]
      by_cases h : x = k
      · subst h; simp only [if_true, total, List.filter_cons, decide_true, List.map_cons, List.sum_cons]
        rw [add_comm y, add_assoc]
      · simp [total, h]
    · rw [this.2, hset]
      have cong : ∀ (s₁ s₂ : List κ) (m : List κ), (∀ a, a ∈ s₁ ↔ a ∈ s₂) →
          uniqueEverseen id s₁ m = uniqueEverseen id s₂ m := by
        intro s₁ s₂ m
        induction m generalizing s₁ s₂ with
        | nil => intro _; rfl
        | cons a m ihm =>
          intro h
          simp only [uniqueEverseen, id, h a]
          split
          · exact ihm _ _ h
          · rw [ihm (a :: s₁) (a :: s₂) (fun b => by simp [h b])]
      by_cases hm : x ∈ c.map Prod.fst
      · rw [if_pos hm]; simp only [List.map_cons, uniqueEverseen, id, if_pos hm]
      · rw [if_neg hm]; simp only [List.map_cons, uniqueEverseen, id, if_neg hm, List.append_assoc,
          List.singleton_append]
        rw [cong (List.map Prod.fst c ++ [x]) (x :: List.map Prod.fst c) _ (fun a => by
          simp only [List.mem_append, List.mem_cons, List.not_mem_nil, or_false]; exact or_comm)]

theorem Counter.values_eq {κ β : Type} [DecidableEq κ] [Zero β] (c : Counter κ β)
    (h : (c.map Prod.fst).Nodup) : c.map Prod.snd = (c.map Prod.fst).map c.get := by
  induction c with
  | nil => rfl
  | cons p c ih =>
    obtain ⟨k, v⟩ := p
    simp only [List.map_cons, List.nodup_cons] at h
    simp only [List.map_cons, Counter.get, if_true, List.cons.injEq, true_and]
    rw [ih h.2]
    apply List.map_congr_left
    intro a ha
    have : ¬ k = a := fun e => h.1 (e ▸ ha)
    simp [this]

end SC.ListTools
