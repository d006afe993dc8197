import Verif.Compound.Model
import Verif.Compound.Spec
import Mathlib.Tactic.Ring
import Mathlib.Tactic.FieldSimp
import Mathlib.Tactic.Linarith
import Mathlib.Algebra.Order.BigOperators.Group.List
/-! # Lemmas about compositions -/
namespace SC.Compound
open SC.Stoich

set_option linter.unusedSectionVars false
variable {K : Type} [Field K] [LinearOrder K] [IsStrictOrderedRing K]
variable {E α β : Type} [DecidableEq E] [DecidableEq β]

theorem amount_nil (key : α → β) (b : β) : amount key ([] : Items α K) b = 0 := rfl
theorem amount_cons (key : α → β) (a : α) (n : K) (l : Items α K) (b : β) :
    amount key ((a, n) :: l) b = (if key a = b then n else 0) + amount key l b := by
  by_cases h : key a = b <;> simp [amount, h]
theorem amount_append (key : α → β) (l m : Items α K) (b : β) :
    amount key (l ++ m) b = amount key l b + amount key m b := by
  simp [amount]
theorem total_cons (a : α) (n : K) (l : Items α K) : total ((a, n) :: l) = n + total l := rfl
theorem total_append (l m : Items α K) : total (l ++ m) = total l + total m := by simp [total]
theorem total_nil : total ([] : Items α K) = 0 := rfl
theorem total_vals (l : Items α K) : (vals l).sum = total l := rfl

theorem amount_absent (key : α → β) (l : Items α K) (b : β) (h : b ∉ names key l) : amount key l b = 0 := by
  induction l with
  | nil => rfl
  | cons p l ih =>
    obtain ⟨a, n⟩ := p
    simp only [names, List.map_cons, List.mem_cons, not_or] at h
    rw [amount_cons, if_neg (Ne.symm h.1), ih h.2, zero_add]

/-- A sum with a weight per component. -/
def wsum (g : α → K) (l : Items α K) : K := total (inUnits g l)
theorem wsum_nil (g : α → K) : wsum g ([] : Items α K) = 0 := rfl
theorem wsum_cons (g : α → K) (a : α) (n : K) (l : Items α K) : wsum g ((a, n) :: l) = n * g a + wsum g l := rfl
theorem wsum_one (l : Items α K) : wsum (fun _ => 1) l = total l := by
  induction l with
  | nil => rfl
  | cons p l ih => obtain ⟨a, n⟩ := p; rw [wsum_cons, total_cons, ih, mul_one]
theorem wsum_eq (g : α → K) (l : Items α K) : (l.map fun p => p.2 * g p.1).sum = wsum g l := by
  simp [wsum, total, inUnits, Function.comp_def]

theorem inUnits_one (l : Items α K) : inUnits (fun _ => 1) l = l := by simp [inUnits]

theorem names_inUnits (key : α → β) (g : α → K) (l : Items α K) : names key (inUnits g l) = names key l := by
  simp [names, inUnits, Function.comp_def]

/-! ## the dictionary operations -/

theorem amount_addTo (key : α → β) (d : Items α K) (a : α) (n : K) (b : β) :
    amount key (addTo key d a n) b = amount key d b + if key a = b then n else 0 := by
  induction d with
  | nil => simp [addTo, amount_cons, amount_nil]
  | cons p d ih =>
    obtain ⟨x, m⟩ := p
    simp only [addTo]
    by_cases h : key x = key a
    · rw [if_pos h, amount_cons, amount_cons, h]
      by_cases h2 : key a = b <;> simp [h2]; ring
    · rw [if_neg h, amount_cons, amount_cons, ih]; ring

theorem names_cons (key : α → β) (a : α) (n : K) (d : Items α K) : names key ((a, n) :: d) = key a :: names key d := rfl

theorem names_addTo (key : α → β) (d : Items α K) (a : α) (n : K) :
    names key (addTo key d a n) = if key a ∈ names key d then names key d else names key d ++ [key a] := by
  induction d with
  | nil => simp [addTo, names]
  | cons p d ih =>
    obtain ⟨x, m⟩ := p
    simp only [addTo]
    by_cases h : key x = key a
    · simp [h, names]
    · rw [if_neg h, names_cons, names_cons, ih]
      by_cases h2 : key a ∈ names key d
      · rw [if_pos h2, if_pos (List.mem_cons_of_mem _ h2)]
      · rw [if_neg h2, if_neg (by simp [h2, Ne.symm h])]; rfl

theorem mem_names_addTo (key : α → β) (d : Items α K) (a : α) (n : K) (b : β) :
    b ∈ names key (addTo key d a n) ↔ b ∈ names key d ∨ b = key a := by
  rw [names_addTo]
  split
  · rename_i h
    constructor
    · exact .inl
    · rintro (hb | hb)
      · exact hb
      · rw [hb]; exact h
  · simp

theorem nodup_addTo (key : α → β) (d : Items α K) (a : α) (n : K) (h : (names key d).Nodup) :
    (names key (addTo key d a n)).Nodup := by
  rw [names_addTo]
  split
  · exact h
  · rename_i hn
    rw [List.nodup_append]
    refine ⟨h, List.nodup_singleton _, ?_⟩
    intro x hx y hy e
    simp only [List.mem_singleton] at hy
    subst hy; subst e; exact hn hx

/-- fold of `addTo` -/
def addAll (key : α → β) (d l : Items α K) : Items α K := l.foldl (fun d p => addTo key d p.1 p.2) d
theorem compose_eq (key : α → β) (l : Items α K) : compose key l = addAll key [] l := rfl

theorem addAll_facts (key : α → β) (l d : Items α K) (h : (names key d).Nodup) :
    (names key (addAll key d l)).Nodup ∧ (∀ b, b ∈ names key (addAll key d l) ↔ b ∈ names key d ∨ b ∈ names key l) ∧
    ∀ b, amount key (addAll key d l) b = amount key d b + amount key l b := by
  induction l generalizing d with
  | nil => simp [addAll, names, amount_nil, h]; simpa [names] using h
  | cons p l ih =>
    obtain ⟨a, n⟩ := p
    obtain ⟨h1, h2, h3⟩ := ih (addTo key d a n) (nodup_addTo key d a n h)
    refine ⟨h1, ?_, ?_⟩
    · intro b
      have := h2 b
      simp only [addAll, List.foldl_cons] at this ⊢
      rw [this, mem_names_addTo, names_cons, List.mem_cons, or_assoc]
    · intro b
      have := h3 b
      simp only [addAll, List.foldl_cons] at this ⊢
      rw [this, amount_addTo, amount_cons]; ring

theorem compose_nodup (key : α → β) (l : Items α K) : (names key (compose key l)).Nodup :=
  (addAll_facts key l [] List.nodup_nil).1
theorem compose_names (key : α → β) (l : Items α K) (b : β) : b ∈ names key (compose key l) ↔ b ∈ names key l := by
  rw [compose_eq, (addAll_facts key l [] List.nodup_nil).2.1]; simp [names]
theorem compose_amount (key : α → β) (l : Items α K) (b : β) : amount key (compose key l) b = amount key l b := by
  rw [compose_eq, (addAll_facts key l [] List.nodup_nil).2.2, amount_nil, zero_add]

/-- `g` does not tell components with the same name apart. -/
def Respects (key : α → β) (g : α → K) (l : Items α K) : Prop :=
  ∀ p ∈ l, ∀ q ∈ l, key p.1 = key q.1 → g p.1 = g q.1

theorem wsum_addTo (key : α → β) (g : α → K) (d : Items α K) (a : α) (n : K)
    (h : ∀ p ∈ d, key p.1 = key a → g p.1 = g a) : wsum g (addTo key d a n) = wsum g d + n * g a := by
  induction d with
  | nil => simp [addTo, wsum_cons, wsum_nil]
  | cons p d ih =>
    obtain ⟨x, m⟩ := p
    simp only [addTo]
    by_cases e : key x = key a
    · rw [if_pos e, wsum_cons, wsum_cons, h _ (List.mem_cons_self ..) e]; ring
    · rw [if_neg e, wsum_cons, wsum_cons, ih (fun p hp => h p (List.mem_cons_of_mem _ hp))]; ring

theorem keys_addTo (key : α → β) (d : Items α K) (a : α) (n : K) :
    ∀ x ∈ keys (addTo key d a n), x ∈ keys d ∨ x = a := by
  induction d with
  | nil => simp [addTo, keys]
  | cons p d ih =>
    obtain ⟨y, m⟩ := p
    simp only [addTo]
    simp only [keys] at ih
    intro x hx
    by_cases e : key y = key a
    · rw [if_pos e] at hx; exact .inl hx
    · rw [if_neg e] at hx
      simp only [keys, List.map_cons, List.mem_cons] at hx ⊢
      rcases hx with hx | hx
      · exact .inl (.inl hx)
      · rcases ih x hx with h | h
        · exact .inl (.inr h)
        · exact .inr h

theorem keys_addAll (key : α → β) (l d : Items α K) : ∀ x ∈ keys (addAll key d l), x ∈ keys d ∨ x ∈ keys l := by
  induction l generalizing d with
  | nil => intro x hx; exact .inl hx
  | cons p l ih =>
    intro x hx
    rcases ih (addTo key d p.1 p.2) x hx with h | h
    · rcases keys_addTo key d p.1 p.2 x h with h | h
      · exact .inl h
      · exact .inr (by simp [keys, h])
    · exact .inr (by simp only [keys, List.map_cons]; exact List.mem_cons_of_mem _ h)

/-- The key objects of the dictionary are among the given ones. -/
theorem keys_compose (key : α → β) (l : Items α K) : ∀ x ∈ keys (compose key l), x ∈ keys l := by
  intro x hx
  rcases keys_addAll key l [] x hx with h | h
  · simp [keys] at h
  · exact h

theorem mem_keys {l : Items α K} {x : α} : x ∈ keys l ↔ ∃ n, (x, n) ∈ l := by
  simp [keys]

theorem wsum_addAll (key : α → β) (g : α → K) (l d : Items α K) (h : Respects key g (d ++ l)) :
    wsum g (addAll key d l) = wsum g d + wsum g l := by
  induction l generalizing d with
  | nil => simp [addAll, wsum_nil]
  | cons p l ih =>
    obtain ⟨a, n⟩ := p
    have : addAll key d ((a, n) :: l) = addAll key (addTo key d a n) l := rfl
    rw [this, ih, wsum_addTo, wsum_cons]
    · ring
    · intro p hp e
      exact h p (by simp [hp]) (a, n) (by simp) e
    · have hk : ∀ p ∈ addTo key d a n ++ l, ∃ m, (p.1, m) ∈ d ++ (a, n) :: l := by
        intro p hp
        rcases List.mem_append.mp hp with hp | hp
        · rcases keys_addTo key d a n p.1 (List.mem_map.mpr ⟨p, hp, rfl⟩) with h | h
          · obtain ⟨m, hm⟩ := mem_keys.mp h
            exact ⟨m, by simp [hm]⟩
          · exact ⟨n, by simp [h]⟩
        · exact ⟨p.2, by simp [hp]⟩
      intro p hp q hq e
      obtain ⟨m, hm⟩ := hk p hp
      obtain ⟨m', hm'⟩ := hk q hq
      exact h (p.1, m) hm (q.1, m') hm' e

theorem wsum_compose (key : α → β) (g : α → K) (l : Items α K) (h : Respects key g l) :
    wsum g (compose key l) = wsum g l := by
  rw [compose_eq, wsum_addAll key g l [] (by simpa using h), wsum_nil, zero_add]

theorem total_compose (key : α → β) (l : Items α K) : total (compose key l) = total l := by
  rw [← wsum_one, ← wsum_one, wsum_compose]
  intro _ _ _ _ _; rfl

/-! ## changing units -/

theorem amount_map (key : α → β) (g : α → K) (l : Items α K) (b : β) (c : K)
    (h : ∀ p ∈ l, key p.1 = b → g p.1 = c) : amount key (inUnits g l) b = amount key l b * c := by
  induction l with
  | nil => simp [inUnits, amount]
  | cons p l ih =>
    obtain ⟨a, n⟩ := p
    have := ih fun p hp => h p (List.mem_cons_of_mem _ hp)
    simp only [inUnits, List.map_cons] at this ⊢
    rw [amount_cons, amount_cons, this, add_mul]
    by_cases e : key a = b
    · simp [e, h (a, n) (List.mem_cons_self ..) e]
    · simp [e]

theorem total_scale (l : Items α K) (c : K) : total (inUnits (fun _ => c) l) = total l * c := by
  induction l with
  | nil => simp [total, inUnits]
  | cons p l ih => obtain ⟨a, n⟩ := p; simp only [inUnits, List.map_cons] at ih ⊢; rw [total_cons, total_cons, ih]; ring

/-! ## dictionaries as tables -/

theorem item_cons (key : α → β) (a : α) (n : K) (d : Items α K) (b : β) :
    item key ((a, n) :: d) b = if key a = b then some n else item key d b := by
  by_cases h : key a = b <;> simp [item, h]

theorem item_nodup (key : α → β) (d : Items α K) (h : (names key d).Nodup) (b : β) :
    item key d b = if b ∈ names key d then some (amount key d b) else none := by
  induction d with
  | nil => simp [item, names]
  | cons p d ih =>
    obtain ⟨a, n⟩ := p
    rw [names_cons, List.nodup_cons] at h
    rw [item_cons, amount_cons, names_cons]
    by_cases e : key a = b
    · subst e
      have : amount key d (key a) = 0 := amount_absent key d _ h.1
      simp [this]
    · rw [if_neg e, if_neg e, ih h.2, zero_add]
      by_cases hb : b ∈ names key d
      · rw [if_pos hb, if_pos (List.mem_cons_of_mem _ hb)]
      · rw [if_neg hb, if_neg (by simp [hb, Ne.symm e])]

theorem isTable_of (key : α → β) (d : Items α K) (ns : List β) (f : β → K) (h : (names key d).Nodup)
    (hn : ∀ b, b ∈ names key d ↔ b ∈ ns) (hf : ∀ b ∈ ns, amount key d b = f b) : IsTable key d ns f := by
  refine ⟨h, ?_, ?_⟩
  · intro b hb
    rw [item_nodup key d h, if_pos ((hn b).mpr hb), hf b hb]
  · intro b hb
    rw [item_nodup key d h, if_neg (fun h => hb ((hn b).mp h))]

/-- The table of a merged composition. -/
theorem compose_table (key : α → β) (l : Items α K) : IsTable key (compose key l) (names key l) (amount key l) :=
  isTable_of key _ _ _ (compose_nodup key l) (compose_names key l) (fun b _ => compose_amount key l b)

theorem IsTable.amount_eq {key : α → β} {d : Items α K} {ns : List β} {f : β → K} (h : IsTable key d ns f)
    {b : β} (hb : b ∈ ns) : amount key d b = f b := by
  have := h.known b hb
  rw [item_nodup key d h.distinct] at this
  split at this
  · simpa using this
  · simp at this
theorem IsTable.mem_names {key : α → β} {d : Items α K} {ns : List β} {f : β → K} (h : IsTable key d ns f)
    (b : β) : b ∈ names key d ↔ b ∈ ns := by
  constructor
  · intro hb
    by_cases hn : b ∈ ns
    · exact hn
    · have := h.unknown b hn
      rw [item_nodup key d h.distinct, if_pos hb] at this; simp at this
  · intro hb
    have := h.known b hb
    rw [item_nodup key d h.distinct] at this
    split at this
    · assumption
    · simp at this

/-- Numbers that are not negative and not all zero. -/
structure Proper (l : Items α K) : Prop where
  nonneg : ∀ p ∈ l, 0 ≤ p.2
  pos : 0 < total l

theorem total_nonneg (l : Items α K) (h : ∀ p ∈ l, 0 ≤ p.2) : 0 ≤ total l := by
  refine List.sum_nonneg ?_
  intro x hx
  obtain ⟨p, hp, rfl⟩ := List.mem_map.mp hx
  exact h p hp

theorem exists_pos (l : Items α K) (h : 0 < total l) : ∃ p ∈ l, 0 < p.2 := by
  induction l with
  | nil => simp [total] at h
  | cons q l ih =>
    obtain ⟨a, n⟩ := q
    rw [total_cons] at h
    by_cases hn : 0 < n
    · exact ⟨(a, n), List.mem_cons_self .., hn⟩
    · obtain ⟨p, hp, h0⟩ := ih (by linarith [not_lt.mp hn])
      exact ⟨p, List.mem_cons_of_mem _ hp, h0⟩

theorem total_pos_of (l : Items α K) (h : ∀ p ∈ l, 0 ≤ p.2) (hp : ∃ p ∈ l, 0 < p.2) : 0 < total l := by
  induction l with
  | nil => simp at hp
  | cons q l ih =>
    obtain ⟨a, n⟩ := q
    rw [total_cons]
    obtain ⟨p, hm, hp⟩ := hp
    rcases List.mem_cons.mp hm with e | hm
    · have := total_nonneg l fun p hp => h p (List.mem_cons_of_mem _ hp)
      subst e
      linarith [show 0 < n from hp]
    · have := ih (fun p hp => h p (List.mem_cons_of_mem _ hp)) ⟨p, hm, hp⟩
      linarith [show 0 ≤ n from h (a, n) (List.mem_cons_self ..)]

theorem Proper.inUnits {l : Items α K} (h : Proper l) (g : α → K) (hg : ∀ p ∈ l, 0 < g p.1) :
    Proper (inUnits g l) := by
  have hn : ∀ p ∈ SC.Compound.inUnits g l, 0 ≤ p.2 := by
    intro p hp
    obtain ⟨q, hq, rfl⟩ := List.mem_map.mp hp
    exact mul_nonneg (h.nonneg q hq) (hg q hq).le
  refine ⟨hn, total_pos_of _ hn ?_⟩
  obtain ⟨p, hp, h0⟩ := exists_pos l h.pos
  exact ⟨(p.1, p.2 * g p.1), List.mem_map.mpr ⟨p, hp, rfl⟩, mul_pos h0 (hg p hp)⟩

theorem addTo_nonneg (key : α → β) (d : Items α K) (a : α) (n : K) (h : ∀ p ∈ d, 0 ≤ p.2) (hn : 0 ≤ n) :
    ∀ p ∈ addTo key d a n, 0 ≤ p.2 := by
  induction d with
  | nil => simpa [addTo] using hn
  | cons q d ih =>
    obtain ⟨x, m⟩ := q
    simp only [addTo]
    have hm : 0 ≤ m := h (x, m) (List.mem_cons_self ..)
    split
    · intro p hp
      rcases List.mem_cons.mp hp with e | hp
      · subst e; exact add_nonneg hm hn
      · exact h p (List.mem_cons_of_mem _ hp)
    · intro p hp
      rcases List.mem_cons.mp hp with e | hp
      · subst e; exact hm
      · exact ih (fun p hp => h p (List.mem_cons_of_mem _ hp)) p hp

theorem Proper.compose {l : Items α K} (h : Proper l) (key : α → β) : Proper (compose key l) := by
  refine ⟨?_, by rw [total_compose]; exact h.pos⟩
  have : ∀ (l d : Items α K), (∀ p ∈ d, 0 ≤ p.2) → (∀ p ∈ l, 0 ≤ p.2) → ∀ p ∈ addAll key d l, 0 ≤ p.2 := by
    intro l
    induction l with
    | nil => intro d hd _; exact hd
    | cons q l ih =>
      intro d hd hl
      exact ih _ (addTo_nonneg key d q.1 q.2 hd (hl q (List.mem_cons_self ..)))
        fun p hp => hl p (List.mem_cons_of_mem _ hp)
  exact this l [] (by simp) h.nonneg

end SC.Compound
