import Verif.Interact.Model
import Verif.Xia.PropsGroup2
import Mathlib.Tactic.Ring
import Mathlib.Tactic.Linarith
import Mathlib.Tactic.FieldSimp
import Mathlib.Tactic.Positivity
/-! # C97: interactions -/
namespace SC.Interact

/-- The energy at the start of a chain of interactions. -/
def start : I → Rat
  | .source e _ => e
  | .fluo _ _ e => e
  | .elastic s => start s
  | .inelastic s _ => start s

/-- The angles of the inelastic scattering. -/
def angles : I → List Rat
  | .source _ _ => []
  | .fluo _ _ _ => []
  | .elastic s => angles s
  | .inelastic s t => t :: angles s

/-- The inverse energy grows with every inelastic scattering, whatever the order. -/
theorem energy_spec (delta : Rat → Rat) (hd : ∀ t, 0 ≤ delta t) (i : I) (h0 : 0 < start i) (ha : 0 ∉ angles i) :
    ∃ e, energy delta i = some e ∧ 0 < e ∧ e ≤ start i ∧ 1 / e = 1 / start i + ((angles i).map delta).sum := by
  induction i with
  | source e n => exact ⟨e, rfl, h0, le_refl _, by simp [start, angles]⟩
  | fluo a b e => exact ⟨e, rfl, h0, le_refl _, by simp [start, angles]⟩
  | elastic s ih => exact ih h0 ha
  | inelastic s t ih =>
    simp only [angles, List.mem_cons, not_or] at ha
    obtain ⟨e, he, hp, hle, hinv⟩ := ih h0 ha.2
    have hq : 0 < 1 + e * delta t := by have := mul_nonneg hp.le (hd t); linarith
    refine ⟨e / (1 + e * delta t), by simp [energy, he, Ne.symm ha.1], div_pos hp hq, ?_, ?_⟩
    · refine le_trans ?_ hle
      rw [div_le_iff₀ hq]
      nlinarith [mul_nonneg hp.le (mul_nonneg hp.le (hd t))]
    · simp only [start, angles, List.map_cons, List.sum_cons] at hinv ⊢
      rw [one_div_div, ← add_assoc, add_comm (1 / start s), add_assoc, ← hinv]
      field_simp
      ring

/-- Scattering at different angles in another order gives the same energy. -/
theorem energy_order (delta : Rat → Rat) (hd : ∀ t, 0 ≤ delta t) (i j : I) (h0 : 0 < start i) (hs : start i = start j)
    (hp : (angles i).Perm (angles j)) (ha : 0 ∉ angles i) : energy delta i = energy delta j := by
  obtain ⟨e, he, h1, _, h2⟩ := energy_spec delta hd i h0 ha
  obtain ⟨f, hf, h3, _, h4⟩ := energy_spec delta hd j (hs ▸ h0) (fun h => ha (hp.mem_iff.mpr h))
  rw [he, hf]
  congr 1
  have : 1 / e = 1 / f := by rw [h2, h4, hs, (hp.map delta).sum_eq]
  have := congrArg (fun x => 1 / x) this
  simpa using this

/-- Without deflection there is no energy. -/
theorem forward_fails (delta : Rat → Rat) (i : I) (ha : 0 ∈ angles i) : energy delta i = none := by
  induction i with
  | source e n => simp [angles] at ha
  | fluo a b e => simp [angles] at ha
  | elastic s ih => exact ih ha
  | inelastic s t ih =>
    by_cases ht : t = 0
    · simp only [energy, ht, if_true]
      cases energy delta s <;> rfl
    · simp only [angles, List.mem_cons] at ha
      rcases ha with h | h
      · exact absurd h.symm ht
      · simp [energy, ih h]

/-- Element names are not the words used for other interactions. -/
def Good : I → Prop
  | .source _ _ => True
  | .fluo el _ _ => '-' ∉ el ∧ '(' ∉ el ∧ el ≠ ['S', 'o', 'u', 'r', 'c', 'e']
  | .elastic s => Good s
  | .inelastic s _ => Good s

/-- The same interaction, apart from energies and angles. -/
def Alike : I → I → Prop
  | .source _ i, .source _ j => i = j
  | .fluo a b _, .fluo c d _ => a = c ∧ b = d
  | .elastic s, .elastic t => Alike s t
  | .inelastic s _, .inelastic t _ => Alike s t
  | _, _ => False

theorem first_split {a b c d : Str} {x : Char} (ha : x ∉ a) (hc : x ∉ c) (h : a ++ x :: b = c ++ x :: d) : a = c ∧ b = d := by
  induction a generalizing c with
  | nil =>
    cases c with
    | nil => simpa using h
    | cons y c =>
      simp only [List.nil_append, List.cons_append, List.cons.injEq] at h
      exact absurd (by simp [h.1]) hc
  | cons y a ih =>
    cases c with
    | nil =>
      simp only [List.nil_append, List.cons_append, List.cons.injEq] at h
      exact absurd (by simp [h.1]) ha
    | cons z c =>
      simp only [List.cons_append, List.cons.injEq] at h
      obtain ⟨e1, e2⟩ := ih (fun h' => ha (List.mem_cons_of_mem _ h')) (fun h' => hc (List.mem_cons_of_mem _ h')) h.2
      exact ⟨by rw [h.1, e1], e2⟩

theorem no_clash {w u a b : Str} (hw1 : '-' ∉ w) (ha : '(' ∉ a) : w ++ '(' :: u ≠ a ++ '-' :: b := by
  induction w generalizing a with
  | nil =>
    cases a with
    | nil => simp
    | cons y a =>
      intro h
      simp only [List.nil_append, List.cons_append, List.cons.injEq] at h
      exact ha (List.mem_cons.mpr (Or.inl h.1))
  | cons x w ih =>
    cases a with
    | nil =>
      intro h
      simp only [List.nil_append, List.cons_append, List.cons.injEq] at h
      exact hw1 (by simp [h.1])
    | cons y a =>
      intro h
      simp only [List.cons_append, List.cons.injEq] at h
      exact ih (fun h' => hw1 (List.mem_cons_of_mem _ h')) (fun h' => ha (List.mem_cons_of_mem _ h')) h.2

/-- The two forms of names. -/
theorem name_source (e : Rat) (i : Nat) : name (.source e i) = ['S', 'o', 'u', 'r', 'c', 'e'] ++ '-' :: Nat.toDigits 10 i := by simp [name]
theorem name_elastic (s : I) : name (.elastic s) = ['R', 'S', 'c', 'a', 't'] ++ '(' :: (name s ++ [')']) := by simp [name]
theorem name_inelastic (s : I) (t : Rat) : name (.inelastic s t) = ['C', 'S', 'c', 'a', 't'] ++ '(' :: (name s ++ [')']) := by simp [name]

/-- Interactions with the same name are the same, apart from energies and angles. -/
theorem name_inj (i j : I) (hi : Good i) (hj : Good j) : name i = name j ↔ Alike i j := by
  have r1 : '-' ∉ ['R', 'S', 'c', 'a', 't'] := by decide
  have r2 : '(' ∉ ['R', 'S', 'c', 'a', 't'] := by decide
  have c1 : '-' ∉ ['C', 'S', 'c', 'a', 't'] := by decide
  have c2 : '(' ∉ ['C', 'S', 'c', 'a', 't'] := by decide
  have s1 : '-' ∉ ['S', 'o', 'u', 'r', 'c', 'e'] := by decide
  have s2 : '(' ∉ ['S', 'o', 'u', 'r', 'c', 'e'] := by decide
  have rc : ['R', 'S', 'c', 'a', 't'] ≠ ['C', 'S', 'c', 'a', 't'] := by decide
  induction i generalizing j with
  | source e n =>
    cases j with
    | source e' n' =>
      rw [name_source, name_source]
      constructor
      · intro h; exact Xia.toDigits_inj (first_split s1 s1 h).2
      · intro h; simp only [Alike] at h; rw [h]
    | fluo a b _ =>
      rw [name_source]
      simp only [name, Alike, iff_false]
      exact fun h => hj.2.2 (first_split s1 hj.1 h).1.symm
    | elastic t =>
      rw [name_source, name_elastic]
      simp only [Alike, iff_false]
      exact fun h => no_clash r1 s2 h.symm
    | inelastic t _ =>
      rw [name_source, name_inelastic]
      simp only [Alike, iff_false]
      exact fun h => no_clash c1 s2 h.symm
  | fluo a b _ =>
    cases j with
    | source e' n' =>
      rw [name_source]
      simp only [name, Alike, iff_false]
      exact fun h => hi.2.2 (first_split hi.1 s1 h).1
    | fluo c d _ =>
      simp only [name, Alike]
      exact ⟨fun h => first_split hi.1 hj.1 h, fun h => by rw [h.1, h.2]⟩
    | elastic t =>
      rw [name_elastic]
      simp only [name, Alike, iff_false]
      exact fun h => no_clash r1 hi.2.1 h.symm
    | inelastic t _ =>
      rw [name_inelastic]
      simp only [name, Alike, iff_false]
      exact fun h => no_clash c1 hi.2.1 h.symm
  | elastic s ih =>
    cases j with
    | source e' n' =>
      rw [name_source, name_elastic]
      simp only [Alike, iff_false]
      exact fun h => no_clash r1 s2 h
    | fluo c d _ =>
      rw [name_elastic]
      simp only [name, Alike, iff_false]
      exact fun h => no_clash r1 hj.2.1 h
    | elastic t =>
      rw [name_elastic, name_elastic]
      simp only [Alike]
      refine Iff.trans ?_ (ih t hi hj)
      constructor
      · intro h; exact List.append_cancel_right (first_split r2 r2 h).2
      · intro h; rw [h]
    | inelastic t _ =>
      rw [name_elastic, name_inelastic]
      simp only [Alike, iff_false]
      exact fun h => rc (first_split r2 c2 h).1
  | inelastic s _ ih =>
    cases j with
    | source e' n' =>
      rw [name_source, name_inelastic]
      simp only [Alike, iff_false]
      exact fun h => no_clash c1 s2 h
    | fluo c d _ =>
      rw [name_inelastic]
      simp only [name, Alike, iff_false]
      exact fun h => no_clash c1 hj.2.1 h
    | elastic t =>
      rw [name_elastic, name_inelastic]
      simp only [Alike, iff_false]
      exact fun h => rc (first_split c2 r2 h).1.symm
    | inelastic t _ =>
      rw [name_inelastic, name_inelastic]
      simp only [Alike]
      refine Iff.trans ?_ (ih t hi hj)
      constructor
      · intro h; exact List.append_cancel_right (first_split c2 c2 h).2
      · intro h; rw [h]

/-- Equality of interactions is equality of their names. -/
theorem same_spec (i j : I) (hi : Good i) (hj : Good j) : same i j = true ↔ Alike i j := by
  rw [← name_inj i j hi hj]
  simp [same]

/-- `<` compares the energies, so that an inelastic scattering sorts before its source unless it keeps the energy. -/
theorem lt_source (delta : Rat → Rat) (hd : ∀ t, 0 ≤ delta t) (s : I) (t : Rat) (h0 : 0 < start s) (ht : t ≠ 0) (ha : 0 ∉ angles s) :
    lt delta (.inelastic s t) s = some (decide (0 < delta t)) ∧ lt delta s (.inelastic s t) = some false ∧
      lt delta (.elastic s) s = some false := by
  obtain ⟨e, he, hp, _, _⟩ := energy_spec delta hd s h0 ha
  have hq : 0 < 1 + e * delta t := by have := mul_nonneg hp.le (hd t); linarith
  refine ⟨?_, ?_, ?_⟩
  · simp only [lt, energy, he, Option.bind_some, ht, if_false, Option.some.injEq, decide_eq_decide]
    rw [div_lt_iff₀ hq]
    constructor
    · intro h
      rcases (hd t).lt_or_eq with h' | h'
      · exact h'
      · rw [← h'] at h; linarith
    · intro h
      nlinarith [mul_pos hp (mul_pos hp h)]
  · simp only [lt, energy, he, Option.bind_some, ht, if_false, Option.some.injEq, decide_eq_false_iff_not, not_lt]
    rw [div_le_iff₀ hq]
    nlinarith [mul_nonneg hp.le (mul_nonneg hp.le (hd t))]
  · simp [lt, energy, he]

/-- Scattering at different angles is taken for the same interaction, while one sorts before the other. -/
theorem angles_ignored : ∃ (i j : I) (delta : Rat → Rat), Good i ∧ Good j ∧ (∀ t, 0 ≤ delta t) ∧ same i j = true ∧
    lt delta i j = some true := by
  refine ⟨.inelastic (.source 10 0) 180, .inelastic (.source 10 0) 90, fun t => if t = 180 then 2 else 1, trivial, trivial, ?_, ?_, ?_⟩
  · intro t; show (0 : Rat) ≤ if t = 180 then 2 else 1; split <;> norm_num
  · simp [same, name]
  · norm_num [lt, energy]

example : name (.inelastic (.elastic (.source 7 12)) 90) = "CScat(RScat(Source-12))".toList := by decide +kernel
example : energy (fun _ => 1) (.inelastic (.source 1 0) 90) = some (1 / 2) := by norm_num [energy]
example : Good (.fluo "Fe".toList "KL3".toList 6) := ⟨by decide, by decide, by decide⟩

end SC.Interact
