import Verif.Quadric.Lsq
import Mathlib.Algebra.BigOperators.Fin
import Mathlib.LinearAlgebra.Matrix.Notation
import Mathlib.Tactic.Ring
import Mathlib.Tactic.Linarith
import Mathlib.Tactic.FinCases
import Mathlib.Data.Rat.Defs
import Mathlib.Algebra.Order.Ring.Rat
/-! # C78: constrained least squares -/
namespace SC.Lsq
open Matrix

variable {K : Type} [Field K] [LinearOrder K] [IsStrictOrderedRing K] {n m : Nat}

/-- What is minimised: `||C.x - d||^2 + reg * ||x||^2`. -/
def cost (i : Input K n m) (x : Fin m → K) : K :=
  (∑ k, ((∑ j, i.C k j * x j) - i.d k) ^ 2) + i.reg * ∑ j, x j ^ 2

/-- The value of a bound. -/
def Bound.at (v : Bound K) (j : Fin m) : K := match v with
  | .scalar v => v
  | .list [v] => v
  | .list l => l.getD j 0

/-- Inequalities, equalities and bounds. -/
structure Feasible (i : Input K n m) (x : Fin m → K) : Prop where
  ineq : ∀ A b, i.A = some A → i.b = some b → ∀ p ∈ A.zip b, (∑ j, p.1 j * x j) ≤ p.2
  eq : ∀ p ∈ i.Aeq.zip i.beq, (∑ j, p.1 j * x j) = p.2
  lo : ∀ v : Bound K, i.lb = some v → ∀ j, v.at j ≤ x j
  hi : ∀ v : Bound K, i.ub = some v → ∀ j, x j ≤ v.at j

/-- The constrained least squares solutions. -/
def Solution (i : Input K n m) (x : Fin m → K) : Prop :=
  Feasible i x ∧ ∀ y, Feasible i y → cost i x ≤ cost i y

/-- What the solver satisfies. -/
def QP.Feasible (p : QP K m) (x : Fin m → K) : Prop :=
  (∀ c ∈ p.G.zip p.h, (∑ j, c.1 j * x j) ≤ c.2) ∧ ∀ c ∈ p.A.zip p.b, (∑ j, c.1 j * x j) = c.2

/-- What the solver minimises. -/
def QP.objective (p : QP K m) (x : Fin m → K) : K := (∑ i, ∑ j, x i * p.Q i j * x j) / 2 + ∑ j, p.q j * x j

/-- The results of the solver. -/
def QP.Solution (p : QP K m) (x : Fin m → K) : Prop := p.Feasible x ∧ ∀ y, p.Feasible y → p.objective x ≤ p.objective y

/-- Sizes that fit. -/
structure Fits (i : Input K n m) : Prop where
  ab : (i.A.map List.length) = i.b.map List.length
  one : (i.b.map List.length) ≠ some 1
  eq : i.Aeq.length = i.beq.length
  lo : ∀ l, i.lb = some (.list l) → l.length = 1 ∨ l.length = m
  hi : ∀ l, i.ub = some (.list l) → l.length = 1 ∨ l.length = m

theorem expand_length (v : Bound K) (h : ∀ l, v = .list l → l.length = 1 ∨ l.length = m) : (v.expand m).length = m := by
  cases v with
  | scalar v => simp [Bound.expand]
  | list l =>
    simp only [Bound.expand]
    split
    · rename_i h1
      match l, h1 with
      | [a], _ => simp
    · rename_i h1
      rcases h l rfl with h2 | h2
      · exact absurd h2 h1
      · exact h2

theorem expand_at (v : Bound K) (h : ∀ l, v = .list l → l.length = 1 ∨ l.length = m) (j : Fin m) :
    (v.expand m)[(j : Nat)]? = some (v.at j) := by
  cases v with
  | scalar v => simp [Bound.expand, Bound.at]
  | list l =>
    simp only [Bound.expand]
    split
    · rename_i h1
      match l, h1 with
      | [a], _ => simp [Bound.at]
    · rename_i h1
      rcases h l rfl with h2 | h2
      · exact absurd h2 h1
      · have hj : (j : Nat) < l.length := by rw [h2]; exact j.2
        have : Bound.at (.list l) j = l.getD j 0 := by
          match l, h1 with
          | [], _ => rfl
          | [a], h1 => simp at h1
          | a :: b :: r, _ => rfl
        rw [this]
        simp [hj]

theorem eye_get (j : Fin m) : (eye m : List (Fin m → K))[(j : Nat)]? = some (fun k => if j = k then 1 else 0) := by
  unfold eye
  simp

theorem zip_mem {α β : Type} (a : List α) (b : List β) (p : α × β) :
    p ∈ a.zip b ↔ ∃ k : Nat, a[k]? = some p.1 ∧ b[k]? = some p.2 := by
  constructor
  · intro h
    obtain ⟨k, hk⟩ := List.mem_iff_getElem?.1 h
    rw [List.getElem?_zip_eq_some] at hk
    exact ⟨k, hk⟩
  · rintro ⟨k, h1, h2⟩
    apply List.mem_iff_getElem?.2
    exact ⟨k, List.getElem?_zip_eq_some.2 ⟨h1, h2⟩⟩

/-- The inequalities of a lower bound. -/
theorem lower_ineq (v : Bound K) (h : ∀ l, v = .list l → l.length = 1 ∨ l.length = m) (x : Fin m → K) :
    (∀ c ∈ ((eye m : List (Fin m → K)).map (fun r => fun j => -(r j))).zip ((v.expand m).map fun x => -x), (∑ j, c.1 j * x j) ≤ c.2) ↔
      ∀ j, v.at j ≤ x j := by
  have key : ∀ j : Fin m, (∑ k, -(if j = k then (1 : K) else 0) * x k) = -(x j) := by
    intro j
    rw [Finset.sum_eq_single j]
    · simp
    · intro b _ hb; rw [if_neg (fun e => hb e.symm)]; simp
    · intro h; exact absurd (Finset.mem_univ _) h
  constructor
  · intro hc j
    have := hc (fun k => -(if j = k then 1 else 0), -(v.at j)) ((zip_mem _ _ _).2 ⟨j, by
      rw [List.getElem?_map, eye_get]; rfl, by rw [List.getElem?_map, expand_at v h]; rfl⟩)
    simp only at this
    rw [key j] at this
    linarith
  · intro hj c hc
    obtain ⟨k, h1, h2⟩ := (zip_mem _ _ _).1 hc
    rw [List.getElem?_map] at h1 h2
    obtain ⟨r, hr, hr2⟩ := Option.map_eq_some_iff.1 h1
    have hk : k < m := by
      have := (List.getElem?_eq_some_iff.1 hr).1
      simpa [eye] using this
    have e1 := eye_get (K := K) (⟨k, hk⟩ : Fin m)
    have e2 := expand_at v h ⟨k, hk⟩
    simp only at e1 e2
    rw [hr] at e1
    rw [e2] at h2
    simp only [Option.some.injEq, Option.map_some] at e1 h2
    rw [← h2, ← hr2, e1, key]
    have := hj ⟨k, hk⟩
    linarith

/-- The inequalities of an upper bound. -/
theorem upper_ineq (v : Bound K) (h : ∀ l, v = .list l → l.length = 1 ∨ l.length = m) (x : Fin m → K) :
    (∀ c ∈ (eye m : List (Fin m → K)).zip (v.expand m), (∑ j, c.1 j * x j) ≤ c.2) ↔ ∀ j, x j ≤ v.at j := by
  have key : ∀ j : Fin m, (∑ k, (if j = k then (1 : K) else 0) * x k) = x j := by
    intro j
    rw [Finset.sum_eq_single j]
    · simp
    · intro b _ hb; rw [if_neg (fun e => hb e.symm)]; simp
    · intro h; exact absurd (Finset.mem_univ _) h
  constructor
  · intro hc j
    have := hc (fun k => (if j = k then 1 else 0), v.at j) ((zip_mem _ _ _).2 ⟨j, eye_get j, expand_at v h j⟩)
    simp only at this
    rw [key j] at this
    exact this
  · intro hj c hc
    obtain ⟨k, h1, h2⟩ := (zip_mem _ _ _).1 hc
    have hk : k < m := by
      have := (List.getElem?_eq_some_iff.1 h1).1
      simpa [eye] using this
    have e1 := eye_get (K := K) (⟨k, hk⟩ : Fin m)
    have e2 := expand_at v h ⟨k, hk⟩
    simp only at e1 e2
    rw [h1] at e1
    rw [h2] at e2
    simp only [Option.some.injEq] at e1 e2
    rw [e1, e2, key]
    exact hj _

/-- One step: the inequalities before and those of the bound. -/
theorem bound_step (lo : Bool) (bd : Option (Bound K)) (h : ∀ l, bd = some (.list l) → l.length = 1 ∨ l.length = m)
    (A : Option (List (Fin m → K))) (b : Option (List K)) (hab : A.map List.length = b.map List.length) (x : Fin m → K) :
    ((addBound lo bd A b).1.map List.length = (addBound lo bd A b).2.map List.length) ∧
    ((∀ c ∈ ((addBound lo bd A b).1.getD []).zip ((addBound lo bd A b).2.getD []), (∑ j, c.1 j * x j) ≤ c.2) ↔
      (∀ c ∈ (A.getD []).zip (b.getD []), (∑ j, c.1 j * x j) ≤ c.2) ∧
      ∀ v : Bound K, bd = some v → ∀ j, if lo then v.at j ≤ x j else x j ≤ v.at j) := by
  cases bd with
  | none => exact ⟨hab, by simp [addBound]⟩
  | some v =>
    have hv : ∀ l, v = .list l → l.length = 1 ∨ l.length = m := fun l hl => h l (by rw [hl])
    have hlen : (v.expand m).length = m := expand_length v hv
    have heye : (eye m : List (Fin m → K)).length = m := by simp [eye]
    have hbnd : (∀ c ∈ (if lo then (eye m : List (Fin m → K)).map (fun r => fun j => -(r j)) else eye m).zip
        (if lo then (v.expand m).map (fun x => -x) else v.expand m), (∑ j, c.1 j * x j) ≤ c.2) ↔
        ∀ j, if lo then v.at j ≤ x j else x j ≤ v.at j := by
      cases lo with
      | true => simpa using lower_ineq v hv x
      | false => simpa using upper_ineq v hv x
    have hl1 : (if lo then (eye m : List (Fin m → K)).map (fun r => fun j => -(r j)) else eye m).length = m := by
      cases lo <;> simp [heye]
    have hl2 : (if lo then (v.expand m).map (fun x => -x) else v.expand m).length = m := by
      cases lo <;> simp [hlen]
    unfold addBound
    simp only [Option.getD_some, Option.some.injEq, forall_eq', Option.map_some]
    rw [← hbnd]
    generalize (if lo then (eye m : List (Fin m → K)).map (fun r => fun j => -(r j)) else eye m) = E at hl1
    generalize (if lo then (v.expand m).map (fun x => -x) else v.expand m) = V at hl2
    cases A with
    | none =>
      cases b with
      | none => simp [stack, hl1, hl2]
      | some b => simp at hab
    | some A =>
      cases b with
      | none => simp at hab
      | some b =>
        simp only [Option.map_some, Option.some.injEq] at hab
        simp only [stack, Option.getD_some, List.length_append, hab, hl1, hl2, true_and]
        rw [List.zip_append hab]
        simp only [List.mem_append]
        constructor
        · intro hh
          exact ⟨fun c hc => hh c (Or.inl hc), fun c hc => hh c (Or.inr hc)⟩
        · rintro ⟨ha, hb⟩ c (hc | hc)
          · exact ha c hc
          · exact hb c hc

/-- **C78.** With sizes that fit a program is made. -/
theorem program_ok (i : Input K n m) (hf : Fits i) : ∃ p, program i = .ok p := by
  obtain ⟨h1, _⟩ := bound_step true i.lb hf.lo i.A i.b hf.ab (fun _ => 0)
  obtain ⟨h2, _⟩ := bound_step false i.ub hf.hi _ _ h1 (fun _ => 0)
  unfold program
  simp only [hf.one, if_false]
  have hl : ((addBound false i.ub (addBound true i.lb i.A i.b).1 (addBound true i.lb i.A i.b).2).1.getD []).length =
      ((addBound false i.ub (addBound true i.lb i.A i.b).1 (addBound true i.lb i.A i.b).2).2.getD []).length := by
    generalize (addBound false i.ub (addBound true i.lb i.A i.b).1 (addBound true i.lb i.A i.b).2) = s at h2
    obtain ⟨a, b⟩ := s
    cases a <;> cases b <;> simp_all
  rw [if_neg (by rw [not_or, not_not, not_not]; exact ⟨hl, hf.eq⟩)]
  exact ⟨_, rfl⟩

theorem program_feasible (i : Input K n m) (hf : Fits i) (p : QP K m) (hp : program i = .ok p) (x : Fin m → K) :
    p.Feasible x ↔ Feasible i x := by
  obtain ⟨h1, h1'⟩ := bound_step true i.lb hf.lo i.A i.b hf.ab x
  obtain ⟨h2, h2'⟩ := bound_step false i.ub hf.hi _ _ h1 x
  unfold program at hp
  simp only [hf.one, if_false] at hp
  split at hp
  · simp at hp
  · simp only [Except.ok.injEq] at hp
    subst hp
    unfold QP.Feasible
    simp only
    rw [h2', h1']
    have hin : (∀ c ∈ (i.A.getD []).zip (i.b.getD []), (∑ j, c.1 j * x j) ≤ c.2) ↔
        ∀ A b, i.A = some A → i.b = some b → ∀ p ∈ A.zip b, (∑ j, p.1 j * x j) ≤ p.2 := by
      have hab := hf.ab
      cases hA : i.A with
      | none => simp
      | some A =>
        cases hb : i.b with
        | none => simp
        | some b => simp
    rw [hin]
    constructor
    · rintro ⟨⟨⟨a, b⟩, c⟩, d⟩
      exact ⟨a, d, by simpa using b, by simpa using c⟩
    · rintro ⟨a, d, b, c⟩
      exact ⟨⟨⟨a, by simpa using b⟩, by simpa using c⟩, d⟩

theorem quad_normal (C : Matrix (Fin n) (Fin m) K) (x : Fin m → K) :
    ∑ a, ∑ b, x a * (Cᵀ * C) a b * x b = ∑ k, (∑ j, C k j * x j) ^ 2 := by
  have h : ∀ k, (∑ j, C k j * x j) ^ 2 = ∑ a, ∑ b, (C k a * x a) * (C k b * x b) := by
    intro k
    rw [sq, Finset.sum_mul_sum]
  simp only [h, Matrix.mul_apply, Matrix.transpose_apply, Finset.mul_sum, Finset.sum_mul]
  rw [Finset.sum_comm]
  calc ∑ y, ∑ x_1, ∑ i, x x_1 * (C i x_1 * C i y) * x y = ∑ y, ∑ i, ∑ x_1, x x_1 * (C i x_1 * C i y) * x y := by
        apply Finset.sum_congr rfl; intro y _; rw [Finset.sum_comm]
    _ = ∑ i, ∑ y, ∑ x_1, x x_1 * (C i x_1 * C i y) * x y := by rw [Finset.sum_comm]
    _ = ∑ i, ∑ a, ∑ b, C i a * x a * (C i b * x b) := by
        apply Finset.sum_congr rfl; intro i _
        rw [Finset.sum_comm]
        apply Finset.sum_congr rfl; intro a _
        apply Finset.sum_congr rfl; intro b _
        ring

/-- **C78.** What the solver minimises is half of the cost, up to a constant. -/
theorem program_cost (i : Input K n m) (hr : 0 ≤ i.reg) (p : QP K m) (hp : program i = .ok p) (x : Fin m → K) :
    2 * p.objective x + ∑ k, i.d k ^ 2 = cost i x := by
  unfold program at hp
  simp only at hp
  split at hp
  · simp at hp
  · split at hp
    · simp at hp
    · simp only [Except.ok.injEq] at hp
      subst hp
      unfold QP.objective cost
      simp only
      have hq : ∑ j, ((fun k => -(i.d k)) ᵥ* i.C) j * x j = -∑ k, i.d k * ∑ j, i.C k j * x j := by
        simp only [Matrix.vecMul, dotProduct, Finset.sum_mul, Finset.mul_sum]
        rw [Finset.sum_comm, ← Finset.sum_neg_distrib]
        apply Finset.sum_congr rfl; intro k _
        rw [← Finset.sum_neg_distrib]
        apply Finset.sum_congr rfl; intro j _
        ring
      have hQ : ∑ a, ∑ b, x a * (if 0 < i.reg then i.Cᵀ * i.C + i.reg • (1 : Matrix (Fin m) (Fin m) K) else i.Cᵀ * i.C) a b * x b =
          (∑ k, (∑ j, i.C k j * x j) ^ 2) + i.reg * ∑ j, x j ^ 2 := by
        rcases hr.eq_or_lt with h0 | h0
        · rw [if_neg (by rw [← h0]; exact lt_irrefl _), quad_normal, ← h0]
          ring
        · rw [if_pos h0]
          have : ∀ a b, x a * (i.Cᵀ * i.C + i.reg • (1 : Matrix (Fin m) (Fin m) K)) a b * x b =
              x a * (i.Cᵀ * i.C) a b * x b + (if a = b then i.reg * x a ^ 2 else 0) := by
            intro a b
            rw [Matrix.add_apply, Matrix.smul_apply, Matrix.one_apply]
            by_cases hab : a = b
            · subst hab; simp only [if_true, smul_eq_mul]; ring
            · simp only [hab, if_false, smul_eq_mul]; ring
          simp only [this, Finset.sum_add_distrib]
          rw [quad_normal]
          congr 1
          rw [Finset.mul_sum]
          apply Finset.sum_congr rfl; intro a _
          simp
      rw [hq, hQ]
      have hsq : ∑ k, ((∑ j, i.C k j * x j) - i.d k) ^ 2 =
          (∑ k, (∑ j, i.C k j * x j) ^ 2) - 2 * (∑ k, i.d k * ∑ j, i.C k j * x j) + ∑ k, i.d k ^ 2 := by
        rw [Finset.mul_sum, ← Finset.sum_sub_distrib, ← Finset.sum_add_distrib]
        apply Finset.sum_congr rfl; intro k _
        ring
      rw [hsq]
      ring

/-- **C78.** The solutions of the program are the constrained, regularised least squares solutions. -/
theorem program_solution (i : Input K n m) (hf : Fits i) (hr : 0 ≤ i.reg) (p : QP K m) (hp : program i = .ok p) (x : Fin m → K) :
    p.Solution x ↔ Solution i x := by
  have hle : ∀ y, p.objective x ≤ p.objective y ↔ cost i x ≤ cost i y := by
    intro y
    rw [← program_cost i hr p hp x, ← program_cost i hr p hp y]
    constructor <;> intro h <;> linarith
  unfold QP.Solution Solution
  simp only [program_feasible i hf p hp, hle]

/-- **C78.** Non negative least squares. -/
theorem nonneg_solution (C : Matrix (Fin n) (Fin m) K) (d : Fin n → K) :
    ∃ p, program (nonneg C d) = .ok p ∧ ∀ x, p.Solution x ↔
      (∀ j, 0 ≤ x j) ∧ ∀ y : Fin m → K, (∀ j, 0 ≤ y j) →
        ∑ k, ((∑ j, C k j * x j) - d k) ^ 2 ≤ ∑ k, ((∑ j, C k j * y j) - d k) ^ 2 := by
  have hf : Fits (nonneg C d) := ⟨rfl, by simp [nonneg], rfl, by simp [nonneg], by simp [nonneg]⟩
  obtain ⟨p, hp⟩ := program_ok _ hf
  refine ⟨p, hp, ?_⟩
  intro x
  rw [program_solution _ hf (le_refl _) p hp]
  have feas : ∀ y : Fin m → K, Feasible (nonneg C d) y ↔ ∀ j, 0 ≤ y j := by
    intro y
    constructor
    · intro h j
      exact h.lo (.scalar 0) rfl j
    · intro h
      refine ⟨by simp [nonneg], by simp [nonneg], ?_, by simp [nonneg]⟩
      intro v hv j
      simp only [nonneg, Option.some.injEq] at hv
      subst hv
      exact h j
  unfold Solution
  simp only [feas]
  simp [cost, nonneg]

/-- **C78.** Normalised least squares. -/
theorem norm_solution (C : Matrix (Fin n) (Fin m) K) (d : Fin n → K) :
    ∃ p, program (norm C d) = .ok p ∧ ∀ x, p.Solution x ↔
      ((∀ j, 0 ≤ x j ∧ x j ≤ 1) ∧ ∑ j, x j = 1) ∧ ∀ y : Fin m → K, (∀ j, 0 ≤ y j ∧ y j ≤ 1) ∧ ∑ j, y j = 1 →
        ∑ k, ((∑ j, C k j * x j) - d k) ^ 2 ≤ ∑ k, ((∑ j, C k j * y j) - d k) ^ 2 := by
  have hf : Fits (norm C d) := ⟨rfl, by simp [norm], rfl, by simp [norm], by simp [norm]⟩
  obtain ⟨p, hp⟩ := program_ok _ hf
  refine ⟨p, hp, ?_⟩
  intro x
  rw [program_solution _ hf (le_refl _) p hp]
  have feas : ∀ y : Fin m → K, Feasible (norm C d) y ↔ (∀ j, 0 ≤ y j ∧ y j ≤ 1) ∧ ∑ j, y j = 1 := by
    intro y
    constructor
    · intro h
      refine ⟨fun j => ⟨h.lo (.scalar 0) rfl j, h.hi (.scalar 1) rfl j⟩, ?_⟩
      have := h.eq (fun _ => 1, 1) (by simp [norm])
      simpa using this
    · rintro ⟨h, hs⟩
      refine ⟨by simp [norm], ?_, ?_, ?_⟩
      · intro p hp
        simp only [norm, List.zip_cons_cons, List.zip_nil_right, List.mem_singleton] at hp
        subst hp
        simpa using hs
      · intro v hv j
        simp only [norm, Option.some.injEq] at hv
        subst hv
        exact (h j).1
      · intro v hv j
        simp only [norm, Option.some.injEq] at hv
        subst hv
        exact (h j).2
  unfold Solution
  simp only [feas]
  simp [cost, norm]

/-- Not so: one single inequality cannot be given. -/
theorem program_one (C : Matrix (Fin n) (Fin m) K) (d : Fin n → K) (reg : K) (a : Fin m → K) (b : K) (lb ub : Option (Bound K)) :
    program ⟨C, d, reg, some [a], some [b], [], [], lb, ub⟩ = .error .zeroDim := rfl

/-- Not so: a negative regularization is ignored. -/
theorem program_negative (i : Input K n m) (hr : i.reg < 0) : program i = program { i with reg := 0 } := by
  unfold program
  simp only [lt_irrefl, if_false, not_lt.2 hr.le]

example : Fits (⟨!![1, 2; 3, 4; 5, 6], ![1, 2, 3], 1, some [![1, 1], ![1, 0]], some [3, 4], [], [], some (.list [0, 1]), some (.scalar 7)⟩ : Input ℚ 3 2) :=
  ⟨rfl, by simp, rfl, by simp, by simp⟩

end SC.Lsq
