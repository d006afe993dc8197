import Verif.ParamTree.Spec
import Mathlib.Data.List.Perm.Subperm
/-! # C17: lemmas -/
namespace SC.ParamTree
open SC.Py

variable {K V : Type} [DecidableEq K] [DecidableEq V]
set_option linter.unusedSectionVars false

/-! ## loops -/

/-- The nodes from `i` to its root. -/
inductive Chain (s : Forest K V) : Nat → List Nat → Prop
  | root {i} : s.parent i = none → Chain s i [i]
  | step {i p l} : s.parent i = some p → Chain s p l → Chain s i (i :: l)

theorem Chain.unique {s : Forest K V} {i : Nat} {l m : List Nat} (h : Chain s i l) (h' : Chain s i m) : l = m := by
  induction h generalizing m with
  | root h => cases h' with
    | root _ => rfl
    | step h2 _ => rw [h] at h2; simp at h2
  | step h _ ih => cases h' with
    | root h2 => rw [h] at h2; simp at h2
    | step h2 h3 =>
      rw [h] at h2; simp only [Option.some.injEq] at h2; subst h2
      rw [ih h3]

theorem Chain.exists {s : Forest K V} (hs : WF s) (i : Nat) : ∃ l, Chain s i l := by
  induction i using hs.acyclic.induction with
  | _ i ih =>
    cases h : s.parent i with
    | none => exact ⟨_, .root h⟩
    | some p => obtain ⟨l, hl⟩ := ih p h; exact ⟨_, .step h hl⟩

theorem Chain.suffix {s : Forest K V} {i j : Nat} {l : List Nat} (h : Chain s i l) (hj : j ∈ l) :
    ∃ m, Chain s j m ∧ m.length ≤ l.length := by
  induction h with
  | @root i h => rw [List.mem_singleton] at hj; subst hj; exact ⟨_, .root h, Nat.le_refl _⟩
  | @step i p l h hc ih =>
    rcases List.mem_cons.mp hj with e | e
    · subst e; exact ⟨_, .step h hc, Nat.le_refl _⟩
    · obtain ⟨m, h1, h2⟩ := ih e
      exact ⟨m, h1, by simp only [List.length_cons]; omega⟩

theorem Chain.nodup {s : Forest K V} {i : Nat} {l : List Nat} (h : Chain s i l) : l.Nodup := by
  induction h with
  | root h => simp
  | step h hc ih =>
    refine List.nodup_cons.mpr ⟨fun hm => ?_, ih⟩
    obtain ⟨m, h1, h2⟩ := hc.suffix hm
    have := Chain.unique h1 (.step h hc)
    subst this
    simp only [List.length_cons] at h2
    omega

theorem Chain.mem_iff {s : Forest K V} {i : Nat} {l : List Nat} (h : Chain s i l) (j : Nat) :
    j ∈ l ↔ Below s i j := by
  induction h with
  | @root i h =>
    rw [List.mem_singleton]
    constructor
    · rintro rfl; exact Relation.ReflTransGen.refl
    · intro hb
      rcases Relation.ReflTransGen.cases_head hb with e | ⟨c, hc, _⟩
      · exact e.symm
      · simp only [IsParent] at hc; rw [h] at hc; simp at hc
  | @step i p l h hc ih =>
    rw [List.mem_cons, ih]
    constructor
    · rintro (rfl | hb)
      · exact Relation.ReflTransGen.refl
      · exact Relation.ReflTransGen.head h hb
    · intro hb
      rcases Relation.ReflTransGen.cases_head hb with e | ⟨c, hc, h2⟩
      · exact Or.inl e.symm
      · simp only [IsParent] at hc; rw [h] at hc; simp only [Option.some.injEq] at hc; subst hc
        exact Or.inr h2

theorem below_lt {s : Forest K V} (hs : WF s) {i j : Nat} (hi : i < s.size) (h : Below s i j) : j < s.size := by
  induction h with
  | refl => exact hi
  | tail _ h _ => exact (hs.closed _ _ h).2

theorem Chain.length_le {s : Forest K V} (hs : WF s) {i : Nat} (hi : i < s.size) {l : List Nat}
    (h : Chain s i l) : l.length ≤ s.size := by
  have : l ⊆ List.range s.size := fun j hj => List.mem_range.mpr (below_lt hs hi ((h.mem_iff j).mp hj))
  simpa using (h.nodup.subperm this).length_le

theorem up_eq {s : Forest K V} {i : Nat} {l : List Nat} (h : Chain s i l) :
    ∀ f, l.length ≤ f → up s f i = l := by
  induction h with
  | root h => intro f hf; cases f <;> simp_all [up]
  | step h hc ih =>
    intro f hf
    cases f with
    | zero => simp at hf
    | succ f => simp only [List.length_cons, Nat.add_le_add_iff_right] at hf; simp [up, h, ih f hf]

/-- The loop over parents is complete: it ends at a root. -/
theorem iterUp_chain {s : Forest K V} (hs : WF s) {i : Nat} (hi : i < s.size) : Chain s i (iterUp s i) := by
  obtain ⟨l, hl⟩ := Chain.exists hs i
  rw [iterUp, up_eq hl _ (hl.length_le hs hi)]
  exact hl

/-- `j` is `n` steps below `i`. -/
def BelowN (s : Forest K V) : Nat → Nat → Nat → Prop
  | 0, j, i => j = i
  | n + 1, j, i => ∃ c, s.parent c = some i ∧ BelowN s n j c

theorem belowN_below {s : Forest K V} {n j i : Nat} (h : BelowN s n j i) : Below s j i := by
  induction n generalizing i with
  | zero => cases h; exact Relation.ReflTransGen.refl
  | succ n ih =>
    obtain ⟨c, h1, h2⟩ := h
    exact Relation.ReflTransGen.tail (ih h2) h1

theorem below_belowN {s : Forest K V} {j i : Nat} (h : Below s j i) : ∃ n, BelowN s n j i := by
  induction h with
  | refl => exact ⟨0, rfl⟩
  | tail _ h ih => obtain ⟨n, hn⟩ := ih; exact ⟨n + 1, _, h, hn⟩

/-- The chain of `j` is at least `n` longer than that of `i`. -/
theorem belowN_length {s : Forest K V} {n j i : Nat} (h : BelowN s n j i) {l m : List Nat}
    (hl : Chain s j l) (hm : Chain s i m) : l.length = m.length + n := by
  induction n generalizing i m with
  | zero => cases h; rw [hl.unique hm]; rfl
  | succ n ih =>
    obtain ⟨c, h1, h2⟩ := h
    have := ih h2 (.step h1 hm)
    simp only [List.length_cons] at this
    omega

theorem mem_down {s : Forest K V} (hs : WF s) (f j i : Nat) :
    j ∈ down s f i ↔ ∃ n < f, BelowN s n j i := by
  induction f generalizing i with
  | zero => simp [down]
  | succ f ih =>
    simp only [down, List.mem_cons, List.mem_flatMap, ih]
    constructor
    · rintro (rfl | ⟨c, hc, n, hn, hb⟩)
      · exact ⟨0, by omega, rfl⟩
      · exact ⟨n + 1, by omega, c, (hs.links i c).mp hc, hb⟩
    · rintro ⟨n, hn, hb⟩
      cases n with
      | zero => exact Or.inl hb
      | succ n =>
        obtain ⟨c, h1, h2⟩ := hb
        exact Or.inr ⟨c, (hs.links i c).mpr h1, n, by omega, h2⟩

/-- The loop over children is complete. -/
theorem mem_iterDown {s : Forest K V} (hs : WF s) (i j : Nat) (hi : i < s.size) :
    j ∈ iterDown s i ↔ Below s j i := by
  rw [iterDown, mem_down hs]
  constructor
  · rintro ⟨n, _, h⟩; exact belowN_below h
  · intro h
    obtain ⟨n, hn⟩ := below_belowN h
    refine ⟨n, ?_, hn⟩
    obtain ⟨l, hl⟩ := Chain.exists hs j
    obtain ⟨m, hm⟩ := Chain.exists hs i
    have e := belowN_length hn hl hm
    have hj : j < s.size := by
      cases n with
      | zero => cases hn; exact hi
      | succ n =>
        rcases Relation.ReflTransGen.cases_head h with e' | ⟨c, hc, _⟩
        · rw [e']; exact hi
        · exact (hs.closed _ _ hc).1
    have := hl.length_le hs hj
    have hpos : 0 < m.length := by cases hm <;> simp
    omega

theorem iterDown_cons {s : Forest K V} (i : Nat) (hi : i < s.size) : ∃ t, iterDown s i = i :: t := by
  rw [iterDown]
  cases h : s.size with
  | zero => omega
  | succ n => exact ⟨_, rfl⟩

theorem down_lt {s : Forest K V} (hs : WF s) {i j : Nat} (hi : i < s.size) (h : Below s j i) : j < s.size := by
  rcases Relation.ReflTransGen.cases_head h with e | ⟨c, hc, _⟩
  · rw [e]; exact hi
  · exact (hs.closed _ _ hc).1

/-- Nothing is its own proper ancestor. -/
theorem below_antisymm {s : Forest K V} (hs : WF s) {i p : Nat} (h : s.parent i = some p) : ¬ Below s p i := by
  intro hb
  obtain ⟨l, hl⟩ := Chain.exists hs p
  exact (List.nodup_cons.mp (Chain.step h hl).nodup).1 ((hl.mem_iff i).mpr hb)

/-! ## structural changes -/

theorem parent_upd (s : Forest K V) (i j : Nat) (f : Rec K V → Rec K V) :
    (s.upd i f).parent j = if j = i then (f (s.node i)).parent else s.parent j := by
  simp only [Forest.parent, Forest.upd]; split <;> rfl
theorem children_upd (s : Forest K V) (i j : Nat) (f : Rec K V → Rec K V) :
    (s.upd i f).children j = if j = i then (f (s.node i)).children else s.children j := by
  simp only [Forest.children, Forest.upd]; split <;> rfl
theorem data_upd (s : Forest K V) (i j : Nat) (f : Rec K V → Rec K V) :
    (s.upd i f).data j = if j = i then (f (s.node i)).data else s.data j := by
  simp only [Forest.data, Forest.upd]; split <;> rfl

theorem parent_newparent (s : Forest K V) (i j : Nat) (node : Option Nat) :
    (newparent s i node).parent j = if j = i then node else s.parent j := by
  simp only [newparent]
  cases node <;> cases s.parent i <;> simp only [Forest.parent, Forest.upd] <;>
    (repeat' split) <;> simp_all

theorem data_newparent (s : Forest K V) (i j : Nat) (node : Option Nat) :
    (newparent s i node).data j = s.data j := by
  simp only [newparent]
  cases node <;> cases s.parent i <;> simp only [Forest.data, Forest.upd] <;>
    (repeat' split) <;> simp_all

theorem size_newparent (s : Forest K V) (i : Nat) (node : Option Nat) : (newparent s i node).size = s.size := by
  simp only [newparent]
  cases node <;> cases s.parent i <;> rfl

theorem children_newparent (s : Forest K V) (i j : Nat) (node : Option Nat) :
    (newparent s i node).children j =
      (if s.parent i = some j then (s.children j).filter (fun c => !decide (c = i)) else s.children j) ++
      (if node = some j then [i] else []) := by
  simp only [newparent]
  cases node <;> cases s.parent i <;> simp only [Forest.children, Forest.upd] <;>
    (repeat' split) <;> simp_all

theorem wf_newparent {s : Forest K V} (hs : WF s) {i : Nat} (hi : i < s.size) {node : Option Nat}
    (hn : ∀ n, node = some n → n < s.size ∧ ¬ Below s n i) : WF (newparent s i node) := by
  refine ⟨?_, ?_, ?_, ?_⟩
  · intro j p h
    rw [size_newparent]
    rw [parent_newparent] at h
    split at h
    · rename_i e; subst e; exact ⟨hi, (hn p h).1⟩
    · exact hs.closed j p h
  · intro p c
    rw [children_newparent, parent_newparent, List.mem_append]
    have hl := hs.links p c
    by_cases hc : c = i
    · subst hc
      simp only [if_true]
      by_cases h1 : s.parent c = some p
      · simp only [h1, if_true, List.mem_filter, decide_true, Bool.not_true, Bool.false_eq_true, and_false, false_or]
        by_cases h2 : node = some p <;> simp [h2]
      · rw [if_neg h1, hl]
        by_cases h2 : node = some p <;> simp [h1, h2]
    · have e1 : c ∉ (if node = some p then [i] else []) := by split <;> simp [hc]
      simp only [e1, or_false, hc, if_false]
      split
      · rw [List.mem_filter, hl]; simp [hc]
      · exact hl
  · intro p
    rw [children_newparent]
    have h0 : (if s.parent i = some p then (s.children p).filter (fun c => !decide (c = i)) else s.children p).Nodup ∧
        i ∉ (if s.parent i = some p then (s.children p).filter (fun c => !decide (c = i)) else s.children p) := by
      split
      · exact ⟨(hs.nodup p).filter _, by simp⟩
      · rename_i h; exact ⟨hs.nodup p, fun hm => h ((hs.links p i).mp hm)⟩
    generalize (if s.parent i = some p then (s.children p).filter (fun c => !decide (c = i)) else s.children p) = l at h0
    by_cases h2 : node = some p
    · rw [if_pos h2]
      refine List.nodup_append.mpr ⟨h0.1, by simp, ?_⟩
      intro a ha b hb e
      rw [List.mem_singleton] at hb
      subst hb e
      exact h0.2 ha
    · rw [if_neg h2]; simpa using h0.1
  · have aux : ∀ k, ¬ Below s k i → Acc (IsParent (newparent s i node)) k := by
      intro k
      induction k using hs.acyclic.induction with
      | _ k ih =>
        intro hk
        refine Acc.intro k fun p hp => ?_
        have hki : k ≠ i := fun e => hk (e ▸ Relation.ReflTransGen.refl)
        have hp' : s.parent k = some p := by
          have := hp; simp only [IsParent, parent_newparent, hki, if_false] at this; exact this
        exact ih p hp' fun hb => hk (Relation.ReflTransGen.head hp' hb)
    constructor
    intro k
    induction k using hs.acyclic.induction with
    | _ k ih =>
      refine Acc.intro k fun p hp => ?_
      by_cases hki : k = i
      · subst hki
        have hp' : node = some p := by
          have := hp; simp only [IsParent, parent_newparent, if_true] at this; exact this
        exact aux p (hn p hp').2
      · have hp' : s.parent k = some p := by
          have := hp; simp only [IsParent, parent_newparent, hki, if_false] at this; exact this
        exact ih p hp'

/-- Below, when only the parent of `i` changes and `j` is not below `i`. -/
theorem below_newparent {s : Forest K V} {i j k : Nat} {node : Option Nat} (h : ¬ Below s j i) :
    Below (newparent s i node) j k ↔ Below s j k := by
  constructor
  · intro hb
    induction hb using Relation.ReflTransGen.head_induction_on with
    | refl => exact Relation.ReflTransGen.refl
    | @head a c h1 _ ih =>
      have hai : a ≠ i := fun e => h (e ▸ Relation.ReflTransGen.refl)
      have h1' : s.parent a = some c := by
        have := h1; simp only [IsParent, parent_newparent, hai, if_false] at this; exact this
      exact Relation.ReflTransGen.head h1' (ih fun hb => h (Relation.ReflTransGen.head h1' hb))
  · intro hb
    induction hb using Relation.ReflTransGen.head_induction_on with
    | refl => exact Relation.ReflTransGen.refl
    | @head a c h1 _ ih =>
      have hai : a ≠ i := fun e => h (e ▸ Relation.ReflTransGen.refl)
      refine Relation.ReflTransGen.head ?_ (ih fun hb => h (Relation.ReflTransGen.head h1 hb))
      simp only [IsParent, parent_newparent, hai, if_false]; exact h1

open scoped Classical in
/-- Everything about the parent setter. -/
theorem setParent_spec {s : Forest K V} (hs : WF s) {i : Nat} (hi : i < s.size) {node : Option Nat}
    (hn : ∀ n, node = some n → n < s.size) :
    WF (setParent s i node) ∧ (setParent s i node).size = s.size ∧ (∀ j, (setParent s i node).data j = s.data j) ∧
    (node ≠ some i → ∀ j, (setParent s i node).parent j =
      if j = i then node
      else if node = some j ∧ Below s j i then s.parent i
      else s.parent j) := by
  unfold setParent
  split
  · rename_i h
    refine ⟨hs, rfl, fun _ => rfl, ?_⟩
    intro hne j
    rcases h with h | h
    · exact absurd h hne
    · split
      · rename_i e; rw [e, h]
      · split
        · rename_i h2
          exact absurd h2.2 (below_antisymm hs (by rw [← h]; exact h2.1))
        · rfl
  · rename_i h
    rw [not_or] at h
    cases node with
    | none =>
      refine ⟨wf_newparent hs hi (by simp), size_newparent .., fun _ => data_newparent .., ?_⟩
      intro _ j
      simp [parent_newparent]
    | some n =>
      have hne : n ≠ i := fun e => h.1 (by rw [e])
      simp only [mem_iterDown hs i n hi]
      by_cases hb : Below s n i
      · simp only [hb, if_true]
        have hpi : ∀ p, s.parent i = some p → p < s.size ∧ ¬ Below s p n := by
          intro p hp
          refine ⟨(hs.closed _ _ hp).2, fun hpn => ?_⟩
          exact below_antisymm hs hp (Relation.ReflTransGen.trans hpn hb)
        have hs1 := wf_newparent hs (hn n rfl) hpi
        have hnb : ¬ Below (newparent s n (s.parent i)) n i := by
          intro hb'
          rcases Relation.ReflTransGen.cases_head hb' with e | ⟨c, hc, h2⟩
          · exact hne e
          · simp only [IsParent, parent_newparent, if_true] at hc
            rw [show Relation.ReflTransGen (fun c p => IsParent (newparent s n (s.parent i)) p c) c i ↔
              Below (newparent s n (s.parent i)) c i from Iff.rfl, below_newparent (hpi c hc).2] at h2
            exact below_antisymm hs hc h2
        refine ⟨wf_newparent hs1 (by rw [size_newparent]; exact hi) ?_, ?_, ?_, ?_⟩
        · intro m hm
          simp only [Option.some.injEq] at hm; subst hm
          exact ⟨by rw [size_newparent]; exact hn _ rfl, hnb⟩
        · rw [size_newparent, size_newparent]
        · intro j; rw [data_newparent, data_newparent]
        · intro _ j
          rw [parent_newparent, parent_newparent]
          by_cases hj : j = i
          · simp [hj]
          · simp only [hj, if_false]
            by_cases hjn : j = n
            · subst hjn; simp [hb]
            · simp [hjn, Ne.symm hjn]
      · simp only [hb, if_false]
        refine ⟨wf_newparent hs hi ?_, size_newparent .., fun _ => data_newparent .., ?_⟩
        · intro m hm
          simp only [Option.some.injEq] at hm; subst hm
          exact ⟨hn _ rfl, hb⟩
        · intro _ j
          rw [parent_newparent]
          split
          · rfl
          · rw [if_neg]
            rintro ⟨e, h2⟩
            simp only [Option.some.injEq] at e; subst e
            exact hb h2

theorem wf_empty : WF (Forest.empty : Forest K V) := by
  refine ⟨?_, ?_, ?_, ?_⟩
  · intro i p h; simp [Forest.empty, Forest.parent] at h
  · intro p c; simp [Forest.empty, Forest.parent, Forest.children]
  · intro p; simp [Forest.empty, Forest.children]
  · exact ⟨fun k => Acc.intro k fun p hp => by simp [IsParent, Forest.empty, Forest.parent] at hp⟩

/-- The forest with one more isolated node. -/
def grow (s : Forest K V) : Forest K V :=
  ⟨s.size + 1, fun j => if j = s.size then ⟨none, [], []⟩ else s.node j⟩

theorem parent_size {s : Forest K V} (hs : WF s) : s.parent s.size = none := by
  cases h : s.parent s.size with
  | none => rfl
  | some p => have := (hs.closed _ _ h).1; omega

theorem parent_grow {s : Forest K V} (hs : WF s) (j : Nat) : (grow s).parent j = s.parent j := by
  simp only [grow, Forest.parent]
  split
  · rename_i e; subst e; exact (parent_size hs).symm
  · rfl

theorem children_grow {s : Forest K V} (hs : WF s) (j : Nat) : (grow s).children j = s.children j := by
  simp only [grow, Forest.children]
  split
  · rename_i e; subst e
    symm
    rw [List.eq_nil_iff_forall_not_mem]
    intro c hc
    have := (hs.closed _ _ ((hs.links _ c).mp hc)).2
    omega
  · rfl

theorem data_grow {s : Forest K V} (j : Nat) : (grow s).data j = if j = s.size then [] else s.data j := by
  simp only [grow, Forest.data]; split <;> rfl

theorem wf_grow {s : Forest K V} (hs : WF s) : WF (grow s) := by
  have hz : (grow s).size = s.size + 1 := rfl
  refine ⟨?_, ?_, ?_, ?_⟩
  · intro i p h; rw [parent_grow hs] at h; have := hs.closed i p h; omega
  · intro p c; rw [parent_grow hs, children_grow hs]; exact hs.links p c
  · intro p; rw [children_grow hs]; exact hs.nodup p
  · have : IsParent (grow s) = IsParent s := by funext p c; simp only [IsParent, parent_grow hs]
    rw [this]; exact hs.acyclic

theorem below_grow {s : Forest K V} (hs : WF s) (i j : Nat) : Below (grow s) i j ↔ Below s i j := by
  have : IsParent (grow s) = IsParent s := by funext p c; simp only [IsParent, parent_grow hs]
  simp only [Below, this]

theorem newNode_eq (s : Forest K V) (p : Option Nat) : newNode s p = setParent (grow s) s.size p := rfl

/-- A new node is empty, below its parent, and nothing else changes. -/
theorem newNode_spec {s : Forest K V} (hs : WF s) (p : Option Nat) (hp : ∀ n, p = some n → n < s.size) :
    WF (newNode s p) ∧ (newNode s p).size = s.size + 1 ∧
    (∀ j, (newNode s p).data j = if j = s.size then [] else s.data j) ∧
    (∀ j, (newNode s p).parent j = if j = s.size then p else s.parent j) := by
  have hg := wf_grow hs
  have hz : (grow s).size = s.size + 1 := rfl
  obtain ⟨h1, h2, h3, h4⟩ := setParent_spec hg (i := s.size) (by omega) (node := p)
    (fun n hn => by have := hp n hn; omega)
  rw [newNode_eq]
  refine ⟨h1, by omega, fun j => by rw [h3, data_grow], fun j => ?_⟩
  have hne : p ≠ some s.size := fun e => by have := hp _ e; omega
  rw [h4 hne j]
  split
  · rfl
  · rw [parent_grow hs, parent_grow hs, if_neg]
    rintro ⟨e, hb⟩
    rw [below_grow hs] at hb
    rcases Relation.ReflTransGen.cases_tail hb with e' | ⟨c, _, hc⟩
    · have := hp _ e; omega
    · simp only [IsParent] at hc
      have := (hs.closed _ _ hc).2; omega

end SC.ParamTree
