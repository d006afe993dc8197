import Verif.Pipeline.Spec
/-! # Running pipelines (C35) -/

namespace SC.Pipeline

variable {S : Type} (E : Env S)

theorem Same.refl (a : St S) : Same E a a := ⟨rfl, rfl, fun _ => Iff.rfl⟩
theorem Same.trans {a b c : St S} (h : Same E a b) (h' : Same E b c) : Same E a c :=
  ⟨h.1.trans h'.1, h.2.trans h'.2, fun i => (h.3 i).trans (h'.3 i)⟩
theorem Same.symm {a b : St S} (h : Same E a b) : Same E b a := ⟨h.1.symm, h.2.symm, fun i => (h.3 i).symm⟩

theorem done_true {i : Nat} {st st' : St S} (h : done E i st = (true, st')) : Done E i st ∧ Same E st st' := by
  unfold done at h
  split at h
  · rename_i hc
    cases h
    exact ⟨Or.inl hc, Same.refl E st⟩
  · split at h
    · rename_i ho
      cases h
      refine ⟨Or.inr ho, rfl, rfl, fun j => ?_⟩
      unfold Done
      by_cases hj : j = i
      · subst hj; simp [ho]
      · simp [hj]
    · simp at h

theorem done_false {i : Nat} {st st' : St S} (h : done E i st = (false, st')) : ¬ Done E i st ∧ st' = st := by
  unfold done at h
  split at h
  · simp at h
  · rename_i hc
    split at h
    · simp at h
    · rename_i ho
      cases h
      exact ⟨by unfold Done; simp [hc, ho], rfl⟩

theorem done_same {i : Nat} {st : St S} : Same E st (done E i st).2 := by
  rcases hd : done E i st with ⟨b, st'⟩
  cases b
  · rw [(done_false E hd).2]; exact Same.refl E st
  · exact (done_true E hd).2

theorem dep_same {a b : St S} (h : Same E a b) (d : Dep) : d.Done E a ↔ d.Done E b := by
  cases d with
  | task i => exact h.3 i
  | path p => unfold Dep.Done; rw [h.1]

theorem depsDone_spec (l : List Dep) (st : St S) :
    Same E st (depsDone E l st).2 ∧ ((depsDone E l st).1 = true ↔ ∀ d ∈ l, d.Done E st) := by
  induction l generalizing st with
  | nil => exact ⟨Same.refl E st, by simp [depsDone]⟩
  | cons d l ih =>
    cases d with
    | task i =>
      rcases hd : done E i st with ⟨b, st'⟩
      cases b
      · obtain ⟨h1, rfl⟩ := done_false E hd
        simp only [depsDone, hd]
        refine ⟨Same.refl E _, by simp, fun h => absurd (h (.task i) (by simp)) h1⟩
      · obtain ⟨h1, h2⟩ := done_true E hd
        obtain ⟨i1, i2⟩ := ih st'
        simp only [depsDone, hd]
        refine ⟨h2.trans E i1, i2.trans ?_⟩
        simp only [List.mem_cons, forall_eq_or_imp]
        exact ⟨fun h => ⟨h1, fun d hd => (dep_same E h2 d).2 (h d hd)⟩, fun h d hd => (dep_same E h2 d).1 (h.2 d hd)⟩
    | path p =>
      simp only [depsDone]
      split
      · rename_i hp
        obtain ⟨i1, i2⟩ := ih st
        refine ⟨i1, i2.trans ?_⟩
        simp only [List.mem_cons, forall_eq_or_imp]
        exact ⟨fun h => ⟨hp, h⟩, fun h => h.2⟩
      · rename_i hp
        exact ⟨Same.refl E st, by simp, fun h => absurd (h (.path p) (by simp)) hp⟩

/-- What `run` does, in terms of what is done. -/
inductive Ran (i : Nat) (st : St S) : Bool → St S → Prop where
  /-- dependencies are missing: nothing happens -/
  | missing {st'} (hm : ¬ ∀ d ∈ E.deps i, d.Done E st) (hs : Same E st st') : Ran i st true st'
  /-- the folder cannot be made -/
  | raised {st'} (hd : ∀ d ∈ E.deps i, d.Done E st) (hp : E.prepare i st.world = none) (hs : Same E st st') :
      Ran i st false st'
  /-- already done -/
  | already {st1 st' w} (hd : ∀ d ∈ E.deps i, d.Done E st) (hs : Same E st st1) (hp : E.prepare i st.world = some w)
      (ho : Done E i { st1 with world := w }) (hs' : Same E { st1 with world := w } st') : Ran i st true st'
  /-- executed -/
  | executed {st1 w} (hd : ∀ d ∈ E.deps i, d.Done E st) (hs : Same E st st1) (hp : E.prepare i st.world = some w)
      (ho : ¬ Done E i { st1 with world := w }) :
      Ran i st true { st1 with world := E.exec i w, log := st.log ++ [i] }

theorem run_ran (i : Nat) (st : St S) : Ran E i st (run E i st).1 (run E i st).2 := by
  have hdep := depsDone_spec E (E.deps i) st
  unfold run
  revert hdep
  generalize depsDone E (E.deps i) st = x
  intro hdep
  obtain ⟨b, st1⟩ := x
  obtain ⟨h1, h2⟩ := hdep
  cases b
  · exact .missing (fun h => by simpa using h2.2 h) h1
  · have hd := h2.1 rfl
    dsimp only at h1 ⊢
    cases hp : E.prepare i st1.world with
    | none => exact .raised hd (by rw [h1.1]; exact hp) h1
    | some w =>
      have hp' : E.prepare i st.world = some w := by rw [h1.1]; exact hp
      rcases hx : done E i { st1 with world := w } with ⟨c, st2⟩
      cases c
      · obtain ⟨g1, rfl⟩ := done_false E hx
        dsimp only
        rw [hx]
        dsimp only
        rw [← h1.2]
        exact .executed hd h1 hp' g1
      · obtain ⟨g1, g2⟩ := done_true E hx
        dsimp only
        rw [hx]
        exact .already hd h1 hp' g1 g2

theorem done_cached {i : Nat} {st : St S} :
    (∀ j, st.cached j = true → (done E i st).2.cached j = true) ∧
    (∀ j, (done E i st).2.cached j = true → st.cached j = true ∨ E.out j st.world = true) := by
  unfold done
  split
  · exact ⟨fun j h => h, fun j h => Or.inl h⟩
  · split
    · rename_i ho
      refine ⟨fun j h => ?_, fun j h => ?_⟩
      · dsimp only; split <;> simp [*]
      · dsimp only at h
        split at h
        · rename_i hj; subst hj; exact Or.inr ho
        · exact Or.inl h
    · exact ⟨fun j h => h, fun j h => Or.inl h⟩

theorem depsDone_cached (l : List Dep) (st : St S) :
    (∀ j, st.cached j = true → (depsDone E l st).2.cached j = true) ∧
    (∀ j, (depsDone E l st).2.cached j = true → st.cached j = true ∨ E.out j st.world = true) := by
  induction l generalizing st with
  | nil => exact ⟨fun j h => h, fun j h => Or.inl h⟩
  | cons d l ih =>
    cases d with
    | task i =>
      have hc := done_cached E (i := i) (st := st)
      have hw : (done E i st).2.world = st.world := (done_same E).1.symm
      rcases hd : done E i st with ⟨b, st'⟩
      rw [hd] at hc hw
      cases b
      · simp only [depsDone, hd]; exact hc
      · obtain ⟨i1, i2⟩ := ih st'
        simp only [depsDone, hd]
        refine ⟨fun j h => i1 j (hc.1 j h), fun j h => ?_⟩
        rcases i2 j h with h | h
        · exact hc.2 j h
        · dsimp only at hw; rw [hw] at h; exact Or.inr h
    | path p =>
      simp only [depsDone]
      split
      · exact ih st
      · exact ⟨fun j h => h, fun j h => Or.inl h⟩

/-! ## Sequences -/

/-- A task was run in `st`, which ended in `st'`, and was done afterwards. -/
def Success (i : Nat) (st st' : St S) : Prop := ∃ x, run E i st = (true, x) ∧ Done E i x ∧ st' = (done E i x).2

theorem runSequential_cons (i : Nat) (l : List Nat) (st : St S) :
    (run E i st).1 = false ∧ runSequential E (i :: l) st = (.raised, (run E i st).2) ∨
    (run E i st).1 = true ∧ ¬ Done E i (run E i st).2 ∧ runSequential E (i :: l) st = (.returned false, (run E i st).2) ∨
    ∃ x, Success E i st x ∧ runSequential E (i :: l) st = runSequential E l x := by
  unfold Success
  rw [show runSequential E (i :: l) st =
    (match run E i st with
    | (false, st) => (.raised, st)
    | (true, st) =>
      match done E i st with
      | (true, st) => runSequential E l st
      | (false, st) => (.returned false, st)) from rfl]
  rcases run E i st with ⟨b, x⟩
  cases b
  · exact Or.inl ⟨rfl, rfl⟩
  · right
    rcases hx : done E i x with ⟨c, y⟩
    cases c
    · obtain ⟨h, rfl⟩ := done_false E hx
      exact Or.inl ⟨rfl, h, by simp only [hx]⟩
    · obtain ⟨h, h'⟩ := done_true E hx
      exact Or.inr ⟨y, ⟨x, rfl, h, by rw [hx]⟩, by simp only [hx]⟩

/-- All tasks were run in this order, each of them with success. -/
inductive AllRan : List Nat → St S → St S → Prop where
  | nil (st) : AllRan [] st st
  | cons {i l st st1 st'} (h : Success E i st st1) (hl : AllRan l st1 st') : AllRan (i :: l) st st'

theorem success_unique {i : Nat} {st a b : St S} (h : Success E i st a) (h' : Success E i st b) : a = b := by
  obtain ⟨x, h1, h2, rfl⟩ := h
  obtain ⟨y, h3, h4, rfl⟩ := h'
  rw [h1] at h3
  cases h3
  rfl

theorem allRan_run {l : List Nat} {st st' : St S} (h : AllRan E l st st') (l' : List Nat) :
    runSequential E (l ++ l') st = runSequential E l' st' := by
  induction h with
  | nil st => rfl
  | @cons i l st st1 st' h hl ih =>
    rw [List.cons_append]
    rcases runSequential_cons E i (l ++ l') st with h1 | h1 | ⟨x, h1, h2⟩
    · obtain ⟨y, g1, _, _⟩ := h
      rw [g1] at h1
      simp at h1
    · obtain ⟨y, g1, g2, _⟩ := h
      rw [g1] at h1
      exact absurd g2 h1.2.1
    · rw [h2, success_unique E h1 h, ih]

/-- C35: `True` is returned exactly when all tasks were run in order, each with success. -/
theorem returned_true (l : List Nat) (st st' : St S) :
    runSequential E l st = (.returned true, st') ↔ AllRan E l st st' := by
  constructor
  · intro h
    induction l generalizing st with
    | nil => cases h; exact .nil _
    | cons i l ih =>
      rcases runSequential_cons E i l st with h1 | h1 | ⟨x, h1, h2⟩
      · rw [h1.2] at h; simp at h
      · rw [h1.2.2] at h; simp at h
      · exact .cons h1 (ih x (h2.symm.trans h))
  · intro h
    have := allRan_run E h []
    rwa [List.append_nil] at this

/-- C35: `False` is returned exactly when the tasks before some task were run with success and
that task was run without success; none of the others is run. -/
theorem returned_false (l : List Nat) (st st' : St S) :
    runSequential E l st = (.returned false, st') ↔
      ∃ pre i post st1, l = pre ++ i :: post ∧ AllRan E pre st st1 ∧ run E i st1 = (true, st') ∧ ¬ Done E i st' := by
  constructor
  · intro h
    induction l generalizing st with
    | nil => simp [runSequential] at h
    | cons i l ih =>
      rcases runSequential_cons E i l st with h1 | ⟨h1, h2, h3⟩ | ⟨x, h1, h2⟩
      · rw [h1.2] at h; simp at h
      · rw [h3] at h
        simp only [Prod.mk.injEq, true_and] at h
        subst h
        exact ⟨[], i, l, st, rfl, .nil _, by rw [← h1], h2⟩
      · obtain ⟨pre, j, post, st1, rfl, g1, g2⟩ := ih x (h2.symm.trans h)
        exact ⟨i :: pre, j, post, st1, rfl, .cons h1 g1, g2⟩
  · rintro ⟨pre, i, post, st1, rfl, h1, h2, h3⟩
    rw [allRan_run E h1]
    rcases runSequential_cons E i post st1 with g | g | ⟨x, ⟨y, g1, g2, _⟩, _⟩
    · rw [h2] at g; simp at g
    · rw [h2] at g; exact g.2.2
    · rw [h2] at g1; cases g1; exact absurd g2 h3

/-- C35: an exception is raised exactly when making the folder of a task fails. -/
theorem raised_iff (l : List Nat) (st st' : St S) :
    runSequential E l st = (.raised, st') ↔
      ∃ pre i post st1, l = pre ++ i :: post ∧ AllRan E pre st st1 ∧ run E i st1 = (false, st') := by
  constructor
  · intro h
    induction l generalizing st with
    | nil => simp [runSequential] at h
    | cons i l ih =>
      rcases runSequential_cons E i l st with ⟨h1, h2⟩ | ⟨h1, h2, h3⟩ | ⟨x, h1, h2⟩
      · rw [h2] at h
        simp only [Prod.mk.injEq, true_and] at h
        subst h
        exact ⟨[], i, l, st, rfl, .nil _, by rw [← h1]⟩
      · rw [h3] at h; simp at h
      · obtain ⟨pre, j, post, st1, rfl, g1, g2⟩ := ih x (h2.symm.trans h)
        exact ⟨i :: pre, j, post, st1, rfl, .cons h1 g1, g2⟩
  · rintro ⟨pre, i, post, st1, rfl, h1, h2⟩
    rw [allRan_run E h1]
    rcases runSequential_cons E i post st1 with g | g | ⟨x, ⟨y, g1, g2, _⟩, _⟩
    · rw [h2] at g; exact g.2
    · rw [h2] at g; simp at g
    · rw [h2] at g1; simp at g1

/-- One run appends the task to the log or nothing. -/
theorem run_log (i : Nat) (st : St S) : (run E i st).2.log = st.log ∨ (run E i st).2.log = st.log ++ [i] := by
  have h := run_ran E i st
  generalize (run E i st).1 = b at h
  generalize (run E i st).2 = x at h ⊢
  cases h with
  | missing _ hs => exact Or.inl hs.2.symm
  | raised _ _ hs => exact Or.inl hs.2.symm
  | already _ hs _ _ hs' => exact Or.inl (hs'.2.symm.trans hs.2.symm)
  | executed _ hs _ _ => exact Or.inr rfl

/-- C35: the tasks are executed in order, at most once per place in the list. -/
theorem executed_in_order (l : List Nat) (st : St S) :
    ∃ e, e.Sublist l ∧ (runSequential E l st).2.log = st.log ++ e := by
  induction l generalizing st with
  | nil => exact ⟨[], .slnil, by simp [runSequential]⟩
  | cons i l ih =>
    have hl := run_log E i st
    rcases runSequential_cons E i l st with h | h | ⟨x, ⟨y, h1, h2, rfl⟩, h3⟩
    · rw [h.2]
      rcases hl with hl | hl
      · exact ⟨[], List.nil_sublist _, by simp [hl]⟩
      · exact ⟨[i], by simp, hl⟩
    · rw [h.2.2]
      rcases hl with hl | hl
      · exact ⟨[], List.nil_sublist _, by simp [hl]⟩
      · exact ⟨[i], by simp, hl⟩
    · obtain ⟨e, he, hlog⟩ := ih (done E i y).2
      rw [h3, hlog, ← (done_same E).2]
      rw [h1] at hl
      rcases hl with hl | hl
      · exact ⟨e, he.cons _, by rw [hl]⟩
      · exact ⟨i :: e, he.cons_cons _, by rw [hl]; simp⟩

end SC.Pipeline
