import Verif.Pipeline.Props3
/-! # Pipelines (C35): cases and deviations -/

namespace SC.Pipeline

/-- Outputs are numbers in a list; task `i` depends on task `i - 1`, task 0 on path 7; the tasks in
`broken` create nothing. -/
def demo (broken : List Nat) : Env (List Nat) :=
  { deps := fun i => if i = 0 then [.path 7] else [.task (i - 1)]
    out := fun i w => decide (i ∈ w)
    path := fun p _ => p == 7
    prepare := fun _ w => some w
    exec := fun i w => if i ∈ broken then w else if i ∈ w then w else i :: w }

def fresh {S : Type} (w : S) : St S := ⟨w, fun _ => false, []⟩

theorem fresh_sound {S : Type} (E : Env S) (w : S) : Sound E (fresh w) := by intro i h; simp [fresh] at h

theorem demo_keeps (b : List Nat) : Keeps (demo b) where
  prepare_out := by intro i j w w' h h'; simp only [demo, Option.some.injEq] at h; subst h; exact h'
  exec_out := by
    intro i j w h
    simp only [demo, decide_eq_true_eq] at h ⊢
    split
    · exact h
    · split
      · exact h
      · exact List.mem_cons_of_mem _ h
  prepare_path := by intro i p w w' h h'; exact h'
  exec_path := by intro i p w h; exact h

theorem demo_own (b : List Nat) : Own (demo b) where
  prepare := by intro i j w w' h h'; simp only [demo, Option.some.injEq] at h; subst h; exact h'
  exec := by
    intro i j w h
    simp only [demo, decide_eq_true_eq] at h ⊢
    split at h
    · exact Or.inl h
    · split at h
      · exact Or.inl h
      · exact (List.mem_cons.1 h).symm

theorem demo_works {i : Nat} : Works (demo []) i := by
  intro w _
  refine ⟨w, rfl, ?_⟩
  simp only [demo, List.not_mem_nil, if_false, decide_eq_true_eq]
  split <;> simp_all

/-- Case of `all_done` and `returned_true`. -/
example : (runSequential (demo []) [0, 1, 2] (fresh [])).1 = .returned true ∧
    (runSequential (demo []) [0, 1, 2] (fresh [])).2.log = [0, 1, 2] := by decide

/-- Case of `first_failure`, `returned_false` and `process_spec`: task 1 fails. -/
example : (runSequential (demo [1]) [0, 1, 2] (fresh [])).1 = .returned false ∧
    (runSequential (demo [1]) [0, 1, 2] (fresh [])).2.log = [0, 1] ∧
    (process (demo [1]) [0, 1, 2] (fresh [])).1 = some [1, 2] := by decide

/-- Case of `resumes`: continue when task 1 works again. -/
example : let st := (runSequential (demo [1]) [0, 1, 2] (fresh [])).2
    Sound (demo []) st ∧ (runSequential (demo []) [0, 1, 2] st).2.log = [0, 1] ++ [1, 2] := by
  refine ⟨?_, by decide⟩
  have h := run_went (demo [1]) (demo_keeps [1])
  intro i hi
  have : i = 0 := by
    by_contra hne
    simp [runSequential, run, depsDone, done, demo, fresh, hne] at hi
  subst this
  decide

/-- Case of `succeeds` and `Ordered`. -/
example : ∃ st', runSequential (demo []) [0, 1, 2] (fresh []) = (.returned true, st') := by
  refine succeeds _ (demo_keeps []) (fresh_sound _ _) (fun _ _ => demo_works) ?_
  intro pre i post h d hd
  rcases pre with _ | ⟨a, _ | ⟨b, _ | ⟨c, pre⟩⟩⟩ <;> simp at h
  · obtain ⟨rfl, -⟩ := h
    simp [demo] at hd; subst hd; exact Or.inl rfl
  · obtain ⟨rfl, rfl, -⟩ := h
    simp [demo] at hd; subst hd; exact Or.inr ⟨0, by simp, rfl⟩
  · obtain ⟨rfl, rfl, rfl, -⟩ := h
    simp [demo] at hd; subst hd; exact Or.inr ⟨1, by simp, rfl⟩

/-- Case of `missing_dependency`: in the wrong order nothing is executed. -/
example : (runSequential (demo []) [1, 0] (fresh [])).1 = .returned false ∧
    (runSequential (demo []) [1, 0] (fresh [])).2.log = [] := by decide

/-- C35 (deviation): the objects remember that their output was there.  When the outputs are
removed, running the same objects again executes nothing and returns `True` (without `Sound`). -/
theorem remembers_removed :
    let st := (runSequential (demo []) [0, 1] (fresh [])).2
    let st' := (runSequential (demo []) [0, 1] { st with world := [] })
    st'.1 = .returned true ∧ st'.2.log = st.log ∧ (demo []).out 0 st'.2.world = false := by decide

/-- Task 1 removes the output of task 0. -/
def removes : Env (List Nat) := { demo [] with exec := fun i _ => [i] }

/-- C35 (deviation): `True` is returned though an output is missing at the end (without `Keeps`). -/
theorem removed_by_later : (runSequential removes [0, 1] (fresh [])).1 = .returned true ∧
    removes.out 0 (runSequential removes [0, 1] (fresh [])).2.world = false := by decide

/-- The folder of task 1 can't be made. -/
def noFolder : Env (List Nat) := { demo [] with prepare := fun i w => if i = 1 then none else some w }

/-- C35 (deviation): a failure to make the output folder is raised instead of reported. -/
theorem raises_outside : (runSequential noFolder [0, 1] (fresh [])).1 = .raised ∧
    (process noFolder [0, 1] (fresh [])).1 = none := by decide

def sEntry : Str := ['e']

/-- Everything. -/
def everything : Fluoxas :=
  { common := some sEntry, geometry := some (some ['g']), pymca := none, prenormalize := none,
    resample := some ⟨none, none⟩, align := some ⟨some ['x'], none⟩, postnormalize := some ⟨none, some ['q']⟩,
    replacenan := some ⟨none, none⟩, crop := some ⟨none, none⟩ }

/-- Case of the theorems on `fluoxas`. -/
example : ∃ l, fluoxas everything = some l ∧ (l.map Spec.dep) = [none, some 0, some 1, some 2, some 3, some 4, some 4] ∧
    (l.map Spec.method) = [.xrfgeometry, .pymca, .resample, .align, .expression, .replace, .crop] ∧
    (l.map Spec.outputparent) = [some ['g'], some sEntry, some sEntry, some sEntry, some ['q'], some sEntry, some sEntry] := by
  exact ⟨_, rfl, by decide, by decide, by decide⟩

/-- C35 (deviation): the name and the place asked for the normalization before alignment are
ignored (fluoxas.py 156-165). -/
theorem prenormalize_ignored :
    let c : Fluoxas := { everything with prenormalize := some ⟨some ['m', 'y'], some ['p']⟩ }
    ∃ l, fluoxas c = some l ∧ l[2]? = some ⟨.expression, some 1, sNormalize, none⟩ ∧
      c.wants[2]? = some (.expression, ['m', 'y'], some ['p']) := by
  exact ⟨_, rfl, by decide, by decide⟩

/-- C35 (deviation): calibration of the geometry needs its own place, the common one is not used
(fluoxas.py 123). -/
theorem geometry_needs_place : fluoxas { everything with geometry := some none } = none := by decide

/-- C35 (deviation): nothing is said about normalization, which is on by default, and it should be
done after loading; the flat fields are kept but never used (id21_ffxas.py 14 and 86). -/
theorem ffxas_not_normalized :
    let c : Ffxas := ⟨none, some false, true, true⟩
    c.wanted = true ∧ c.keepflat = true ∧ normalizations sEntry c = 0 := by decide

/-- Case of `ffxas_normalized_iff`. -/
example : normalizations sEntry ⟨some true, some false, true, true⟩ = 1 ∧
    normalizations sEntry ⟨none, none, true, true⟩ = 1 ∧ normalizations sEntry ⟨some false, none, true, true⟩ = 0 := by
  decide

/-- Case of `ffxas_steps`. -/
example : (ffxas sEntry ⟨some true, some false, true, true⟩).map Spec.method = [.fullfield, .expression, .align, .crop] ∧
    (ffxas sEntry ⟨none, none, false, true⟩).map Spec.method = [.fullfield, .crop] := by decide

/-- Case of `fluoxas_succeeds`: tasks in a world of outputs. -/
def ofSpecs (l : List Spec) : Env (List Nat) :=
  { demo [] with deps := fun i => ((l[i]?.bind Spec.dep).map Dep.task).toList }

example : ∃ l, fluoxas everything = some l ∧ Follows (ofSpecs l) l ∧
    (runSequential (ofSpecs l) (List.range l.length) (fresh [])).1 = .returned true := by
  refine ⟨_, rfl, fun i => rfl, by decide⟩

end SC.Pipeline
