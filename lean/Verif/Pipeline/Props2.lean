import Verif.Pipeline.Props
import Mathlib.Tactic.ByContra
/-! # Pipelines whose tasks keep each other's results (C35) -/

namespace SC.Pipeline

variable {S : Type} (E : Env S)

theorem sound_done {i : Nat} {st : St S} (h : Sound E st) : Done E i st ↔ E.out i st.world = true :=
  ⟨fun hd => hd.elim (h i) id, Or.inr⟩

theorem sound_dep {d : Dep} {st : St S} (h : Sound E st) : d.Done E st ↔ d.There E st.world := by
  cases d with
  | task i => exact sound_done E h
  | path p => exact Iff.rfl

/-- What `run` does to the world. -/
inductive Went (i : Nat) (w : S) : Bool → S → List Nat → Prop where
  | missing (hm : ¬ ∀ d ∈ E.deps i, d.There E w) : Went i w true w []
  | raised (hd : ∀ d ∈ E.deps i, d.There E w) (hp : E.prepare i w = none) : Went i w false w []
  | already {w'} (hd : ∀ d ∈ E.deps i, d.There E w) (hp : E.prepare i w = some w') (ho : E.out i w' = true) :
      Went i w true w' []
  | executed {w'} (hd : ∀ d ∈ E.deps i, d.There E w) (hp : E.prepare i w = some w') (ho : ¬ E.out i w' = true) :
      Went i w true (E.exec i w') [i]

theorem sound_same {a b : St S} (h : Sound E a) (hs : Same E a b) : Sound E b := by
  intro i hi
  rw [← hs.1]
  exact (sound_done E h).1 ((hs.3 i).2 (Or.inl hi))

/-- With objects that remember nothing wrong, `run` depends on the world only, and they still
remember nothing wrong afterwards. -/
theorem run_went (hk : Keeps E) (i : Nat) (st : St S) (h : Sound E st) :
    Sound E (run E i st).2 ∧ ∃ e, Went E i st.world (run E i st).1 (run E i st).2.world e ∧
      (run E i st).2.log = st.log ++ e := by
  have hr := run_ran E i st
  revert hr
  generalize (run E i st).1 = b
  generalize (run E i st).2 = x
  intro hr
  cases hr with
  | missing hm hs =>
    refine ⟨sound_same E h hs, [], ?_, by rw [← hs.2]; simp⟩
    rw [← hs.1]
    exact .missing fun h' => hm fun d hd => (sound_dep E h).2 (h' d hd)
  | raised hd hp hs =>
    refine ⟨sound_same E h hs, [], ?_, by rw [← hs.2]; simp⟩
    rw [← hs.1]
    exact .raised (fun d hd' => (sound_dep E h).1 (hd d hd')) hp
  | @already st1 _ w hd hs hp ho hs' =>
    have h1 : Sound E { st1 with world := w } := fun j hj =>
      hk.prepare_out i j st.world w hp (by rw [hs.1]; exact sound_same E h hs j hj)
    refine ⟨sound_same E h1 hs', [], ?_, by rw [← hs'.2, List.append_nil]; exact hs.2.symm⟩
    rw [← hs'.1]
    exact .already (fun d hd' => (sound_dep E h).1 (hd d hd')) hp ((sound_done E h1).1 ho)
  | @executed st1 w hd hs hp ho =>
    have h1 : Sound E { st1 with world := w } := fun j hj =>
      hk.prepare_out i j st.world w hp (by rw [hs.1]; exact sound_same E h hs j hj)
    refine ⟨fun j hj => hk.exec_out i j w (h1 j hj), [i], ?_, rfl⟩
    exact .executed (fun d hd' => (sound_dep E h).1 (hd d hd')) hp fun h' => ho ((sound_done E h1).2 h')

theorem went_log {i : Nat} {w w' : S} {b : Bool} {e : List Nat} (h : Went E i w b w' e) : e.Sublist [i] := by
  cases h <;> simp

theorem there_mono (hk : Keeps E) {i : Nat} {w w' : S} {b : Bool} {e : List Nat} (h : Went E i w b w' e) :
    (∀ j, E.out j w = true → E.out j w' = true) ∧ (∀ d : Dep, d.There E w → d.There E w') := by
  have key : (∀ j, E.out j w = true → E.out j w' = true) ∧ (∀ p, E.path p w = true → E.path p w' = true) := by
    cases h with
    | missing => exact ⟨fun _ h => h, fun _ h => h⟩
    | raised => exact ⟨fun _ h => h, fun _ h => h⟩
    | already _ hp _ => exact ⟨fun j => hk.prepare_out i j _ _ hp, fun p => hk.prepare_path i p _ _ hp⟩
    | executed _ hp _ =>
      exact ⟨fun j h => hk.exec_out i j _ (hk.prepare_out i j _ _ hp h),
        fun p h => hk.exec_path i p _ (hk.prepare_path i p _ _ hp h)⟩
  refine ⟨key.1, fun d => ?_⟩
  cases d with
  | task j => exact key.1 j
  | path p => exact key.2 p

theorem success_went (hk : Keeps E) {i : Nat} {st st' : St S} (h : Sound E st) (hs : Success E i st st') :
    Sound E st' ∧ E.out i st'.world = true ∧ ∃ e, Went E i st.world true st'.world e ∧ st'.log = st.log ++ e := by
  obtain ⟨x, h1, h2, rfl⟩ := hs
  obtain ⟨g1, e, g2, g3⟩ := run_went E hk i st h
  rw [h1] at g1 g2 g3
  have hd := done_same E (i := i) (st := x)
  refine ⟨sound_same E g1 hd, ?_, e, ?_, ?_⟩
  · rw [← hd.1]; exact (sound_done E g1).1 h2
  · rw [← hd.1]; exact g2
  · rw [← hd.2]; exact g3

theorem allRan_world (hk : Keeps E) {l : List Nat} {st st' : St S} (h : Sound E st) (hr : AllRan E l st st') :
    Sound E st' ∧ (∀ i ∈ l, E.out i st'.world = true) ∧ (∀ j, E.out j st.world = true → E.out j st'.world = true) ∧
      (∀ d : Dep, d.There E st.world → d.There E st'.world) := by
  induction hr with
  | nil st => exact ⟨h, by simp, fun _ h => h, fun _ h => h⟩
  | @cons i l st st1 st' hs _ ih =>
    obtain ⟨h1, h2, e, h3, _⟩ := success_went E hk h hs
    obtain ⟨g1, g2, g3, g4⟩ := ih h1
    have hm := there_mono E hk h3
    refine ⟨g1, ?_, fun j hj => g3 j (hm.1 j hj), fun d hd => g4 d (hm.2 d hd)⟩
    intro j hj
    rcases List.mem_cons.1 hj with rfl | hj
    · exact g3 _ h2
    · exact g2 j hj

/-- C35: when `True` is returned, the outputs of all tasks are there. -/
theorem all_done (hk : Keeps E) {l : List Nat} {st st' : St S} (h : Sound E st)
    (hr : runSequential E l st = (.returned true, st')) : ∀ i ∈ l, E.out i st'.world = true :=
  (allRan_world E hk h ((returned_true E l st st').1 hr)).2.1

/-- C35: when `False` is returned, the output of some task is missing, the outputs of all tasks
before it are there, and the tasks after it were not run (`returned_false`). -/
theorem first_failure (hk : Keeps E) {l : List Nat} {st st' : St S} (h : Sound E st)
    (hr : runSequential E l st = (.returned false, st')) :
    ∃ pre i post, l = pre ++ i :: post ∧ (∀ j ∈ pre, E.out j st'.world = true) ∧ E.out i st'.world = false ∧
      ∃ e, e.Sublist (pre ++ [i]) ∧ st'.log = st.log ++ e := by
  obtain ⟨pre, i, post, st1, rfl, h1, h2, h3⟩ := (returned_false E l st st').1 hr
  obtain ⟨g1, g2, _⟩ := allRan_world E hk h h1
  obtain ⟨f1, e, f2, f3⟩ := run_went E hk i st1 g1
  rw [h2] at f1 f2 f3
  refine ⟨pre, i, post, rfl, fun j hj => (there_mono E hk f2).1 j (g2 j hj), ?_, ?_⟩
  · rw [sound_done E f1] at h3
    exact Bool.eq_false_iff.2 h3
  · obtain ⟨e1, s1, l1⟩ := executed_in_order E pre st
    rw [(returned_true E pre st st1).2 h1] at l1
    have he : e.Sublist [i] := went_log E f2
    exact ⟨e1 ++ e, s1.append he, by rw [f3]; dsimp only at l1; rw [l1, List.append_assoc]⟩

/-- C35: when all tasks work and come after their dependencies, `True` is returned. -/
theorem succeeds (hk : Keeps E) {l : List Nat} {st : St S} (h : Sound E st) (hw : ∀ i ∈ l, Works E i)
    (ho : Ordered E l st.world) : ∃ st', runSequential E l st = (.returned true, st') := by
  suffices H : ∀ (pre l : List Nat) (st1 : St S), (∀ i ∈ l, Works E i) → Sound E st1 →
      (∀ j ∈ pre, E.out j st1.world = true) → (∀ d : Dep, d.There E st.world → d.There E st1.world) →
      Ordered E (pre ++ l) st.world → ∃ st', runSequential E l st1 = (.returned true, st') by
    exact H [] l st hw h (by simp) (fun _ h => h) ho
  intro pre l
  induction l generalizing pre with
  | nil => intro st1 _ _ _ _ _; exact ⟨st1, rfl⟩
  | cons i l ih =>
    intro st1 hw hs hpre hd ho
    have hdep : ∀ d ∈ E.deps i, d.There E st1.world := by
      intro d hd'
      rcases ho pre i l rfl d hd' with h | ⟨j, hj, rfl⟩
      · exact hd d h
      · exact hpre j hj
    obtain ⟨w', p1, p2⟩ := hw i (by simp) st1.world hdep
    obtain ⟨f1, e, f2, f3⟩ := run_went E hk i st1 hs
    have hout : (run E i st1).1 = true ∧ E.out i (run E i st1).2.world = true := by
      revert f2
      generalize (run E i st1).1 = b
      generalize (run E i st1).2.world = x
      intro f2
      cases f2 with
      | missing hm => exact absurd hdep hm
      | raised _ hp => rw [p1] at hp; simp at hp
      | already _ hp ho => exact ⟨rfl, ho⟩
      | executed _ hp _ => rw [p1] at hp; cases hp; exact ⟨rfl, p2⟩
    have hm := there_mono E hk f2
    rcases runSequential_cons E i l st1 with g | g | ⟨x, g1, g2⟩
    · rw [hout.1] at g; simp at g
    · exact absurd (Or.inr hout.2) g.2.1
    · rw [g2]
      obtain ⟨k1, k2, e', k3, _⟩ := success_went E hk hs g1
      have hm := there_mono E hk k3
      refine ih (pre ++ [i]) x (fun j hj => hw j (by simp [hj])) k1 ?_ (fun d h => hm.2 d (hd d h)) (by simpa using ho)
      intro j hj
      rcases List.mem_append.1 hj with hj | hj
      · exact hm.1 j (hpre j hj)
      · rw [List.mem_singleton.1 hj]; exact k2

/-- C35: exactly the tasks whose output was missing are executed: running again after a failure
continues where it stopped, and running again after success does nothing. -/
theorem resumes (hk : Keeps E) (hown : Own E) {l : List Nat} {st st' : St S} (h : Sound E st) (hn : l.Nodup)
    (hr : runSequential E l st = (.returned true, st'))
    (hd : Ordered E l st.world) :
    st'.log = st.log ++ l.filter fun i => !E.out i st.world := by
  have hall := (returned_true E l st st').1 hr
  clear hr
  suffices H : ∀ (pre l : List Nat) (st1 st' : St S), AllRan E l st1 st' → (pre ++ l).Nodup → Sound E st1 →
      (∀ j ∈ pre, E.out j st1.world = true) → (∀ d : Dep, d.There E st.world → d.There E st1.world) →
      (∀ j ∈ l, E.out j st1.world = E.out j st.world) → Ordered E (pre ++ l) st.world →
      st'.log = st1.log ++ l.filter fun i => !E.out i st.world by
    exact H [] l st st' hall hn h (by simp) (fun _ h => h) (fun _ _ => rfl) hd
  intro pre l
  induction l generalizing pre with
  | nil => intro st1 st' h _ _ _ _ _ _; cases h; simp
  | cons i l ih =>
    intro st1 st' hall hn hs hpre hthere hsame ho
    obtain ⟨hx, hl⟩ : ∃ x, Success E i st1 x ∧ AllRan E l x st' := by
      cases hall with
      | cons h hl => exact ⟨_, h, hl⟩
    obtain ⟨k1, k2, e, k3, k4⟩ := success_went E hk hs hl.1
    have hm := there_mono E hk k3
    have hdep : ∀ d ∈ E.deps i, d.There E st1.world := by
      intro d hd'
      rcases ho pre i l rfl d hd' with h | ⟨j, hj, rfl⟩
      · exact hthere d h
      · exact hpre j hj
    have hi : i ∉ l := (List.nodup_cons.1 (List.nodup_append.1 hn).2.1).1
    have hout : ∀ j ∈ l, E.out j hx.world = E.out j st1.world := by
      intro j hj
      have hji : j ≠ i := fun h => hi (h ▸ hj)
      by_cases hb : E.out j st1.world = true
      · rw [hb, hm.1 j hb]
      · rw [Bool.eq_false_iff.2 hb, Bool.eq_false_iff]
        intro hb'
        apply hb
        revert k3 hb'
        generalize hx.world = y
        intro k3 hb'
        cases k3 with
        | missing => exact hb'
        | already _ hp _ => exact hown.prepare i j _ _ hp hb'
        | executed _ hp _ => exact hown.prepare i j _ _ hp ((hown.exec i j _ hb').resolve_right hji)
    have he : e = [i].filter fun i => !E.out i st.world := by
      revert k3
      generalize hx.world = y
      intro k3
      by_cases hb : E.out i st1.world = true
      · simp only [List.filter_cons, hsame i (by simp) ▸ hb, List.filter_nil]
        cases k3 with
        | missing => rfl
        | already => rfl
        | executed _ hp ho => exact absurd (hk.prepare_out i i _ _ hp hb) ho
      · simp only [List.filter_cons, hsame i (by simp) ▸ Bool.eq_false_iff.2 hb, List.filter_nil]
        cases k3 with
        | missing hm => exact absurd hdep hm
        | already _ hp ho => exact absurd (hown.prepare i i _ _ hp ho) hb
        | executed => rfl
    rw [ih (pre ++ [i]) hx st' hl.2 (by simpa using hn) k1 ?_ (fun d h => hm.2 d (hthere d h))
      (fun j hj => (hout j hj).trans (hsame j (by simp [hj]))) (by simpa using ho), k4, he, List.append_assoc,
      ← List.filter_append, List.singleton_append]
    intro j hj
    rcases List.mem_append.1 hj with hj | hj
    · exact hm.1 j (hpre j hj)
    · rw [List.mem_singleton.1 hj]; exact k2

/-- C35: a task whose dependencies are missing is not executed. -/
theorem missing_dependency (hk : Keeps E) {i : Nat} {st : St S} (h : Sound E st) {d : Dep} (hd : d ∈ E.deps i)
    (hm : ¬ d.There E st.world) : (run E i st).2.world = st.world ∧ (run E i st).2.log = st.log ∧ (run E i st).1 = true := by
  obtain ⟨_, e, f2, f3⟩ := run_went E hk i st h
  revert f2 f3
  generalize (run E i st).1 = b
  generalize (run E i st).2 = x
  intro f2 f3
  generalize hy : x.world = y at f2
  cases f2 with
  | missing => exact ⟨rfl, by simpa using f3, rfl⟩
  | raised h' => exact absurd (h' d hd) hm
  | already h' => exact absurd (h' d hd) hm
  | executed h' => exact absurd (h' d hd) hm

theorem unfinished_spec (l : List Nat) (st : St S) (h : Sound E st) :
    (unfinished E l st).1 = l.filter (fun i => !E.out i st.world) ∧ Same E st (unfinished E l st).2 := by
  induction l generalizing st with
  | nil => exact ⟨rfl, Same.refl E st⟩
  | cons i l ih =>
    rcases hx : done E i st with ⟨b, y⟩
    cases b
    · obtain ⟨h1, rfl⟩ := done_false E hx
      rw [sound_done E h] at h1
      obtain ⟨g1, g2⟩ := ih y h
      simp only [unfinished, hx]
      exact ⟨by rw [g1]; simp [h1], g2⟩
    · obtain ⟨h1, h2⟩ := done_true E hx
      rw [sound_done E h] at h1
      obtain ⟨g1, g2⟩ := ih y (sound_same E h h2)
      simp only [unfinished, hx]
      refine ⟨?_, h2.trans E g2⟩
      rw [g1, ← h2.1]
      simp [h1]

/-- C35: a job raises exactly when something is missing at the end, and then names all tasks whose
output is missing. -/
theorem process_spec (hk : Keeps E) {l : List Nat} {st : St S} (h : Sound E st) {u : List Nat} {st' : St S}
    (hp : process E l st = (some u, st')) : u = l.filter (fun i => !E.out i st'.world) := by
  unfold process at hp
  rcases hr : runSequential E l st with ⟨r, x⟩
  rw [hr] at hp
  match r with
  | .raised => simp at hp
  | .returned true =>
    simp only [Prod.mk.injEq, Option.some.injEq] at hp
    obtain ⟨rfl, rfl⟩ := hp
    symm
    rw [List.filter_eq_nil_iff]
    intro i hi
    simp [all_done E hk h hr i hi]
  | .returned false =>
    simp only [Prod.mk.injEq, Option.some.injEq] at hp
    obtain ⟨rfl, rfl⟩ := hp
    obtain ⟨pre, i, post, st1, rfl, h1, h2, h3⟩ := (returned_false E l st x).1 hr
    obtain ⟨g1, g2, _⟩ := allRan_world E hk h h1
    obtain ⟨f1, e, f2, f3⟩ := run_went E hk i st1 g1
    rw [h2] at f1
    obtain ⟨k1, k2⟩ := unfinished_spec E (pre ++ i :: post) x f1
    rw [k1, k2.1]

end SC.Pipeline
