import Verif.Signals.Spec
import Mathlib.Tactic.ByContra
/-! # Termination handling: invariants -/
namespace SC.Signals

/-- Progress of the with statement itself. -/
inductive Base where
  | start
  | replacing (todo : List Sig) (acc : List (Sig × Handler))
  | setup0 | setup1 | body0 | body1 | exiting | ended

def Base.stack (c : Cfg) : Base → List Instr
  | .start => initStack c
  | .replacing todo acc => [.replace todo acc, .setupStart, .bodyStart]
  | .setup0 => [.setupStart, .bodyStart]
  | .setup1 => [.user .setup, .bodyStart]
  | .body0 => [.bodyStart]
  | .body1 => [.user .body, .exitBlock]
  | .exiting => [.exitBlock]
  | .ended => []

/-- Instructions of `_newhandler` and `_cleanup`. -/
def isH : Instr → Bool
  | .resend _ => true
  | i => busy i

/-- Instructions after which the cleanup will be done. -/
def critical : Instr → Bool
  | .user _ => false
  | i => busy i

structure Inv (c : Cfg) (st : St) (pre : List Instr) (base : Base) : Prop where
  stack : st.stack = pre ++ base.stack c
  pre_h : ∀ i ∈ pre, isH i = true
  needFalse : st.need = false → ∀ s, st.handlers s = c.old s
  saved_h : ∀ L, st.saved = some L →
    (∀ s, st.handlers s ≠ c.old s → (s, c.old s) ∈ L) ∧ ∀ p ∈ L, p.2 = c.old p.1 ∧ p.1 ∈ c.sigs
  restoring_h : ∀ items, Instr.restoring items ∈ pre → (∃ L, st.saved = some L) ∧
    (∀ s, st.handlers s ≠ c.old s → (s, c.old s) ∈ items) ∧ ∀ p ∈ items, p.2 = c.old p.1 ∧ p.1 ∈ c.sigs
  start_h : base = .start → pre = [] ∧ st.saved = none ∧ st.need = false ∧ teardowns st.log = 0
  replacing_h : ∀ todo acc, base = .replacing todo acc → st.saved = none ∧ st.need = true ∧
    (∀ s, st.handlers s ≠ c.old s → (s, c.old s) ∈ acc) ∧ (∀ p ∈ acc, p.2 = c.old p.1 ∧ p.1 ∈ c.sigs) ∧
    (∀ s ∈ todo, st.handlers s = c.old s ∧ s ∈ c.sigs) ∧ todo.Nodup
  other_h : base ≠ .start → (∀ t a, base ≠ .replacing t a) → base ≠ .ended → st.saved ≠ none
  ended_h : base = .ended → st.aborted = false → st.need = false ∨ ∃ i ∈ pre, critical i = true
  td_pre : ∀ i ∈ pre, (i = .restoreStart ∨ ∃ l, i = .restoring l) → 1 ≤ teardowns st.log
  td_need : st.need = false → base ≠ .start → st.aborted = false → 1 ≤ teardowns st.log
  ours_or : ∀ s, st.handlers s = .ours ∨ st.handlers s = c.old s

theorem throw_pre (st : St) (pre k : List Instr) (h : ∀ i ∈ pre, isH i = true) :
    throw st (pre ++ k) = throw st k := by
  induction pre with
  | nil => rfl
  | cons i pre ih =>
    have h1 := h i (by simp)
    have ih := ih fun j hj => h j (by simp [hj])
    cases i <;> simp_all [throw, isH, busy]

/-- Do exceptions lead to `__exit__`? -/
def Base.inBody : Base → Bool
  | .body1 => true
  | .exiting => true
  | _ => false

theorem throw_base (c : Cfg) (st : St) (b : Base) :
    throw st (b.stack c) = if b.inBody
      then { st with stack := [.cleanup .exc] } else { st with stack := [], aborted := true } := by
  cases b <;> rfl

@[simp] theorem throw_handlers (st : St) (k : List Instr) : (throw st k).handlers = st.handlers := by
  induction k with
  | nil => rfl
  | cons i k ih => cases i <;> simp [throw, ih]

@[simp] theorem throw_need (st : St) (k : List Instr) : (throw st k).need = st.need := by
  induction k with
  | nil => rfl
  | cons i k ih => cases i <;> simp [throw, ih]

@[simp] theorem throw_log (st : St) (k : List Instr) : (throw st k).log = st.log := by
  induction k with
  | nil => rfl
  | cons i k ih => cases i <;> simp [throw, ih]

@[simp] theorem throw_saved (st : St) (k : List Instr) : (throw st k).saved = st.saved := by
  induction k with
  | nil => rfl
  | cons i k ih => cases i <;> simp [throw, ih]

theorem teardowns_append (l m : List Ev) : teardowns (l ++ m) = teardowns l + teardowns m := by
  simp [teardowns]

@[simp] theorem teardowns_setup : teardowns [.setup] = 0 := rfl
@[simp] theorem teardowns_body : teardowns [.body] = 0 := rfl
@[simp] theorem teardowns_deliver (s : Sig) (h : Handler) : teardowns [.deliver s h] = 0 := rfl
@[simp] theorem teardowns_teardown (x : Cause) : teardowns [.teardown x] = 1 := rfl

/-- The exception case: `st'` differs from `st` in the stack and by events that are no teardown. -/
theorem inv_throw {c : Cfg} {st st' : St} {pre : List Instr} {b : Base} (h : Inv c st pre b)
    (hh : st'.handlers = st.handlers) (hn : st'.need = st.need)
    (hs : st'.saved = st.saved) (hl : teardowns st'.log = teardowns st.log)
    (ha : st'.aborted = st.aborted)
    (pre' : List Instr) (hpre' : ∀ i ∈ pre', isH i = true) :
    ∃ p b', Inv c (throw st' (pre' ++ b.stack c)) p b' := by
  rw [throw_pre _ _ _ hpre', throw_base]
  by_cases hb : b.inBody = true
  · rw [if_pos hb]
    refine ⟨[.cleanup .exc], .ended, ?_⟩
    constructor
    · rfl
    · simp [isH, busy]
    · simpa [hn, hh] using h.needFalse
    · simpa [hh, hs] using h.saved_h
    · simp
    · simp
    · simp
    · simp
    · intro _ _; right; exact ⟨.cleanup .exc, by simp, rfl⟩
    · simp
    · intro h1 _ h3
      exact hl ▸ h.td_need (hn ▸ h1) (by rintro rfl; simp [Base.inBody] at hb) (ha ▸ h3)
    · simpa [hh] using h.ours_or
  · rw [if_neg hb]
    refine ⟨[], .ended, ?_⟩
    constructor
    · rfl
    · simp
    · simpa [hn, hh] using h.needFalse
    · simpa [hh, hs] using h.saved_h
    · simp
    · simp
    · simp
    · simp
    · intro _ h2; simp at h2
    · simp
    · intro _ _ h2; simp at h2
    · simpa [hh] using h.ours_or

theorem restoring_not_mem_base (c : Cfg) (b : Base) (l) : Instr.restoring l ∉ b.stack c := by
  cases b <;> simp [Base.stack, initStack]

/-- Executing an instruction of a handler. -/
theorem inv_exec_pre {c : Cfg} {st : St} {i : Instr} {pre : List Instr} {b : Base}
    (h : Inv c st (i :: pre) b) (hst : b ≠ .start) : ∃ p b', Inv c (exec c st i (pre ++ b.stack c)) p b' := by
  have hpre : ∀ j ∈ pre, isH j = true := fun j hj => h.pre_h j (by simp [hj])
  have hi := h.pre_h i (by simp)
  have tail : ∀ st' : St, st'.handlers = st.handlers → st'.saved = st.saved →
      teardowns st'.log = teardowns st.log → st'.aborted = st.aborted → st'.need = st.need →
      st'.stack = pre ++ b.stack c → (critical i = true → st.need = false) → Inv c st' pre b := by
    intro st' h1 h2 h3 h4 h5 h6 h7
    constructor
    · exact h6
    · exact hpre
    · simpa [h1, h5] using h.needFalse
    · simpa [h1, h2] using h.saved_h
    · intro l hl; simpa [h1, h2] using h.restoring_h l (by simp [hl])
    · intro hb; exact absurd hb hst
    · intro t a hb; simpa [h1, h2, h5] using h.replacing_h t a hb
    · simpa [h2] using h.other_h
    · intro hb ha
      rcases h.ended_h hb (h4 ▸ ha) with h8 | ⟨j, hj, hc⟩
      · left; rw [h5]; exact h8
      · rcases List.mem_cons.1 hj with rfl | hj
        · left; rw [h5]; exact h7 hc
        · right; exact ⟨j, hj, hc⟩
    · intro j hj hc; rw [h3]; exact h.td_pre j (by simp [hj]) hc
    · rw [h3, h4, h5]; exact h.td_need
    · simpa [h1] using h.ours_or
  cases i with
  | setNeed => simp [isH, busy] at hi
  | replace t a => simp [isH, busy] at hi
  | setupStart => simp [isH, busy] at hi
  | bodyStart => simp [isH, busy] at hi
  | exitBlock => simp [isH, busy] at hi
  | user w => exact ⟨pre, b, tail _ rfl rfl rfl rfl rfl rfl (by simp [critical])⟩
  | resend s =>
    simp only [exec]
    split
    · exact ⟨pre, b, tail _ rfl rfl (by simp [teardowns_append]) rfl rfl rfl (by simp [critical, busy])⟩
    · exact ⟨pre, b, tail _ rfl rfl rfl rfl rfl rfl (by simp [critical, busy])⟩
  | cleanup x =>
    simp only [exec]
    by_cases hn : st.need = true
    · rw [if_pos hn]
      refine ⟨.teardownStart x :: pre, b, ?_⟩
      constructor
      · rfl
      · intro j hj
        rcases List.mem_cons.1 hj with rfl | hj
        · rfl
        · exact hpre j hj
      · exact h.needFalse
      · exact h.saved_h
      · intro l hl; exact h.restoring_h l (by simpa using hl)
      · intro hb; exact absurd hb hst
      · exact h.replacing_h
      · exact h.other_h
      · intro _ _; right; exact ⟨.teardownStart x, by simp, rfl⟩
      · intro j hj hc; exact h.td_pre j (by
          rcases List.mem_cons.1 hj with rfl | hj
          · rcases hc with hc | ⟨l, hc⟩ <;> cases hc
          · simp [hj]) hc
      · exact h.td_need
      · exact h.ours_or
    · rw [if_neg hn]
      exact ⟨pre, b, tail _ rfl rfl rfl rfl rfl rfl (fun _ => by simpa using hn)⟩
  | teardownStart x =>
    simp only [exec]
    refine ⟨.user .teardown :: .restoreStart :: pre, b, ?_⟩
    constructor
    · rfl
    · intro j hj
      simp only [List.mem_cons] at hj
      rcases hj with rfl | rfl | hj
      · rfl
      · rfl
      · exact hpre j hj
    · exact h.needFalse
    · exact h.saved_h
    · intro l hl; exact h.restoring_h l (by simpa using hl)
    · intro hb; exact absurd hb hst
    · exact h.replacing_h
    · exact h.other_h
    · intro _ _; right; exact ⟨.restoreStart, by simp, rfl⟩
    · intro j hj hc; simp [teardowns_append]
    · intro _ _ _; simp [teardowns_append]
    · exact h.ours_or
  | restoreStart =>
    rcases hs : st.saved with _ | L
    · have e : exec c st .restoreStart (pre ++ b.stack c) = throw st (pre ++ b.stack c) := by
        simp [exec, hs]
      rw [e]
      exact inv_throw h rfl rfl rfl rfl rfl pre hpre
    · have e : exec c st .restoreStart (pre ++ b.stack c)
          = { st with stack := .restoring L :: (pre ++ b.stack c) } := by
        simp [exec, hs]
      rw [e]
      refine ⟨.restoring L :: pre, b, ?_⟩
      constructor
      · rfl
      · intro j hj
        rcases List.mem_cons.1 hj with rfl | hj
        · rfl
        · exact hpre j hj
      · exact h.needFalse
      · exact h.saved_h
      · intro l hl
        rcases List.mem_cons.1 hl with hl | hl
        · cases hl; exact ⟨⟨L, hs⟩, h.saved_h L hs⟩
        · exact h.restoring_h l (by simp [hl])
      · intro hb; exact absurd hb hst
      · exact h.replacing_h
      · exact h.other_h
      · intro _ _; right; exact ⟨.restoring L, by simp, rfl⟩
      · intro j hj hc; exact h.td_pre .restoreStart (by simp) (.inl rfl)
      · exact h.td_need
      · exact h.ours_or
  | restoring items =>
    have htd := h.td_pre (.restoring items) (by simp) (.inr ⟨_, rfl⟩)
    obtain ⟨⟨L, hL⟩, hr, hit⟩ := h.restoring_h items (by simp)
    have hbr : ∀ t a, b ≠ .replacing t a := by
      intro t a hb
      have := (h.replacing_h t a hb).1
      rw [hL] at this; cases this
    cases items with
    | nil =>
      simp only [exec]
      refine ⟨pre, b, ?_⟩
      have hall : ∀ s, st.handlers s = c.old s := by
        intro s
        by_contra hc
        exact absurd (hr s hc) (by simp)
      constructor
      · rfl
      · exact hpre
      · intro _; exact hall
      · exact h.saved_h
      · intro l hl; exact h.restoring_h l (by simp [hl])
      · intro hb; exact absurd hb hst
      · intro t a hb; exact absurd hb (hbr t a)
      · exact h.other_h
      · intro _ _; left; rfl
      · intro j hj hc; exact htd
      · intro _ _ _; exact htd
      · exact h.ours_or
    | cons p items =>
      obtain ⟨s, v⟩ := p
      simp only [exec]
      split
      · exact inv_throw h rfl rfl rfl rfl rfl pre hpre
      · have hv : v = c.old s := (hit (s, v) (by simp)).1
        have mono : ∀ t, setHandler st.handlers s v t ≠ c.old t → t ≠ s ∧ st.handlers t ≠ c.old t := by
          intro t ht
          simp only [setHandler] at ht
          split at ht
          · rename_i hts; subst hts; exact absurd hv ht
          · rename_i hts; exact ⟨hts, ht⟩
        refine ⟨.restoring items :: pre, b, ?_⟩
        constructor
        · rfl
        · intro j hj
          rcases List.mem_cons.1 hj with rfl | hj
          · rfl
          · exact hpre j hj
        · intro hn t
          by_contra hc
          exact (mono t hc).2 (h.needFalse hn t)
        · intro L' hL'
          exact ⟨fun t ht => (h.saved_h L' hL').1 t (mono t ht).2, (h.saved_h L' hL').2⟩
        · intro l hl
          rcases List.mem_cons.1 hl with hl | hl
          · cases hl
            refine ⟨⟨L, hL⟩, fun t ht => ?_, fun p hp => hit p (by simp [hp])⟩
            have := hr t (mono t ht).2
            rcases List.mem_cons.1 this with h1 | h1
            · exact absurd (congrArg Prod.fst h1) (mono t ht).1
            · exact h1
          · have := h.restoring_h l (by simp [hl])
            exact ⟨this.1, fun t ht => this.2.1 t (mono t ht).2, this.2.2⟩
        · intro hb; exact absurd hb hst
        · intro t a hb; exact absurd hb (hbr t a)
        · exact h.other_h
        · intro _ _; right; exact ⟨.restoring items, by simp, rfl⟩
        · intro j hj hc; exact htd
        · exact h.td_need
        · intro t
          simp only [setHandler]
          split
          · rename_i hts; subst hts; right; exact hv
          · exact h.ours_or t

/-- Executing an instruction of the with statement. -/
theorem inv_exec_base {c : Cfg} (hg : Good c) {st : St} {b : Base} {i : Instr} {k : List Instr}
    (h : Inv c st [] b) (hb : b.stack c = i :: k) : ∃ p b', Inv c (exec c st i k) p b' := by
  -- a step that only changes the stack and adds an event
  have simple : ∀ (st' : St) (b' : Base), st'.handlers = st.handlers → st'.saved = st.saved →
      teardowns st'.log = teardowns st.log → st'.aborted = st.aborted → st'.need = st.need →
      st'.stack = b'.stack c → b ≠ .start → (∀ t a, b ≠ .replacing t a) → b ≠ .ended →
      b' ≠ .start → (∀ t a, b' ≠ .replacing t a) → b' ≠ .ended → Inv c st' [] b' := by
    intro st' b' h1 h2 h3 h4 h5 h6 n1 n2 n3 m1 m2 m3
    constructor
    · exact h6
    · simp
    · simpa [h1, h5] using h.needFalse
    · simpa [h1, h2] using h.saved_h
    · simp
    · intro hb; exact absurd hb m1
    · intro t a hb; exact absurd hb (m2 t a)
    · intro _ _ _; rw [h2]; exact h.other_h n1 n2 n3
    · intro hb; exact absurd hb m3
    · simp
    · intro e1 _ e3; rw [h3]; exact h.td_need (h5 ▸ e1) n1 (h4 ▸ e3)
    · simpa [h1] using h.ours_or
  cases b with
  | ended => simp [Base.stack] at hb
  | start =>
    simp only [Base.stack, initStack, List.cons.injEq] at hb
    obtain ⟨rfl, rfl⟩ := hb
    obtain ⟨-, hs, hn, ht⟩ := h.start_h rfl
    refine ⟨[], .replacing c.sigs [], ?_⟩
    have hall := h.needFalse hn
    simp only [exec]
    constructor
    · rfl
    · simp
    · intro _; exact hall
    · exact h.saved_h
    · simp
    · simp
    · intro t a hb
      cases hb
      exact ⟨hs, rfl, fun s hs => absurd (hall s) hs, by simp, fun s hs => ⟨hall s, hs⟩, hg.nodup⟩
    · intro _ h2; exact absurd rfl (h2 _ _)
    · simp
    · simp
    · intro h1; cases h1
    · exact h.ours_or
  | replacing todo acc =>
    simp only [Base.stack, List.cons.injEq] at hb
    obtain ⟨rfl, rfl⟩ := hb
    obtain ⟨hs, hn, h1, h2, h3, h4⟩ := h.replacing_h todo acc rfl
    cases todo with
    | nil =>
      refine ⟨[], .setup0, ?_⟩
      simp only [exec]
      constructor
      · rfl
      · simp
      · exact h.needFalse
      · intro L hL; cases hL; exact ⟨h1, h2⟩
      · simp
      · simp
      · simp
      · simp
      · simp
      · simp
      · intro e; rw [hn] at e; cases e
      · exact h.ours_or
    | cons s todo =>
      simp only [exec]
      have hnd := List.nodup_cons.1 h4
      split
      · refine ⟨[], .replacing todo acc, ?_⟩
        constructor
        · rfl
        · simp
        · exact h.needFalse
        · exact h.saved_h
        · simp
        · simp
        · intro t a hb
          cases hb
          exact ⟨hs, hn, h1, h2, fun t ht => h3 t (by simp [ht]), hnd.2⟩
        · intro _ e; exact absurd rfl (e _ _)
        · simp
        · simp
        · intro e; rw [hn] at e; cases e
        · exact h.ours_or
      · have hsold := (h3 s (by simp)).1
        refine ⟨[], .replacing todo (acc ++ [(s, st.handlers s)]), ?_⟩
        constructor
        · rfl
        · simp
        · intro e; rw [hn] at e; cases e
        · intro L hL; rw [hs] at hL; cases hL
        · simp
        · simp
        · intro t a hb
          cases hb
          refine ⟨hs, hn, ?_, ?_, ?_, hnd.2⟩
          · intro t ht
            simp only [setHandler] at ht
            split at ht
            · rename_i e; subst e; rw [hsold]; simp
            · exact List.mem_append_left _ (h1 t ht)
          · intro p hp
            rcases List.mem_append.1 hp with hp | hp
            · exact h2 p hp
            · simp only [List.mem_singleton] at hp
              subst hp; exact ⟨hsold, (h3 s (by simp)).2⟩
          · intro t ht
            have : t ≠ s := by rintro rfl; exact hnd.1 ht
            simp only [setHandler, this, if_false]
            exact h3 t (by simp [ht])
        · intro _ e; exact absurd rfl (e _ _)
        · simp
        · simp
        · intro e; rw [hn] at e; cases e
        · intro t
          simp only [setHandler]
          split
          · left; rfl
          · exact h.ours_or t
  | setup0 =>
    simp only [Base.stack, List.cons.injEq] at hb
    obtain ⟨rfl, rfl⟩ := hb
    exact ⟨[], .setup1, simple _ .setup1 rfl rfl (by simp [exec, teardowns_append]) rfl rfl rfl
      (by simp) (by simp) (by simp) (by simp) (by simp) (by simp)⟩
  | setup1 =>
    simp only [Base.stack, List.cons.injEq] at hb
    obtain ⟨rfl, rfl⟩ := hb
    exact ⟨[], .body0, simple _ .body0 rfl rfl rfl rfl rfl rfl
      (by simp) (by simp) (by simp) (by simp) (by simp) (by simp)⟩
  | body0 =>
    simp only [Base.stack, List.cons.injEq] at hb
    obtain ⟨rfl, rfl⟩ := hb
    exact ⟨[], .body1, simple _ .body1 rfl rfl (by simp [exec, teardowns_append]) rfl rfl rfl
      (by simp) (by simp) (by simp) (by simp) (by simp) (by simp)⟩
  | body1 =>
    simp only [Base.stack, List.cons.injEq] at hb
    obtain ⟨rfl, rfl⟩ := hb
    exact ⟨[], .exiting, simple _ .exiting rfl rfl rfl rfl rfl rfl
      (by simp) (by simp) (by simp) (by simp) (by simp) (by simp)⟩
  | exiting =>
    simp only [Base.stack, List.cons.injEq] at hb
    obtain ⟨rfl, rfl⟩ := hb
    refine ⟨[.cleanup .normal], .ended, ?_⟩
    simp only [exec]
    constructor
    · rfl
    · simp [isH, busy]
    · exact h.needFalse
    · exact h.saved_h
    · simp
    · simp
    · simp
    · simp
    · intro _ _; right; exact ⟨.cleanup .normal, by simp, rfl⟩
    · simp
    · intro e1 _ e3; exact h.td_need e1 (by simp) e3
    · exact h.ours_or

theorem inv_init (c : Cfg) : Inv c (init c) [] .start := by
  constructor
  · rfl
  · simp
  · intro _ _; rfl
  · intro L hL; cases hL
  · simp
  · intro _; exact ⟨rfl, rfl, rfl, rfl⟩
  · simp
  · simp
  · simp
  · simp
  · simp
  · intro _; right; rfl

theorem inv_step {c : Cfg} (hg : Good c) {st st' : St} {l : Label} {pre : List Instr} {b : Base}
    (h : Inv c st pre b) (hs : step c st l = some st') : ∃ p b', Inv c st' p b' := by
  have hstart : b = .start → pre = [] := fun e => (h.start_h e).1
  cases l with
  | tick =>
    cases hp : pre with
    | nil =>
      subst hp
      simp only [step, h.stack, List.nil_append] at hs
      cases hb : b.stack c with
      | nil => rw [hb] at hs; cases hs
      | cons i k =>
        rw [hb] at hs
        simp only [Option.some.injEq] at hs
        exact hs ▸ inv_exec_base hg h hb
    | cons i pre' =>
      subst hp
      simp only [step, h.stack, List.cons_append, Option.some.injEq] at hs
      exact hs ▸ inv_exec_pre h (fun e => by have := hstart e; cases this)
  | raise =>
    cases hp : pre with
    | nil =>
      subst hp
      simp only [step, h.stack, List.nil_append] at hs
      have key : ∀ w k, b.stack c = .user w :: k → throw st k = throw st ([] ++ b.stack c) := by
        intro w k hk; rw [List.nil_append, hk]; rfl
      have key2 : ∀ s k, b.stack c ≠ .resend s :: k := by
        intro s k; cases b <;> simp [Base.stack, initStack]
      split at hs
      · rename_i w k hk
        simp only [Option.some.injEq] at hs
        rw [key w k hk] at hs
        exact hs ▸ inv_throw h rfl rfl rfl rfl rfl [] (by simp)
      · rename_i s k hk; exact absurd hk (key2 s k)
      · cases hs
    | cons i pre' =>
      subst hp
      have hpre : ∀ j ∈ pre', isH j = true := fun j hj => h.pre_h j (by simp [hj])
      simp only [step, h.stack, List.cons_append] at hs
      split at hs
      · rename_i w k hk
        simp only [List.cons.injEq] at hk
        obtain ⟨rfl, rfl⟩ := hk
        simp only [Option.some.injEq] at hs
        exact hs ▸ inv_throw h rfl rfl rfl rfl rfl pre' hpre
      · rename_i s k hk
        simp only [List.cons.injEq] at hk
        obtain ⟨rfl, rfl⟩ := hk
        split at hs
        · rename_i v hv
          simp only [Option.some.injEq] at hs
          have e := inv_throw (st' := ⟨st.handlers, st.need, st.saved,
            .resend s :: (pre' ++ b.stack c), st.log ++ [.deliver s v], st.aborted⟩) h rfl rfl rfl
            (by simp [teardowns_append]) rfl pre' hpre
          exact hs ▸ e
        · cases hs
      · cases hs
  | signal s raises =>
    simp only [step] at hs
    split at hs
    · rename_i hours
      simp only [Option.some.injEq] at hs
      subst hs
      have hne : b ≠ .start := by
        rintro rfl
        have := h.needFalse (h.start_h rfl).2.2.1 s
        rw [hours] at this
        exact hg.fresh s this.symm
      refine ⟨.cleanup (.sig s) :: (if c.resend then [.resend s] else []) ++ pre, b, ?_⟩
      have hmem : ∀ (P : Instr → Prop), P (.cleanup (.sig s)) → P (.resend s) → (∀ i ∈ pre, P i) →
          ∀ i ∈ Instr.cleanup (.sig s) :: (if c.resend then [.resend s] else []) ++ pre, P i := by
        intro P p1 p2 p3 i hi
        simp only [List.cons_append, List.mem_cons, List.mem_append] at hi
        rcases hi with rfl | hi | hi
        · exact p1
        · split at hi
          · simp only [List.mem_singleton] at hi; subst hi; exact p2
          · cases hi
        · exact p3 i hi
      constructor
      · simp [h.stack]
      · exact hmem _ rfl rfl h.pre_h
      · exact h.needFalse
      · exact h.saved_h
      · intro l hl
        refine h.restoring_h l ?_
        revert hl
        have := hmem (fun i => i = .restoring l → Instr.restoring l ∈ pre) (by simp) (by simp)
          (fun i hi e => e ▸ hi)
        intro hl; exact this _ hl rfl
      · intro hb; exact absurd hb hne
      · exact h.replacing_h
      · exact h.other_h
      · intro _ _; right; exact ⟨.cleanup (.sig s), by simp, rfl⟩
      · exact hmem _ (by simp) (by simp) h.td_pre
      · exact h.td_need
      · exact h.ours_or
    · split at hs
      · simp only [Option.some.injEq] at hs
        rw [h.stack] at hs
        have e := inv_throw (st' := ⟨st.handlers, st.need, st.saved, pre ++ b.stack c,
          st.log ++ [.deliver s (st.handlers s)], st.aborted⟩) h rfl rfl rfl
          (by simp [teardowns_append]) rfl pre h.pre_h
        exact hs ▸ e
      · simp only [Option.some.injEq] at hs
        subst hs
        refine ⟨pre, b, ?_⟩
        constructor
        · exact h.stack
        · exact h.pre_h
        · exact h.needFalse
        · exact h.saved_h
        · exact h.restoring_h
        · intro hb; simpa [teardowns_append] using h.start_h hb
        · exact h.replacing_h
        · exact h.other_h
        · exact h.ended_h
        · intro i hi hc; simpa [teardowns_append] using h.td_pre i hi hc
        · intro e1 e2 e3; simpa [teardowns_append] using h.td_need e1 e2 e3
        · exact h.ours_or

theorem inv_run {c : Cfg} (hg : Good c) {ls : List Label} {st st' : St} {pre : List Instr} {b : Base}
    (h : Inv c st pre b) (hr : run c ls st = some st') : ∃ p b', Inv c st' p b' := by
  induction ls generalizing st pre b with
  | nil => simp only [run, Option.some.injEq] at hr; exact hr ▸ ⟨pre, b, h⟩
  | cons l ls ih =>
    simp only [run, Option.bind_eq_some_iff] at hr
    obtain ⟨st1, h1, h2⟩ := hr
    obtain ⟨p, b', h3⟩ := inv_step hg h h1
    exact ih h3 h2

end SC.Signals
