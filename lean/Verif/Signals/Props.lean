import Verif.Signals.CalmInv
/-! # Properties of termination handling (C20)

`HandleTermination` of utils/signalhandling.py. The schedules interleave, without bound, the
instructions of the with statement with signals (also nested, also several of them) and with exceptions
of user code. -/
namespace SC.Signals

/-! ## Every schedule -/

/-- `_needcleanup` is false only while the original handlers are installed. -/
theorem idle_handlers (c : Cfg) (hg : Good c) (ls : List Label) (st : St)
    (hr : run c ls (init c) = some st) (hn : st.need = false) : st.handlers = c.old := by
  obtain ⟨p, b, h⟩ := inv_run hg (inv_init c) hr
  exact funext (h.needFalse hn)

/-- At every moment every signal is handled either by ours or by its original handler, and only the
termination signals are ever replaced. -/
theorem handlers_two (c : Cfg) (hg : Good c) (ls : List Label) (st : St)
    (hr : run c ls (init c) = some st) (s : Sig) :
    st.handlers s = .ours ∨ st.handlers s = c.old s := by
  obtain ⟨p, b, h⟩ := inv_run hg (inv_init c) hr
  exact h.ours_or s

/-- Whatever signals arrived and whatever raised: when the with statement is over, and no exception came
out of entering it or of a cleanup, then the teardown was called and the original handlers are back. -/
theorem finished_partial (c : Cfg) (hg : Good c) (ls : List Label) (st : St)
    (hr : run c ls (init c) = some st) (he : st.stack = []) (ha : st.aborted = false) :
    st.need = false ∧ st.handlers = c.old ∧ 1 ≤ teardowns st.log := by
  obtain ⟨p, b, h⟩ := inv_run hg (inv_init c) hr
  have hs := h.stack
  rw [he] at hs
  have hp : p = [] ∧ b.stack c = [] := by
    have := hs.symm
    simpa using this
  obtain ⟨rfl, hb⟩ := hp
  have hb' : b = .ended := by cases b <;> simp [Base.stack, initStack] at hb; rfl
  subst hb'
  have hn : st.need = false := by
    rcases h.ended_h rfl ha with e | ⟨i, hi, -⟩
    · exact e
    · cases hi
  exact ⟨hn, funext (h.needFalse hn), h.td_need hn (by simp) ha⟩

/-! ## Calm schedules: exactly once -/

/-- Without signals during setup and cleanup and without exceptions in setup and teardown, the teardown is
never called twice, at no moment. -/
theorem at_most_once_partial (c : Cfg) (hg : Good c) (hk : Known c) (ls : List Label) (st : St)
    (hc : Calm c ls (init c)) (hr : run c ls (init c) = some st) : teardowns st.log ≤ 1 := by
  obtain ⟨cr, R, b, h⟩ := ci_run hg hk (inv_init c) (ci_init c) hc hr
  cases hn : st.need with
  | true =>
    rw [h.need_td hn]
    cases cr <;> simp [Crit.past]
  | false =>
    by_cases hb : b = .start
    · rw [(h.start_h hb).2]; omega
    · rw [(h.done hn hb).1]; exact Nat.le_refl 1

/-- … and when the with statement is over, it was called exactly once and the original handlers are back:
after a normal end, after an exception of the body, after a termination signal at any moment from the
start of the setup function to the end of the block, with or without resend, and when a resent or another
handler raises. -/
theorem exactly_once_partial (c : Cfg) (hg : Good c) (hk : Known c) (ls : List Label) (st : St)
    (hc : Calm c ls (init c)) (hr : run c ls (init c) = some st) (he : st.stack = []) :
    teardowns st.log = 1 ∧ st.need = false ∧ st.handlers = c.old := by
  obtain ⟨cr, R, b, h⟩ := ci_run hg hk (inv_init c) (ci_init c) hc hr
  have hs := h.stack.symm
  rw [he] at hs
  simp only [List.append_eq_nil_iff] at hs
  obtain ⟨⟨h1, h2⟩, h3⟩ := hs
  have hb : b = .ended := by cases b <;> simp [Base.stack, initStack] at h3; rfl
  subst hb
  have hcr : cr = .none := by cases cr <;> simp [Crit.stack] at h1; rfl
  have hn : st.need = false := by
    by_contra e
    exact h.need_crit (by simpa using e) (.inr rfl) hcr
  exact ⟨(h.done hn (by simp)).1, hn, idle_handlers c hg ls st hr hn⟩

/-- Afterwards nothing changes any more: the original handlers stay and receive the signals. -/
theorem after_end (c : Cfg) (hg : Good c) (ls ls' : List Label) (st st' : St)
    (hr : run c ls (init c) = some st) (he : st.stack = []) (hn : st.need = false)
    (hr' : run c ls' st = some st') :
    st'.handlers = c.old ∧ st'.stack = [] ∧ teardowns st'.log = teardowns st.log := by
  have ho := idle_handlers c hg ls st hr hn
  clear hr
  induction ls' generalizing st with
  | nil =>
    simp only [run, Option.some.injEq] at hr'
    subst hr'
    exact ⟨ho, he, rfl⟩
  | cons l ls' ih =>
    simp only [run, Option.bind_eq_some_iff] at hr'
    obtain ⟨st1, h1, h2⟩ := hr'
    cases l with
    | tick => simp [step, he] at h1
    | raise => simp [step, he] at h1
    | signal s r =>
      have hne : st.handlers s ≠ .ours := by rw [ho]; exact hg.fresh s
      simp only [step, hne, if_false, he, ne_eq, not_true_eq_false, and_false,
        Option.some.injEq] at h1
      subst h1
      obtain ⟨e1, e2, e3⟩ := ih ⟨st.handlers, st.need, st.saved, [], st.log ++ [.deliver s (st.handlers s)], st.aborted⟩
        rfl hn h2 ho
      exact ⟨e1, e2, by rw [e3]; simp [teardowns_append]⟩

/-! ## What one termination signal does -/

/-- Restoring a list of handlers. -/
theorem restore_run (c : Cfg) (L : List (Sig × Handler)) (hL : ∀ p ∈ L, p.2 ≠ .unknown) (st : St)
    (k : List Instr) (hs : st.stack = .restoring L :: k) :
    run c (List.replicate (L.length + 1) .tick) st
      = some { st with
          handlers := L.foldl (fun f p => setHandler f p.1 p.2) st.handlers
          need := false
          stack := k } := by
  induction L generalizing st with
  | nil => simp [run, step, hs, exec]
  | cons p L ih =>
    obtain ⟨s, v⟩ := p
    have hv : v ≠ .unknown := hL (s, v) (by simp)
    rw [List.length_cons, List.replicate_succ, run]
    simp only [step, hs, exec, hv, if_false, Option.bind_some]
    rw [ih (fun p hp => hL p (by simp [hp])) _ rfl]
    rfl

theorem run_append (c : Cfg) (l m : List Label) (st : St) :
    run c (l ++ m) st = (run c l st).bind (run c m) := by
  induction l generalizing st with
  | nil => rfl
  | cons a l ih =>
    simp only [List.cons_append, run]
    cases step c st a with
    | none => rfl
    | some st1 => simp [ih]

theorem foldl_restore (c : Cfg) (L : List (Sig × Handler)) (f : Sig → Handler)
    (h1 : ∀ p ∈ L, p.2 = c.old p.1) (h2 : ∀ s, f s ≠ c.old s → (s, c.old s) ∈ L) :
    L.foldl (fun f p => setHandler f p.1 p.2) f = c.old := by
  induction L generalizing f with
  | nil =>
    funext s
    by_contra hc
    exact absurd (h2 s hc) (by simp)
  | cons p L ih =>
    rw [List.foldl_cons]
    refine ih _ (fun q hq => h1 q (by simp [hq])) fun s hs => ?_
    simp only [setHandler] at hs
    split at hs
    · rename_i e
      rw [e, h1 p (by simp)] at hs
      exact absurd rfl hs
    · rename_i e
      rcases List.mem_cons.1 (h2 s hs) with h3 | h3
      · exact absurd (congrArg Prod.fst h3) e
      · exact h3

theorem lookup_old (c : Cfg) (L : List (Sig × Handler)) (s : Sig)
    (h1 : ∀ p ∈ L, p.2 = c.old p.1) (h2 : (s, c.old s) ∈ L) : lookup L s = some (c.old s) := by
  simp only [lookup]
  have : (L.find? (·.1 == s)).isSome := by
    rw [List.find?_isSome]
    exact ⟨_, h2, by simp⟩
  obtain ⟨p, hp⟩ := Option.isSome_iff_exists.1 this
  rw [hp]
  have h3 := List.mem_of_find?_eq_some hp
  have h4 : p.1 = s := by simpa using List.find?_some hp
  simp [h1 p h3, h4]

/-- In every reachable state in which the replaced handlers are registered and a cleanup is needed, a
termination signal whose handler is ours runs, if undisturbed: one teardown, with the original handlers
restored before, if asked for, the signal is passed on to its original handler. Then the interrupted
code goes on where it was. -/
theorem signal_cleanup (c : Cfg) (hg : Good c) (hk : Known c) (ls : List Label) (st : St)
    (hr : run c ls (init c) = some st) (hn : st.need = true) (hsv : st.saved ≠ none) (s : Sig)
    (raises : Bool) (hs : st.handlers s = .ours) :
    ∃ n, run c (.signal s raises :: List.replicate n .tick) st = some { st with
      handlers := c.old
      need := false
      log := st.log ++ .teardown (.sig s) :: (match c.resend, c.old s with
        | true, .py i => [.deliver s (.py i)]
        | _, _ => []) } := by
  obtain ⟨p, b, h⟩ := inv_run hg (inv_init c) hr
  obtain ⟨L, hL⟩ := Option.ne_none_iff_exists'.1 hsv
  obtain ⟨h1, h2⟩ := h.saved_h L hL
  have hu : ∀ p ∈ L, p.2 ≠ .unknown := fun p hp => by
    rw [(h2 p hp).1]; exact hk _ (h2 p hp).2
  have ho : st.handlers s ≠ c.old s := by rw [hs]; exact fun e => hg.fresh s e.symm
  have hlk := lookup_old c L s (fun p hp => (h2 p hp).1) (h1 s ho)
  have hf := foldl_restore c L st.handlers (fun p hp => (h2 p hp).1) h1
  -- up to the end of the cleanup
  have part : run c (.signal s raises :: List.replicate (4 + (L.length + 1)) .tick) st = some { st with
      handlers := c.old
      need := false
      log := st.log ++ [.teardown (.sig s)]
      stack := (if c.resend then [.resend s] else []) ++ st.stack } := by
    rw [← List.replicate_append_replicate, ← List.cons_append, run_append]
    have e0 : run c (.signal s raises :: List.replicate 4 .tick) st = some { st with
        log := st.log ++ [.teardown (.sig s)]
        stack := .restoring L :: ((if c.resend then [.resend s] else []) ++ st.stack) } := by
      simp [run, step, hs, List.replicate, exec, hn, hL]
    rw [e0, Option.bind_some, restore_run c L hu _ _ rfl, hf]
  cases hres : c.resend with
  | false =>
    refine ⟨4 + (L.length + 1), ?_⟩
    rw [part]
    simp [hres]
  | true =>
    refine ⟨4 + (L.length + 1) + 1, ?_⟩
    rw [← List.replicate_append_replicate, ← List.cons_append, run_append, part]
    simp only [hres, if_true, Option.bind_some, List.replicate, run, step, List.cons_append,
      List.nil_append, exec, hL, Option.getD_some, hlk]
    cases hold : c.old s <;> simp [callable]

/-- Replacing a list of handlers. -/
theorem replace_run (c : Cfg) (L : List Sig) (hL : L.Nodup) (acc : List (Sig × Handler)) (st : St)
    (k : List Instr) (hs : st.stack = .replace L acc :: k) :
    run c (List.replicate (L.length + 1) .tick) st
      = some { st with
          handlers := fun s => if s ∈ L ∧ c.fails s = false then .ours else st.handlers s
          saved := some (acc ++ (L.filter (!c.fails ·)).map fun s => (s, st.handlers s))
          stack := k } := by
  induction L generalizing acc st with
  | nil => simp [run, step, hs, exec]
  | cons s L ih =>
    obtain ⟨h1, h2⟩ := List.nodup_cons.1 hL
    rw [List.length_cons, List.replicate_succ, run]
    simp only [step, hs, exec]
    by_cases hf : c.fails s = true
    · rw [if_pos hf, Option.bind_some, ih h2 _ _ rfl]
      have e : ∀ t, (t ∈ s :: L ∧ c.fails t = false) ↔ (t ∈ L ∧ c.fails t = false) := by
        intro t
        simp only [List.mem_cons]
        constructor
        · rintro ⟨rfl | h, h'⟩
          · rw [hf] at h'; cases h'
          · exact ⟨h, h'⟩
        · rintro ⟨h, h'⟩; exact ⟨.inr h, h'⟩
      simp only [e, hf, List.filter_cons, Bool.not_true, Bool.false_eq_true, if_false]
    · have hf' : c.fails s = false := by simpa using hf
      rw [if_neg hf, Option.bind_some, ih h2 _ _ rfl]
      simp only [Option.some.injEq, St.mk.injEq, true_and, and_true]
      constructor
      · funext t
        by_cases hts : t = s
        · subst hts; simp [setHandler, hf']
        · simp [setHandler, hts]
      · rw [List.append_assoc, List.filter_cons, if_pos (by simp [hf']), List.map_cons, List.singleton_append]
        congr 2
        refine List.map_congr_left fun t ht => ?_
        have : t ≠ s := by rintro rfl; exact h1 (List.mem_filter.1 ht).1
        simp [setHandler, this]

/-- Entering the with statement undisturbed installs our handler for every termination signal for which
this is possible, and for no other, before the setup function is called. -/
theorem enter_installs (c : Cfg) (hg : Good c) :
    ∃ n st, run c (List.replicate n .tick) (init c) = some st ∧ st.log = [] ∧ st.need = true ∧
      st.stack = [.setupStart, .bodyStart] ∧
      (∀ s, st.handlers s = if s ∈ c.sigs ∧ c.fails s = false then .ours else c.old s) ∧
      st.saved ≠ none := by
  have e : run c (List.replicate (1 + (c.sigs.length + 1)) .tick) (init c) = some
      { init c with
        handlers := fun s => if s ∈ c.sigs ∧ c.fails s = false then .ours else c.old s
        need := true
        saved := some ([] ++ (c.sigs.filter (!c.fails ·)).map fun s => (s, c.old s))
        stack := [.setupStart, .bodyStart] } := by
    rw [← List.replicate_append_replicate, run_append]
    have e0 : run c (List.replicate 1 .tick) (init c) = some { init c with
        need := true
        stack := [.replace c.sigs [], .setupStart, .bodyStart] } := by
      simp [run, step, init, initStack, exec]
    rw [e0, Option.bind_some, replace_run c c.sigs hg.nodup _ _ _ rfl]
    rfl
  exact ⟨_, _, e, rfl, rfl, rfl, fun s => rfl, by simp⟩

/-! ## Examples -/

/-- Two signals, 2 (a Python handler) and 15 (default). -/
def c1 : Cfg where
  sigs := [2, 15]
  fails := fun _ => false
  resend := true
  old := fun s => if s = 2 then .py 7 else .dfl

theorem c1_good : Good c1 ∧ Known c1 := by
  refine ⟨⟨fun s => ?_, by decide⟩, fun s hs => ?_⟩
  · simp only [c1]; split <;> simp
  · simp only [c1]; split <;> simp

/-- up to the running body -/
def toBody : List Label := List.replicate 7 .tick

/-- Signal 2 in the body, the handler runs, then the body raises. -/
def story : List Label := toBody ++ [.signal 2 false] ++ List.replicate 8 .tick ++ [.raise, .tick]

instance decCalm1 (st : St) (l : Label) : Decidable (calm st l) := by
  cases l <;> unfold calm <;> infer_instance

instance decCalm (c : Cfg) : (ls : List Label) → (st : St) → Decidable (Calm c ls st)
  | [], _ => isTrue trivial
  | l :: ls, st =>
    have : Decidable (∀ st', step c st l = some st' → Calm c ls st') :=
      match h : step c st l with
      | none => isTrue (fun _ e => by cases e)
      | some st1 =>
        have := decCalm c ls st1
        decidable_of_iff (Calm c ls st1) ⟨fun e _ e' => by cases e'; exact e, fun e => e _ rfl⟩
    inferInstanceAs (Decidable (_ ∧ _))

/-- The hypotheses of `exactly_once_partial` hold for this schedule, which ends. -/
example : Calm c1 story (init c1) ∧ ((run c1 story (init c1)).map (·.stack) = some []) := by decide

example : (run c1 story (init c1)).map (fun st => (st.stack, st.need, st.log, st.aborted))
    = some ([], false, [.setup, .body, .teardown (.sig 2), .deliver 2 (.py 7)], false) := by decide

/-- `signal_cleanup` applies while the body runs. -/
example : (run c1 toBody (init c1)).map (fun st => (st.need, st.saved.isSome, st.handlers 2, st.handlers 15,
    st.handlers 1)) = some (true, true, .ours, .ours, .dfl) := by
  decide

/-- `finished_partial` also holds for a schedule that is not calm: signal 15 arrives during the teardown
that signal 2 has started. -/
def nested : List Label := toBody ++ [.signal 2 false, .tick, .tick, .signal 15 false] ++ List.replicate 17 .tick

example : ¬ Calm c1 nested (init c1) := by decide

/-! ## What does not hold -/

/-- A second signal during the teardown: the teardown is called a second time, inside of the first call. -/
theorem teardown_twice : (run c1 nested (init c1)).map (fun st => (st.stack, st.aborted, st.log))
    = some ([], false, [.setup, .body, .teardown (.sig 2), .teardown (.sig 15), .deliver 2 (.py 7)]) := by
  decide

/-- The setup function raises: no teardown, and our handlers stay installed for ever. -/
theorem setup_raises : (run c1 (List.replicate 5 .tick ++ [.raise]) (init c1)).map
      (fun st => (st.stack, st.need, st.handlers 2, st.handlers 15, st.log))
    = some ([], true, .ours, .ours, [.setup]) := by decide

/-- … so the next signal runs the teardown of a with statement that was left long ago. -/
theorem setup_raises_later :
    (run c1 (List.replicate 5 .tick ++ [.raise, .signal 2 false] ++ List.replicate 8 .tick) (init c1)).map
      (fun st => (st.stack, st.log)) = some ([], [.setup, .teardown (.sig 2), .deliver 2 (.py 7)]) := by
  decide

/-- The teardown function raises at the end of the block: the handlers are not restored. -/
theorem teardown_raises : (run c1 (toBody ++ List.replicate 4 .tick ++ [.raise]) (init c1)).map
      (fun st => (st.stack, st.need, st.handlers 2, st.handlers 15, st.log))
    = some ([], true, .ours, .ours, [.setup, .body, .teardown .normal]) := by decide

/-- The teardown function raises inside of the signal handler: it is called again at the end of the
block. -/
theorem teardown_raises_in_handler :
    (run c1 (toBody ++ [.signal 2 false, .tick, .tick, .raise] ++ List.replicate 7 .tick) (init c1)).map
      (fun st => (st.stack, st.handlers 2, st.log))
    = some ([], .py 7, [.setup, .body, .teardown (.sig 2), .teardown .exc]) := by decide

/-- A signal while the handlers are being replaced: the teardown is called before the setup, the restoring
fails with an `AttributeError`, and the handler replaced already stays. -/
theorem signal_while_replacing :
    (run c1 ([.tick, .tick, .signal 2 false] ++ List.replicate 4 .tick) (init c1)).map
      (fun st => (st.stack, st.aborted, st.handlers 2, st.handlers 15, st.log))
    = some ([], true, .ours, .dfl, [.teardown (.sig 2)]) := by decide

/-- A handler that was not installed from Python cannot be restored. -/
theorem unknown_handler :
    (run { c1 with old := fun s => if s = 2 then .py 7 else .unknown }
        (toBody ++ List.replicate 8 .tick) (init { c1 with
          old := fun s => if s = 2 then .py 7 else .unknown })).map
      (fun st => (st.stack, st.aborted, st.need, st.handlers 2, st.handlers 15))
    = some ([], true, true, .py 7, .ours) := by decide

/-- `SIG_DFL` is not callable: with the default handler the signal is swallowed even with `resend`, and
the body goes on to its end. -/
theorem default_swallowed :
    (run c1 (toBody ++ [.signal 15 false] ++ List.replicate 11 .tick) (init c1)).map
      (fun st => (st.stack, st.aborted, st.log))
    = some ([], false, [.setup, .body, .teardown (.sig 15)]) := by decide

/-- A signal during the setup function: the teardown is called although the setup is not done, and the body
runs afterwards, without handlers. -/
theorem signal_in_setup :
    (run c1 (List.replicate 5 .tick ++ [.signal 2 false] ++ List.replicate 13 .tick) (init c1)).map
      (fun st => (st.stack, st.aborted, st.log))
    = some ([], false, [.setup, .teardown (.sig 2), .deliver 2 (.py 7), .body]) := by decide

end SC.Signals
