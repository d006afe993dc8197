import Verif.H5.Ctx
/-! # Nested opening of a file: properties (C46) -/
namespace SC.H5.Ctx

/-! ## Specification -/

/-- The protocol of the file: it is opened only when closed and closed only when open, and decorated
functions are executed only when it is closed. The argument and result tell whether it is open; `none` is
a violation. -/
def protocol : Bool → List Ev → Option Bool
  | o, [] => some o
  | false, .opened :: l => protocol true l
  | true, .opened :: _ => none
  | true, .closed :: l => protocol false l
  | false, .closed :: _ => none
  | o, .act _ :: l => protocol o l
  | o, .called _ :: l => protocol o l
  | false, .ran _ :: l => protocol false l
  | true, .ran _ :: _ => none

/-- Decorated functions called, and executed, in order. -/
def called (l : List Ev) : List Nat := l.filterMap fun e => match e with | .called i => some i | _ => none
def ran (l : List Ev) : List Nat := l.filterMap fun e => match e with | .ran i => some i | _ => none

/-- No decorated function raises. -/
def Prog.quiet : Prog → Bool
  | .skip => true
  | .act _ => true
  | .raise => true
  | .seq p q => p.quiet && q.quiet
  | .tryExcept p => p.quiet
  | .withOpen _ p => p.quiet
  | .onclose _ r => !r

/-! ## Proofs -/

theorem protocol_append (o : Bool) (l m : List Ev) :
    protocol o (l ++ m) = (protocol o l).bind fun o' => protocol o' m := by
  induction l generalizing o with
  | nil => rfl
  | cons e l ih => cases o <;> cases e <;> simp [protocol, ih]

theorem protocol_callbacks (l : List (Nat × Bool)) : protocol false (runCallbacks l).1 = some false := by
  induction l with
  | nil => rfl
  | cons p l ih =>
    obtain ⟨i, b⟩ := p
    cases b <;> simp [runCallbacks, protocol, ih]

theorem exec_protocol (p : Prog) (st : St) (o : Bool) (h : protocol o st.log = some st.handle)
    (hc : st.handle = false → st.callbacks = []) :
    (exec p st).1.handle = st.handle ∧ protocol o (exec p st).1.log = some st.handle ∧
      (st.handle = false → (exec p st).1.callbacks = []) := by
  induction p generalizing st with
  | skip => exact ⟨rfl, h, hc⟩
  | act n => exact ⟨rfl, by simp [exec, protocol_append, h, protocol], hc⟩
  | raise => exact ⟨rfl, h, hc⟩
  | seq p q ihp ihq =>
    obtain ⟨h1, h2, h3⟩ := ihp st h hc
    simp only [exec]
    split
    · exact ⟨h1, h2, h3⟩
    · obtain ⟨h4, h5, h6⟩ := ihq (exec p st).1 (h1 ▸ h2) (fun e => h3 (h1 ▸ e))
      rw [h1] at h4 h5 h6
      exact ⟨h4, h5, h6⟩
  | tryExcept p ih => exact ih st h hc
  | withOpen fails p ih =>
    simp only [exec]
    cases hh : st.handle with
    | true =>
      simp only [if_true]
      have := ih st h hc
      rw [hh] at this
      exact this
    | false =>
      simp only [Bool.false_eq_true, if_false]
      rw [hh] at h
      cases fails with
      | true =>
        simp only [if_true, closectx]
        exact ⟨hh, by simp [protocol_append, h, protocol_callbacks], by simp⟩
      | false =>
        simp only [Bool.false_eq_true, if_false, closectx]
        obtain ⟨h1, h2, h3⟩ := ih { st with handle := true, log := st.log ++ [.opened] }
          (by simp [protocol_append, h, protocol]) (by simp)
        refine ⟨by simp, ?_, by simp⟩
        simp only at h2
        simp [protocol_append, h2, protocol, protocol_callbacks]
  | onclose i r =>
    simp only [exec]
    cases hh : st.handle with
    | true =>
      rw [hh] at h
      simp [protocol_append, h, protocol, hh]
    | false =>
      rw [hh] at h
      simp [protocol_append, h, protocol, hh, hc hh]

theorem called_append (l m : List Ev) : called (l ++ m) = called l ++ called m := by simp [called]
theorem ran_append (l m : List Ev) : ran (l ++ m) = ran l ++ ran m := by simp [ran]

theorem runCallbacks_quiet (l : List (Nat × Bool)) (h : ∀ p ∈ l, p.2 = false) :
    ran (runCallbacks l).1 = l.map Prod.fst ∧ called (runCallbacks l).1 = [] ∧ (runCallbacks l).2 = false := by
  induction l with
  | nil => exact ⟨rfl, rfl, rfl⟩
  | cons p l ih =>
    obtain ⟨i, b⟩ := p
    have hb : b = false := h (i, b) (by simp)
    subst hb
    obtain ⟨h1, h2, h3⟩ := ih fun p hp => h p (by simp [hp])
    simp only [runCallbacks]
    refine ⟨?_, ?_, h3⟩
    · simp only [ran, List.filterMap_cons, List.map_cons, List.cons.injEq, true_and] at h1 ⊢; exact h1
    · simp only [called, List.filterMap_cons] at h2 ⊢; exact h2

theorem exec_once (p : Prog) (hq : p.quiet = true) (st : St) (hc : st.handle = false → st.callbacks = [])
    (hb : ∀ q ∈ st.callbacks, q.2 = false)
    (h : called st.log = ran st.log ++ st.callbacks.map Prod.fst) :
    called (exec p st).1.log = ran (exec p st).1.log ++ (exec p st).1.callbacks.map Prod.fst ∧
      (∀ q ∈ (exec p st).1.callbacks, q.2 = false) ∧ (exec p st).1.handle = st.handle ∧
      (st.handle = false → (exec p st).1.callbacks = []) := by
  induction p generalizing st with
  | skip => exact ⟨h, hb, rfl, hc⟩
  | act n =>
    refine ⟨?_, hb, rfl, hc⟩
    simp only [exec, called_append, ran_append]
    simpa [called, ran] using h
  | raise => exact ⟨h, hb, rfl, hc⟩
  | seq p q ihp ihq =>
    simp only [Prog.quiet, Bool.and_eq_true] at hq
    obtain ⟨h1, h2, h3, h4⟩ := ihp hq.1 st hc hb h
    simp only [exec]
    split
    · exact ⟨h1, h2, h3, h4⟩
    · obtain ⟨h5, h6, h7, h8⟩ := ihq hq.2 (exec p st).1 (fun e => h4 (h3 ▸ e)) h2 h1
      exact ⟨h5, h6, h7.trans h3, fun e => h8 (h3.trans e)⟩
  | tryExcept p ih => exact ih hq st hc hb h
  | withOpen fails p ih =>
    simp only [exec]
    cases hh : st.handle with
    | true =>
      simp only [if_true]
      have := ih hq st hc hb h
      rw [hh] at this
      exact this
    | false =>
      simp only [Bool.false_eq_true, if_false]
      have hcb := hc hh
      cases fails with
      | true =>
        simp only [if_true, closectx, hcb, runCallbacks, List.append_nil]
        rw [hcb] at h
        exact ⟨h, by simp, hh, by simp⟩
      | false =>
        simp only [Bool.false_eq_true, if_false, closectx]
        obtain ⟨h1, h2, h3, h4⟩ := ih hq { st with handle := true, log := st.log ++ [.opened] }
          (by simp) hb (by simp only [called_append, ran_append]; simpa [called, ran] using h)
        obtain ⟨e1, e2, -⟩ := runCallbacks_quiet _ h2
        refine ⟨?_, by simp, by simp, by simp⟩
        simp only [called_append, ran_append, e1, e2, h1]
        simp [called, ran]
  | onclose i r =>
    simp only [Prog.quiet, Bool.not_eq_true'] at hq
    subst hq
    simp only [exec]
    cases hh : st.handle with
    | true =>
      simp only [if_true]
      refine ⟨?_, ?_, by simp, by simp⟩
      · simp only [called_append, ran_append, h]
        simp [called, ran]
      · intro q hq
        rcases List.mem_append.1 hq with hq | hq
        · exact hb q hq
        · simp only [List.mem_singleton] at hq; subst hq; rfl
    | false =>
      simp only [Bool.false_eq_true, if_false]
      have hcb := hc hh
      rw [hcb] at h
      refine ⟨?_, hb, by simp, fun _ => hcb⟩
      simp only [called_append, ran_append, h, hcb]
      simp [called, ran]

/-! ## Properties -/

/-- Whatever the program does, including exceptions at any place and failures to open: the file is never
opened twice at the same time, it is closed exactly as often as opened and closed in the end, and
decorated functions run only while it is closed; none is left waiting. -/
theorem open_close (p : Prog) : (exec p init).1.handle = false ∧
    protocol false (exec p init).1.log = some false ∧ (exec p init).1.callbacks = [] := by
  obtain ⟨h1, h2, h3⟩ := exec_protocol p init false rfl (fun _ => rfl)
  exact ⟨h1, h2, h3 rfl⟩

/-- If no decorated function raises, each call of one is executed exactly once, in the order of the calls. -/
theorem onclose_once_partial (p : Prog) (hq : p.quiet = true) :
    ran (exec p init).1.log = called (exec p init).1.log := by
  obtain ⟨h1, -, -, h4⟩ := exec_once p hq init (fun _ => rfl) (by simp [init]) rfl
  rw [h4 rfl] at h1
  simpa using h1.symm

/-- An exception of the body is never swallowed by closing the file. -/
theorem exception_passes (p : Prog) (st : St) (hh : st.handle = false)
    (hr : (exec p { st with handle := true, log := st.log ++ [.opened] }).2 = true) :
    (exec (.withOpen false p) st).2 = true := by
  simp [exec, hh, hr]

/-! ## Examples -/

/-- Nested opening, a delayed function, an exception that is caught outside. -/
def p1 : Prog := .tryExcept (.withOpen false (.seq (.withOpen false (.seq (.onclose 1 false) (.act 5)))
  (.seq (.onclose 2 false) .raise)))

example : exec p1 init = (⟨false, [], [.opened, .called 1, .act 5, .called 2, .closed, .ran 1, .ran 2]⟩, false) := by
  decide

example : p1.quiet = true := by decide

/-- Outside of the context the function is executed at once. -/
example : exec (.onclose 1 false) init = (⟨false, [], [.called 1, .ran 1]⟩, false) := by decide

/-! ## What does not hold -/

/-- When a delayed function raises, the following ones are never executed. -/
theorem callbacks_lost :
    exec (.withOpen false (.seq (.onclose 1 true) (.onclose 2 false))) init
      = (⟨false, [], [.opened, .called 1, .called 2, .closed, .ran 1]⟩, true) := by decide

end SC.H5.Ctx
