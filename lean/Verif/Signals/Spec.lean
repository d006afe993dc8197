import Verif.Signals.Model
/-! # Specification of termination handling -/
namespace SC.Signals

/-- Number of calls of the teardown function. -/
def teardowns (l : List Ev) : Nat := l.countP fun e => match e with
  | .teardown _ => true
  | _ => false

/-- Instructions of a cleanup in progress. -/
def busy : Instr → Bool
  | .cleanup _ => true
  | .teardownStart _ => true
  | .user .teardown => true
  | .restoreStart => true
  | .restoring _ => true
  | _ => false

/-- The handlers are being replaced. -/
def replacing : Instr → Bool
  | .replace _ _ => true
  | _ => false

/-- Labels that do not disturb setup and cleanup: no termination signal while the handlers are being
replaced or a cleanup is in progress, no exception of the setup and teardown functions, and no other
signal handler that raises outside of the with block or during a cleanup. -/
def calm (st : St) : Label → Prop
  | .tick => True
  | .raise => st.stack.head? ≠ some (.user .setup) ∧ st.stack.head? ≠ some (.user .teardown)
  | .signal s raises =>
    (st.handlers s = .ours → (∀ i ∈ st.stack, replacing i = false) ∧ ∀ i ∈ st.stack, busy i = false) ∧
    (st.handlers s ≠ .ours → raises = true → st.stack ≠ [] →
      Instr.exitBlock ∈ st.stack ∧ ∀ i ∈ st.stack, busy i = false)

/-- A schedule of calm labels. -/
def Calm (c : Cfg) : List Label → St → Prop
  | [], _ => True
  | l :: ls, st => calm st l ∧ ∀ st', step c st l = some st' → Calm c ls st'

/-- Initial handlers: ours is not installed yet, no signal is listed twice. -/
structure Good (c : Cfg) : Prop where
  fresh : ∀ s, c.old s ≠ .ours
  nodup : c.sigs.Nodup

/-- All replaced handlers can be restored. -/
def Known (c : Cfg) : Prop := ∀ s ∈ c.sigs, c.old s ≠ .unknown

end SC.Signals
