/-! # Model of `utils/signalhandling.py`, `HandleTermination`

The program

    with HandleTermination(setup, teardown, resend):
        body

is a machine with a stack of instructions (the rest of the program, innermost call first).  Python
runs signal handlers between two instructions, so a signal may arrive before every step of the
machine; its handler is pushed on the stack.  User code (setup, body, teardown) is opaque: it ends or
raises when the schedule says so.  Whether `__exit__` suppresses the exception and the logging are not
modelled; setup and teardown are given (not `None`). -/
namespace SC.Signals

/-- Signals. -/
abbrev Sig := Nat

/-- What `signal.getsignal` returns. -/
inductive Handler where
  /-- a Python function -/
  | py (id : Nat)
  | dfl
  | ign
  /-- not installed from Python (`None`) -/
  | unknown
  /-- `HandleTermination._newhandler` -/
  | ours
deriving DecidableEq, Repr

/-- Why `_cleanup` is called. -/
inductive Cause where
  | normal
  | exc
  | sig (s : Sig)
deriving DecidableEq, Repr

/-- Who raised or sent. -/
inductive Who where
  | setup | body | teardown
deriving DecidableEq, Repr

/-- Instructions of HandleTermination, signalhandling.py 67-118. -/
inductive Instr where
  /-- line 81 -/
  | setNeed
  /-- loop of replace_handlers, lines 36-42, and the assignment of line 82 at its end -/
  | replace (todo : List Sig) (acc : List (Sig × Handler))
  /-- line 84 -/
  | setupStart
  /-- user code that is running -/
  | user (w : Who)
  /-- the body starts: from now on exceptions lead to `__exit__` -/
  | bodyStart
  /-- end of the with block: `__exit__`, lines 116-118 -/
  | exitBlock
  /-- `_cleanup`, lines 88-89 -/
  | cleanup (c : Cause)
  /-- line 91 -/
  | teardownStart (c : Cause)
  /-- line 92: reading `self._oldhandlers` -/
  | restoreStart
  /-- loop of restore_handlers, lines 47-48, and line 93 at its end -/
  | restoring (items : List (Sig × Handler))
  /-- lines 113-114 and send_signals -/
  | resend (s : Sig)
deriving DecidableEq, Repr

/-- Observable events. -/
inductive Ev where
  | setup
  | body
  | teardown (c : Cause)
  /-- a handler other than ours is called -/
  | deliver (s : Sig) (h : Handler)
deriving DecidableEq, Repr

/-- The state of a process with a HandleTermination. -/
structure St where
  handlers : Sig → Handler
  /-- `self._needcleanup` -/
  need : Bool
  /-- `self._oldhandlers`, `none` before its assignment -/
  saved : Option (List (Sig × Handler))
  stack : List Instr
  log : List Ev
  /-- an exception left the with statement without `__exit__`, or came out of `__exit__` itself -/
  aborted : Bool

/-- The handled signals and the options of HandleTermination, signalhandling.py 73-77. -/
structure Cfg where
  /-- the termination signals of this platform (termination_handlers, lines 19-25) -/
  sigs : List Sig
  /-- `signal.signal` fails for this signal (lines 37-40) -/
  fails : Sig → Bool
  resend : Bool
  /-- the handlers before the with statement -/
  old : Sig → Handler

/-- What happens next. -/
inductive Label where
  /-- the next instruction is executed; user code that is running ends -/
  | tick
  /-- user code, or the handler called by `resend`, raises -/
  | raise
  /-- a signal arrives; if its handler is not ours, it returns (`false`) or raises (`true`) -/
  | signal (s : Sig) (raises : Bool)
deriving DecidableEq, Repr

/-- `signal.signal(s, h)`. -/
def setHandler (f : Sig → Handler) (s : Sig) (h : Handler) : Sig → Handler :=
  fun t => if t = s then h else f t

/-- Stack of the with statement. -/
def initStack (c : Cfg) : List Instr := [.setNeed, .replace c.sigs [], .setupStart, .bodyStart]

/-- The state before the with statement. -/
def init (c : Cfg) : St := ⟨c.old, false, none, initStack c, [], false⟩

/-- An exception: the stack is unwound to the end of the with block, if the body was started. -/
def throw (st : St) : List Instr → St
  | [] => { st with stack := [], aborted := true }
  | .exitBlock :: rest => { st with stack := .cleanup .exc :: rest }
  | _ :: rest => throw st rest

/-- `oldhandlers.get(sig, None)` -/
def lookup (l : List (Sig × Handler)) (s : Sig) : Option Handler := (l.find? (·.1 == s)).map (·.2)

/-- Is the handler a Python function? (`SIG_DFL` and `SIG_IGN` are not callable: the `TypeError` of
line 59 is ignored.) -/
def callable : Option Handler → Option Handler
  | some (.py i) => some (.py i)
  | _ => none

/-- Execution of the next instruction. -/
def exec (c : Cfg) (st : St) : Instr → List Instr → St
  | .setNeed, k => { st with need := true, stack := k }
  | .replace [] acc, k => { st with saved := some acc, stack := k }
  | .replace (s :: todo) acc, k =>
    if c.fails s then { st with stack := .replace todo acc :: k }
    else { st with
      handlers := setHandler st.handlers s .ours
      stack := .replace todo (acc ++ [(s, st.handlers s)]) :: k }
  | .setupStart, k => { st with log := st.log ++ [.setup], stack := .user .setup :: k }
  | .user _, k => { st with stack := k }
  | .bodyStart, k => { st with log := st.log ++ [.body], stack := .user .body :: .exitBlock :: k }
  | .exitBlock, k => { st with stack := .cleanup .normal :: k }
  | .cleanup cause, k =>
    if st.need then { st with stack := .teardownStart cause :: k }
    else { st with stack := k }
  | .teardownStart cause, k =>
    { st with log := st.log ++ [.teardown cause], stack := .user .teardown :: .restoreStart :: k }
  | .restoreStart, k =>
    match st.saved with
    | none => throw st k
    | some l => { st with stack := .restoring l :: k }
  | .restoring [], k => { st with need := false, stack := k }
  | .restoring ((s, h) :: items), k =>
    if h = .unknown then throw st k
    else { st with handlers := setHandler st.handlers s h, stack := .restoring items :: k }
  | .resend s, k =>
    match callable (lookup (st.saved.getD []) s) with
    | some h => { st with log := st.log ++ [.deliver s h], stack := k }
    | none => { st with stack := k }

/-- One step of the machine, `none` when the label does not apply. -/
def step (c : Cfg) (st : St) : Label → Option St
  | .tick =>
    match st.stack with
    | [] => none
    | i :: k => some (exec c st i k)
  | .raise =>
    match st.stack with
    | .user _ :: k => some (throw st k)
    | .resend s :: k =>
      match callable (lookup (st.saved.getD []) s) with
      | some h => some (throw { st with log := st.log ++ [.deliver s h] } k)
      | none => none
    | _ => none
  | .signal s raises =>
    if st.handlers s = .ours then
      -- lines 96-114
      some { st with stack := .cleanup (.sig s) :: (if c.resend then [.resend s] else []) ++ st.stack }
    else
      let st' := { st with log := st.log ++ [.deliver s (st.handlers s)] }
      if raises ∧ st.stack ≠ [] then some (throw st' st.stack) else some st'

/-- A schedule. -/
def run (c : Cfg) : List Label → St → Option St
  | [], st => some st
  | l :: ls, st => (step c st l).bind (run c ls)

end SC.Signals
