/-! # Nested opening of a file: model

io/fs.py 79-145 (`File.open`, `_closectx`, `onclose`) with `_fopen` of io/h5fs.py 316-323. User code is an
arbitrary program that opens the file (nested to any depth), calls functions decorated with `onclose`,
raises and catches exceptions. The functions decorated with `onclose` are atomic: they do not open the
file themselves (the only one in the code is `h5Device.remove`). A handle is always true in
`if self._handle`. -/
namespace SC.H5.Ctx

/-- Programs that use a file (fs.py File.open, h5fs.py h5FileIO). -/
inductive Prog where
  | skip
  /-- use of the open file -/
  | act (n : Nat)
  | raise
  | seq (p q : Prog)
  /-- `try: p except Exception: pass` -/
  | tryExcept (p : Prog)
  /-- `with self.open(...): p`; `fails` when `_fopen` raises -/
  | withOpen (fails : Bool) (p : Prog)
  /-- call of a function decorated with `onclose` -/
  | onclose (id : Nat) (raises : Bool)
deriving DecidableEq, Repr

/-- What happens to the file. -/
inductive Ev where
  | opened
  | closed
  | act (n : Nat)
  /-- a decorated function is called … -/
  | called (id : Nat)
  /-- … and executed -/
  | ran (id : Nat)
deriving DecidableEq, Repr

/-- The state of a file object. -/
structure St where
  /-- `self._handle is not None` -/
  handle : Bool
  callbacks : List (Nat × Bool)
  log : List Ev
deriving DecidableEq, Repr

/-- Loop of lines 121-122: stops at the first function that raises. The flag tells whether one did. -/
def runCallbacks : List (Nat × Bool) → List Ev × Bool
  | [] => ([], false)
  | (i, true) :: _ => ([.ran i], true)
  | (i, false) :: l => (.ran i :: (runCallbacks l).1, (runCallbacks l).2)

/-- `_closectx`, lines 115-122: the list is emptied first. -/
def closectx (st : St) : St × Bool :=
  ({ st with callbacks := [], log := st.log ++ (runCallbacks st.callbacks).1 }, (runCallbacks st.callbacks).2)

/-- Execution; the flag tells whether an exception is raised. -/
def exec : Prog → St → St × Bool
  | .skip, st => (st, false)
  | .act n, st => ({ st with log := st.log ++ [.act n] }, false)
  | .raise, st => (st, true)
  | .seq p q, st =>
    let r := exec p st
    if r.2 then r else exec q r.1
  | .tryExcept p, st => ((exec p st).1, false)
  | .withOpen fails p, st =>
    -- lines 87-98
    if st.handle then exec p st
    else if fails then
      let r := closectx st
      (r.1, true)
    else
      let r := exec p { st with handle := true, log := st.log ++ [.opened] }
      let r' := closectx { r.1 with handle := false, log := r.1.log ++ [.closed] }
      (r'.1, r.2 || r'.2)
  | .onclose i raises, st =>
    -- lines 137-142
    if st.handle then
      ({ st with callbacks := st.callbacks ++ [(i, raises)], log := st.log ++ [.called i] }, false)
    else ({ st with log := st.log ++ [.called i, .ran i] }, raises)

/-- A new file object. -/
def init : St := ⟨false, [], []⟩

end SC.H5.Ctx
