import Mathlib.Algebra.Order.Ring.Rat
import Mathlib.Algebra.Order.Field.Rat
import Mathlib.Data.List.Basic
/-! # Model of `io/xiaedftonexus.py` and `process/nxxiaedf.py`: XIA files to a NeXus entry -/
namespace SC.XiaNx

/-- `int(np.ceil(a / b))`, exact instead of with floating point numbers. -/
def ceilDiv (a b : Nat) : Nat := (a + b - 1) / b

/-- Number of chunks for the bytes of one detector, xiaedftonexus.py:342-350. -/
def nchunks (bytes mem : Nat) : Nat :=
  let c := ceilDiv bytes mem
  if c > 1 then ceilDiv (2 * bytes) mem else c

/-- `list(range(n))[::inc]` for a positive step. -/
def strided (n inc : Nat) : List Nat := (List.range (ceilDiv n inc)).map (· * inc)

/-- `_copy_indexing`, xiaedftonexus.py:340-355, for `n` rows of `row` bytes; `mem` is the 100 MB of the code. A division
by zero raises, and so does `ind[-1]` of an empty list. The message is not modelled. -/
def copyIndex (n row mem : Nat) : Option (List Nat) :=
  let c := nchunks (n * row) mem
  if c = 0 then none
  else
    let ind := strided n (ceilDiv n c)
    match ind.getLast? with
    | none => none
    | some l => some (if l ≠ n then ind ++ [n] else ind)

/-- `dset.write_direct(mca, dest_sel)`, xiaedftonexus.py:390-393: rows `a` to `b`. -/
def writeRows {α : Type} (src : List α) (a b : Nat) (d : Nat → Option α) : Nat → Option α :=
  fun i => if a ≤ i ∧ i < b then src[i]? else d i

/-- The loop over the chunks, xiaedftonexus.py:389-394. -/
def copyChunks {α : Type} (src : List α) : List Nat → (Nat → Option α) → (Nat → Option α)
  | a :: b :: l, d => copyChunks src (b :: l) (writeRows src a b d)
  | _, d => d

/-- `_copy_mca`, xiaedftonexus.py:378-404: the rows in the file. A dataset which is not written yet has no
rows. -/
def copyMca {α : Type} (src : List α) (row mem : Nat) : Option (Nat → Option α) :=
  (copyIndex src.length row mem).map fun ind =>
    if ind.length > 2 then copyChunks src ind (fun _ => none) else fun i => src[i]?

/-- `_skip_counter`, xiaedftonexus.py:247-256. -/
def skipCounter (includes excludes : List (String → Bool)) (ctr : String) : Bool :=
  let bexclude := if excludes.isEmpty then false else excludes.any fun f => f ctr
  let binclude := if includes.isEmpty then true else includes.any fun f => f ctr
  !binclude || bexclude

/-- `_rematch_func`, nxxiaedf.py:87-95; regular expressions are their matching functions. -/
inductive Match where
  | regex (f : String → Bool)
  | equal (v : String)
  | other

def Match.func : Match → String → Bool
  | .regex f => f
  | .equal v => fun c => v == c
  | .other => fun _ => false

/-- `_counter_interpretation`, xiaedftonexus.py:121-133: what is expected under which counter name. Lists as counter
names are not modelled. -/
def interpretations (ctrdict : String → Option String) (fluxid transmissionid : String) : List (String × Option String) :=
  [("icr", ctrdict "xrficr"), ("ocr", ctrdict "xrfocr"), ("lt", ctrdict "xrflt"), ("rt", ctrdict "xrfrt"),
   ("dt", ctrdict "xrfdt"), ("i0", ctrdict (fluxid ++ "_counts")), ("it", ctrdict (transmissionid ++ "_counts"))]

/-- `{v: k for k, v in ret.items() if v}`, xiaedftonexus.py:133: the last one with a name wins. -/
def inverse : List (String × Option String) → String → Option String
  | [], _ => none
  | (k, v) :: l, c =>
    match inverse l c with
    | some k' => some k'
    | none => if v = some c ∧ c ≠ "" then some k else none

/-- A stored counter: its name in the file and its column in the data. -/
abbrev Ref := String × Nat

/-- Stored counters and `_counter_paths`. -/
structure St where
  meas : List Ref
  paths : String → String → Option Ref

/-- One counter, xiaedftonexus.py:222-236. -/
def addCounter (parse : String → String × String) (skip : String → Bool) (interp : String → Option String) (st : St)
    (i : Nat) (name : String) : St :=
  let cd := parse name
  if skip cd.1 then st
  else
    let path := if cd.2 ≠ "" then cd.1 ++ "_" ++ cd.2 else cd.1
    let det := if cd.2 ≠ "" then cd.2 else "counters"
    { meas := st.meas ++ [(path, i)],
      paths := match interp cd.1 with
        | none => st.paths
        | some k => fun d k' => if d = det ∧ k' = k then some (path, i) else st.paths d k' }

/-- The loop of `_parse_counters`, xiaedftonexus.py:222-236. -/
def addCounters (parse : String → String × String) (skip : String → Bool) (interp : String → Option String) :
    St → Nat → List String → St
  | st, _, [] => st
  | st, i, n :: l => addCounters parse skip interp (addCounter parse skip interp st i n) (i + 1) l

def parseCounters (parse : String → String × String) (skip : String → Bool) (interp : String → Option String)
    (names : List String) : St :=
  addCounters parse skip interp ⟨[], fun _ _ => none⟩ 0 names

/-- The link in the application, xiaedftonexus.py:238-242, for "i0" and "it". -/
def link (st : St) (k : String) : Option Ref := st.paths "counters" k

/-- Statistics of a pixel. -/
structure Stats where
  events : Rat
  icr : Rat
  ocr : Rat

/-- Division of numpy without warnings: none is infinite or not a number. -/
def npDiv (a b : Rat) : Option Rat := if b = 0 then none else some (a / b)

/-- Where a time comes from. -/
inductive Time where
  | counter (r : Ref)
  | calculated (v : Option Rat)
  | missing

/-- Live time and elapsed time of a detector in one pixel, xiaedftonexus.py:294-331. -/
def times (lt rt : Option Ref) (stats : Option Stats) : Time × Time :=
  let rt' := match rt with
    | some r => .counter r
    | none => match stats with
      | some s => .calculated (npDiv s.events s.ocr)
      | none => .missing
  let lt' := match lt with
    | some r => .counter r
    | none => match stats with
      | some s => .calculated (npDiv s.events s.icr)
      | none => .missing
  (lt', rt')

/-- The entries of a file. -/
abbrev Entries (α : Type) := List (String × α)

/-- `_atomic_context_enter`, nxxiaedf.py:34-39: the first random name that does not exist. -/
def tempName {α : Type} (e : Entries α) (drawn : List String) : Option String :=
  drawn.find? fun n => !(e.any fun x => x.1 == n)

/-- The task in its context, nxxiaedf.py:34-83: convert into a temporary entry, rename it on success
(`renameremove` of fs.py:721-727: remove it when the output exists) and remove it after an exception, which is not raised
further. The conversion gives the content, or none when it raises. Marking the default is not modelled. -/
def runTask {α : Type} (e : Entries α) (drawn : List String) (empty : α) (out : String) (convert : Option α) : Option (Entries α) :=
  (tempName e drawn).map fun t =>
    let e1 := e ++ [(t, empty)]
    match convert with
    | none => e1.filter fun x => x.1 != t
    | some c =>
      let e2 := e1.map fun x => if x.1 == t then (t, c) else x
      if e2.any fun x => x.1 == out then e2.filter fun x => x.1 != t
      else e2.map fun x => if x.1 == t then (out, c) else x

end SC.XiaNx
