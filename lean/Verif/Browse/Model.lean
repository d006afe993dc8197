import Verif.Scan.CmdSpec
/-! # Model of browsing in `io/fs.py`: trees, searches, free names, ancestors, and open files

Simplified: no links.  A path is the list of its names below the device.  The entries of a directory are in
sorted order.  An exception is a value. -/
namespace SC.Browse

mutual
/-- A file or a directory. -/
inductive Node (N : Type)
  | file
  | dir (es : Entries N)
/-- The entries of a directory, in sorted order. -/
inductive Entries (N : Type)
  | nil
  | cons (n : N) (x : Node N) (rest : Entries N)
end

variable {N : Type}

/-- isdir. -/
def Node.isDir : Node N → Bool
  | .file => false
  | .dir _ => true

/-- The tuples that `tree` returns: path or None, list or None. -/
inductive Out (N : Type)
  | node (path : Option (List N)) (sub : Option (List (Out N)))

mutual
/-- tree, fs.py:499-528. -/
def tree (recursive : Bool) (depth : Int) (files : Bool) (level : Int) (p : List N) : Node N → Out N
  | .file => if files then .node (some p) none else .node none none
  | .dir es => .node (some p) (some (treeList recursive depth files level p es))
/-- The loop of tree, fs.py:508-522. -/
def treeList (recursive : Bool) (depth : Int) (files : Bool) (level : Int) (p : List N) : Entries N → List (Out N)
  | .nil => []
  | .cons n x rest =>
    let more := treeList recursive depth files level p rest
    match x with
    | .dir es =>
      if !recursive && level == depth then .node (some (p ++ [n])) none :: more
      else tree recursive depth files (level + 1) (p ++ [n]) (.dir es) :: more
    | .file => if files then .node (some (p ++ [n])) none :: more else more
end

mutual
/-- find in an entry, fs.py:749-753: what is found below. -/
def findBelow (recursive : Bool) (depth : Int) (isMatch : List N → Bool) (level : Int) (p : List N) : Node N → List (List N)
  | .file => []
  | .dir es => if recursive && level > depth then find true depth true isMatch (level + 1) p es else []
/-- find, fs.py:736-753: `files` is not passed on. -/
def find (recursive : Bool) (depth : Int) (files : Bool) (isMatch : List N → Bool) (level : Int) (p : List N) :
    Entries N → List (List N)
  | .nil => []
  | .cons n x rest =>
    let more := find recursive depth files isMatch level p rest
    if !x.isDir && !files then more
    else (if isMatch (p ++ [n]) then [p ++ [n]] else []) ++ findBelow recursive depth isMatch level (p ++ [n]) x ++ more
end

/-! ## Free names -/

abbrev Str := List Char

/-- The match of `^(.+)\((\d+)\)$`, fs.py:758, read from the end. -/
def splitNumber (name : Str) : Option (Str × Nat) :=
  match name.reverse with
  | ')' :: r =>
    let ds := r.takeWhile Char.isDigit
    match r.dropWhile Char.isDigit with
    | '(' :: b => if ds ≠ [] ∧ b ≠ [] then some (b.reverse, SC.Scan.natVal ds.reverse) else none
    | _ => none
  | _ => none

/-- `(name + "({})").format(i)` for a name without braces, fs.py:764 and 767. -/
def numbered (base : Str) (i : Nat) : Str := base ++ ['('] ++ Nat.toDigits 10 i ++ [')']

/-- The while loop, fs.py:765-766; the fuel is the number of entries. -/
def search (taken : List Str) (base : Str) : Nat → Nat → Nat
  | 0, i => i
  | fuel + 1, i => if numbered base i ∈ taken then search taken base fuel (i + 1) else i

/-- nonexisting_name, fs.py:755-767, for names without braces. -/
def nonexistingName (taken : List Str) (name : Str) : Str :=
  if name ∉ taken then name
  else
    let (base, i) : Str × Nat := match splitNumber name with
      | some (b, i) => (b, i + 1)
      | none => (name, 1)
    numbered base (search taken base taken.length i)

/-- `str.format` with one argument `i`: `{{` and `}}` are braces, `{}` takes the next argument, and any other brace
is an error here.  `next` is the number of the next argument. -/
def format (i : Nat) : Nat → Str → Option Str
  | next, '{' :: '{' :: r => (format i next r).map ('{' :: ·)
  | next, '}' :: '}' :: r => (format i next r).map ('}' :: ·)
  | next, '{' :: '}' :: r => if next = 0 then (format i 1 r).map (Nat.toDigits 10 i ++ ·) else none
  | _, '{' :: _ => none
  | _, '}' :: _ => none
  | next, c :: r => (format i next r).map (c :: ·)
  | _, [] => some []

/-- `fmt.format(i)` for any name, fs.py:764-767. -/
def numberedFmt (base : Str) (i : Nat) : Option Str := format i 0 (base ++ ['(', '{', '}', ')'])

/-! ## Ancestors -/

/-- iterup of a reversed path. -/
def iterupRev : List N → List (List N)
  | [] => [[]]
  | n :: r => (n :: r).reverse :: iterupRev r

/-- iterup, fs.py:490-497: the path, its parent and so on, to the root, which is its own parent. -/
def iterup (p : List N) : List (List N) := iterupRev p.reverse

/-- root, fs.py:484-488: the last of iterup. -/
def root (p : List N) : Option (List N) := (iterup p).getLast?

/-- The loop of common, fs.py:360-366. -/
def commonLoop [DecidableEq N] (ret : Option (List N)) : List (List N × List N) → Option (List N)
  | [] => ret
  | (a, b) :: r => if a = b then commonLoop (some a) r else ret

/-- common, fs.py:354-366. -/
def common {D : Type} [DecidableEq D] [DecidableEq N] (d1 : D) (p : List N) (d2 : D) (q : List N) : Option (List N) :=
  if d1 ≠ d2 then none
  else commonLoop none ((iterup p).reverse.zip (iterup q).reverse)

/-! ## Open files -/

/-- What happens to a file. -/
inductive Event (F : Type)
  | opened | closed | asked (f : F) | ran (f : F)
  deriving DecidableEq

/-- A program that works on one `File` object: nested `with` blocks, calls of functions decorated with `onclose`
and exceptions. -/
inductive Prog (F : Type)
  | skip
  | seq (a b : Prog F)
  | withOpen (openFails closeFails : Bool) (body : Prog F)
  | onclose (f : F)
  | raise

/-- The object, fs.py:82-85, and the events so far. -/
structure St (F : Type) where
  isOpen : Bool
  callbacks : List F
  log : List (Event F)

variable {F : Type}

/-- The loop over the functions, fs.py:121-122; an exception ends it.  The functions do not open the file. -/
def runCallbacks (fails : F → Bool) : List F → List (Event F) × Bool
  | [] => ([], true)
  | f :: fs =>
    if fails f then ([.ran f], false)
    else
      let (l, ok) := runCallbacks fails fs
      (.ran f :: l, ok)

/-- Leaving _closectx, fs.py:114-122. -/
def closectx (fails : F → Bool) (st : St F) (ok : Bool) : St F × Bool :=
  let (l, ok') := runCallbacks fails st.callbacks
  (⟨st.isOpen, [], st.log ++ l⟩, ok && ok')

/-- Running a program: open, fs.py:87-99, and onclose, fs.py:137-145. -/
def run (fails : F → Bool) : Prog F → St F → St F × Bool
  | .skip, st => (st, true)
  | .raise, st => (st, false)
  | .seq a b, st =>
    let (st1, ok) := run fails a st
    if ok then run fails b st1 else (st1, false)
  | .onclose f, st =>
    if st.isOpen then (⟨st.isOpen, st.callbacks ++ [f], st.log ++ [.asked f]⟩, true)
    else (⟨st.isOpen, st.callbacks, st.log ++ [.asked f, .ran f]⟩, !fails f)
  | .withOpen openFails closeFails body, st =>
    if st.isOpen then run fails body st
    else if openFails then closectx fails st false
    else
      let (st1, ok) := run fails body ⟨true, st.callbacks, st.log ++ [.opened]⟩
      closectx fails ⟨false, st1.callbacks, st1.log ++ [.closed]⟩ (ok && !closeFails)

end SC.Browse
