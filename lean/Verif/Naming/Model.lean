/-! # Model of `io/target.py` (names) and `Path.nonexisting_name` of `io/fs.py`

A `str` is a list of characters.  Simplified: digits are the ASCII digits; numbers are natural
numbers (negative increments are not modelled); the children of a path are a list of names and
`name in path` is membership in it. -/
namespace SC.Naming

/-- Texts. -/
abbrev Str := List Char

/-- `re.finditer("[0-9]+", name)`: start and text of the maximal runs of digits from left to
right; `k` is the position of the first character. -/
def runs : Nat → Str → List (Nat × Str)
  | _, [] => []
  | k, c :: cs =>
    if c.isDigit then
      match runs (k + 1) cs with
      | [] => [(k, [c])]
      | (k', d) :: r => if k' = k + 1 then (k, c :: d) :: r else (k, [c]) :: (k', d) :: r
    else runs (k + 1) cs

/-- Result of locate_number. -/
structure Loc where
  start : Nat
  stop : Nat
  num : Nat
  nonumber : Bool
deriving DecidableEq, Repr

/-- locate_number, target.py:9-13: the last run. -/
def locateNumber (name : Str) : Loc :=
  match (runs 0 name).getLast? with
  | none => ⟨0, 0, 0, true⟩
  | some (k, d) => ⟨k, k + d.length, Nat.ofDigitChars 10 d 0, decide (k = k + d.length)⟩

/-- naming_format, target.py:16-22: the format string, the number and `nonumber`. -/
def namingFormat (name : Str) : Str × Nat × Bool :=
  let l := locateNumber name
  if l.nonumber then (name ++ ".{:d}".toList, l.num, l.nonumber)
  else
    (name.take l.start ++ ("{:0".toList ++ Nat.toDigits 10 (l.stop - l.start) ++ "d}".toList)
      ++ name.drop l.stop, l.num, l.nonumber)

/-- A number padded with zeros to width `w`. -/
def pad (w n : Nat) : Str :=
  List.replicate (w - (Nat.toDigits 10 n).length) '0' ++ Nat.toDigits 10 n

/-- The width of a format specification `{}`, `{:d}` or `{:0<width>d}`; other specifications are
not modelled (`none`). -/
def specWidth : Str → Option Nat
  | [] => some 0
  | [':', 'd'] => some 0
  | ':' :: '0' :: r =>
    if r.getLast? = some 'd' ∧ r.dropLast ≠ [] ∧ r.dropLast.all Char.isDigit then
      some (Nat.ofDigitChars 10 r.dropLast 0)
    else none
  | _ => none

/-- Scanner state of `str.format`. -/
inductive FSt where
  | lit | opened | closed
  | field : Str → FSt

/-- `fmt.format(n)` (not part of /repo; `none`: an exception).  `{{` and `}}` are literal braces, a
second automatic field has no argument. -/
def fmtGo (n : Nat) : FSt → Bool → Str → Option Str
  | .lit, _, [] => some []
  | _, _, [] => none
  | .lit, used, c :: cs =>
    if c = '{' then fmtGo n .opened used cs
    else if c = '}' then fmtGo n .closed used cs
    else (fmtGo n .lit used cs).map (c :: ·)
  | .opened, used, c :: cs =>
    if c = '{' then (fmtGo n .lit used cs).map ('{' :: ·)
    else if c = '}' then if used then none else (fmtGo n .lit true cs).map (pad 0 n ++ ·)
    else fmtGo n (.field [c]) used cs
  | .closed, used, c :: cs =>
    if c = '}' then (fmtGo n .lit used cs).map ('}' :: ·) else none
  | .field acc, used, c :: cs =>
    if c = '{' then none
    else if c = '}' then
      match specWidth acc.reverse with
      | none => none
      | some w => if used then none else (fmtGo n .lit true cs).map (pad w n ++ ·)
    else fmtGo n (.field (c :: acc)) used cs

/-- `fmt.format(n)`; `none`: an exception or a format that is not modelled. -/
def pyFormat (fmt : Str) (n : Nat) : Option Str := fmtGo n .lit false fmt

/-- increment, target.py:39-47. -/
def increment (name : Str) (add : Nat := 1) : Option Str :=
  pyFormat (namingFormat name).1 ((namingFormat name).2.1 + add)

/-- prepare, target.py:50-58. -/
def prepare (name : Str) : Option Str :=
  let f := namingFormat name
  pyFormat f.1 (if f.2.2 then 1 else f.2.1)

/-- `Name`, target.py:61-69. -/
structure Name where
  fmt : Str
  num : Nat
  orgnum : Nat
  locked : Bool
deriving DecidableEq, Repr

/-- `Name(name)`, target.py:62-69. -/
def Name.new (name : Str) : Name :=
  let f := namingFormat name
  let num := if f.2.2 then 1 else f.2.1
  ⟨f.1, num, num, false⟩

/-- `str(name)`, target.py:83-84. -/
def Name.str (x : Name) : Option Str := pyFormat x.fmt x.num

/-- reset, target.py:71-72. -/
def Name.reset (x : Name) : Name := { x with num := x.orgnum }
/-- lock, target.py:74-75. -/
def Name.lock (x : Name) : Name := { x with locked := true }
/-- unlock, target.py:77-78. -/
def Name.unlock (x : Name) : Name := { x with locked := true }

/-- `name += k`, target.py:86-93. -/
def Name.iadd (x : Name) (k : Nat) : Name := if x.locked then x else { x with num := x.num + k }

/-- `name + k`, target.py:95-96. -/
def Name.add (x : Name) (k : Nat) : Option Name := (pyFormat x.fmt (x.num + k)).map Name.new

/-- What a loop over names does. -/
inductive Outcome where
  | found : Name → Str → Outcome
  /-- an exception of `str.format` -/
  | raised : Outcome
  /-- the loop has not ended within the given number of rounds -/
  | running : Outcome
deriving DecidableEq, Repr

/-- `while entry[str(name)].exists: name += 1` (nxfs.py:336-337, 404-407, nxprocess.py:62-63),
`fuel` rounds. -/
def freshLoop (existing : List Str) : Nat → Name → Outcome
  | 0, _ => .running
  | f + 1, x =>
    match x.str with
    | none => .raised
    | some s => if s ∈ existing then freshLoop existing f (x.iadd 1) else .found x s

/-- `target.match(name)(s)`, target.py:25-36 (`re.escape` makes the parts around the number
literal; `$` also matches before a final newline). -/
def dropPrefix : Str → Str → Option Str
  | [], s => some s
  | c :: cs, d :: ds => if c = d then dropPrefix cs ds else none
  | _ :: _, [] => none

/-- `$` of a regular expression. -/
def atEnd (s : Str) : Bool := s = [] ∨ s = ['\n']

/-- match, target.py 25-37. -/
def matchName (name s : Str) : Bool :=
  let l := locateNumber name
  if l.nonumber then
    match dropPrefix name s with
    | none => false
    | some r =>
      atEnd r ||
        match r with
        | '.' :: r' => !(r'.takeWhile Char.isDigit).isEmpty && atEnd (r'.dropWhile Char.isDigit)
        | _ => false
  else
    match dropPrefix (name.take l.start) s with
    | none => false
    | some r =>
      !(r.takeWhile Char.isDigit).isEmpty &&
        match dropPrefix (name.drop l.stop) (r.dropWhile Char.isDigit) with
        | none => false
        | some r' => atEnd r'

/-- `re.match(r"^(.+)\((\d+)\)$", name)`, fs.py:758: the two groups. -/
def parenGroups (name : Str) : Option (Str × Str) :=
  let r := name.reverse
  let r := match r with
    | '\n' :: t => t
    | t => t
  match r with
  | ')' :: t =>
    let d := t.takeWhile Char.isDigit
    match t.dropWhile Char.isDigit with
    | '(' :: p => if d ≠ [] ∧ p ≠ [] ∧ '\n' ∉ p then some (p.reverse, d.reverse) else none
    | _ => none
  | _ => none

/-- The loop of nonexisting_name, fs.py:765-767 (`fmt` is the format string). -/
def parenLoop (existing : List Str) (fmt : Str) : Nat → Nat → Option (Option Str)
  | 0, _ => none
  | f + 1, i =>
    match pyFormat fmt i with
    | none => some none
    | some s => if s ∈ existing then parenLoop existing fmt f (i + 1) else some (some s)

/-- nonexisting_name, fs.py:755-767, with `fuel` rounds (`none`: still running, `some none`: an
exception). -/
def nonexistingName (existing : List Str) (fuel : Nat) (name : Str) : Option (Option Str) :=
  if name ∉ existing then some (some name)
  else
    match parenGroups name with
    | some (p, d) => parenLoop existing (p ++ "({})".toList) fuel (Nat.ofDigitChars 10 d 0 + 1)
    | none => parenLoop existing (name ++ "({})".toList) fuel 1

end SC.Naming
