import Verif.IntBase.Model
/-! # Model of `process/nxexpression.py`

The expression calculator: `MathParser` compiles a formula to a postfix stack with a `pyparsing`
grammar and evaluates the stack; `Task` renames the placeholders of a formula and reads their
datasets.  Strings are lists of characters.  `pyparsing`'s documented behaviour (white space is
skipped before every token, `|` takes the first match, `ZeroOrMore` and `Optional` are greedy and
never reconsidered, parse actions run as soon as their element has matched and their effects stay
when the match is later abandoned) is part of the trusted specification. -/

namespace SC.Expression

/-- Texts. -/
abbrev Str := List Char
/-- `self.exprStack`, the last element being the top. -/
abbrev Stack := List Str

/-! ## Tokens -/

/-- `pyparsing`'s default white space. -/
def isWs (c : Char) : Bool := c == ' ' || c == '\n' || c == '\t' || c == '\r'

/-- White space skipped before a token. -/
def skip (s : Str) : Str := s.dropWhile isWs

/-- `pyparsing.alphas` -/
def isLetter (c : Char) : Bool := c.isAlpha

/-- `pyparsing.nums` -/
def isNum (c : Char) : Bool := c.isDigit

/-- `"+-" + pyparsing.nums` -/
def isSignNum (c : Char) : Bool := c == '+' || c == '-' || c.isDigit

/-- `pyparsing.alphas + pyparsing.nums + "_$"` (nxexpression.py 156) -/
def isIdentChar (c : Char) : Bool := c.isAlpha || c.isDigit || c == '_' || c == '$'

/-- `pyparsing.Literal(l)` without skipping white space: what follows the literal. -/
def literal (l : Str) (s : Str) : Option Str := if l.isPrefixOf s then some (s.drop l.length) else none

/-- `pyparsing.CaselessLiteral(l)`, `l` in upper case. -/
def caseless (l : Str) (s : Str) : Option Str :=
  if (s.take l.length).map Char.toUpper = l then some (s.drop l.length) else none

/-- `pyparsing.Word(first, body)` without skipping white space: the word and what follows. -/
def word (first body : Char → Bool) : Str → Option (Str × Str)
  | [] => none
  | c :: s => if first c then some (c :: s.takeWhile body, s.dropWhile body) else none

/-- `pyparsing.Optional(point + pyparsing.Optional(pyparsing.Word(pyparsing.nums)))`
(nxexpression.py 147-149). -/
def fracPart : Str → Str × Str
  | '.' :: s => ('.' :: s.takeWhile isNum, s.dropWhile isNum)
  | s => ([], s)

/-- `pyparsing.Optional(e + pyparsing.Word("+-" + pyparsing.nums, pyparsing.nums))`
(nxexpression.py 150-152); the exponent character is returned in upper case. -/
def expPart (s : Str) : Str × Str :=
  match caseless ['E'] s with
  | none => ([], s)
  | some s' =>
    match word isSignNum isNum s' with
    | none => ([], s)
    | some (w, r) => ('E' :: w, r)

/-- `fnumber` (nxexpression.py 145-153): white space is skipped before but not inside the
`Combine`. -/
def numberTok (s : Str) : Option (Str × Str) :=
  match word isSignNum isNum (skip s) with
  | none => none
  | some (w, r) =>
    some (w ++ (fracPart r).1 ++ (expPart (fracPart r).2).1, (expPart (fracPart r).2).2)

/-- `pyparsing.Optional(pyparsing.oneOf("- +"))` (nxexpression.py 173 and 178). -/
def sign (s : Str) : Option Char × Str :=
  match skip s with
  | '-' :: r => (some '-', r)
  | '+' :: r => (some '+', r)
  | _ => (none, s)

/-! ## The grammar -/

/-- What parsing gives: `none` when the bound on the recursion depth is reached (see
`run_terminates`), otherwise the rest of the text (`none`: `ParseException`) and the stack. -/
abbrev Res := Option (Option Str × Stack)

/-- `+` of two parser elements: the second starts where the first ended. -/
def andThen (x : Res) (f : Str → Stack → Res) : Res :=
  match x with
  | none => none
  | some (none, st) => some (none, st)
  | some (some r, st) => f r st

/-- `|` of two parser elements: the second is tried at the same place; what the first pushed on
the stack before it failed stays there. -/
def orElse (x : Res) (f : Stack → Res) : Res :=
  match x with
  | none => none
  | some (none, st) => f st
  | some (some r, st) => some (some r, st)

/-- A token that pushes nothing. -/
def expect (x : Option Str) (st : Stack) : Res := some (x, st)

/-- The elements with an operator loop: `expr`, `term`, `factor`, and `atom`
(nxexpression.py 171-195). -/
inductive Lv where
  | sum | product | power | atom
deriving DecidableEq, Repr

/-- The element at the start of a level (186, 190, 193). -/
def Lv.first : Lv → Lv
  | .sum => .product
  | .product => .power
  | .power => .atom
  | .atom => .atom

/-- The element after an operator (187, 191, 194): for `^` again a `factor`. -/
def Lv.operand : Lv → Lv
  | .sum => .product
  | .product => .power
  | .power => .power
  | .atom => .atom

/-- The operators of a level, `addop`, `multop` and `expop` (166-168). -/
def Lv.ops : Lv → List Char
  | .sum => ['+', '-']
  | .product => ['*', '/']
  | .power => ['^']
  | .atom => []

/-- An operator of the level, after white space. -/
def operator (lv : Lv) (s : Str) : Option (Char × Str) :=
  match skip s with
  | c :: r => if c ∈ lv.ops then some (c, r) else none
  | [] => none

/-- `ident + lpar + expr + rpar` with `pushFirst` (nxexpression.py 174-176). -/
def callP (expr : Str → Stack → Res) (s : Str) (st : Stack) : Res :=
  match word isLetter isIdentChar (skip s) with
  | none => some (none, st)
  | some (f, r) =>
    andThen (expect (literal ['('] (skip r)) st) fun r st =>
    andThen (expr r st) fun r st =>
    andThen (expect (literal [')'] (skip r)) st) fun r st =>
    some (some r, st ++ [f])

/-- `var` with `pushFirst` (nxexpression.py 158 and 174-176). -/
def varP (s : Str) (st : Stack) : Res :=
  match literal ['v', 'a', 'r', '_'] (skip s) with
  | none => some (none, st)
  | some r =>
    match word isLetter isLetter (skip r) with
    | none => some (none, st)
    | some (v, r) => some (some r, st ++ [v])

/-- `pi | e | fnumber | ident + lpar + expr + rpar | var` with `pushFirst`
(nxexpression.py 174-176). -/
def primP (expr : Str → Stack → Res) (s : Str) (st : Stack) : Res :=
  match caseless ['P', 'I'] (skip s) with
  | some r => some (some r, st ++ [['P', 'I']])
  | none =>
    match caseless ['E'] (skip s) with
    | some r => some (some r, st ++ [['E']])
    | none =>
      match numberTok s with
      | some (w, r) => some (some r, st ++ [w])
      | none => orElse (callP expr s st) (fun st => varP s st)

/-- `pyparsing.Group(lpar + expr + rpar)` (nxexpression.py 179). -/
def groupP (expr : Str → Stack → Res) (s : Str) (st : Stack) : Res :=
  andThen (expect (literal ['('] (skip s)) st) fun r st =>
  andThen (expr r st) fun r st =>
  andThen (expect (literal [')'] (skip r)) st) fun r st =>
  some (some r, st)

/-- The text pushed by `pushUMinus` (nxexpression.py 124). -/
def uminus : Str := ['u', 'n', 'a', 'r', 'y', ' ', '-']

/-- `atom` with `pushUMinus` (nxexpression.py 122-124 and 171-180).  `toks[0] == "-"` holds when
the optional sign matched `-`: without a sign the first token does not start with one. -/
def atomP (expr : Str → Stack → Res) (s : Str) (st : Stack) : Res :=
  andThen (orElse (primP expr (sign s).2 st) (fun st => groupP expr (sign s).2 st)) fun r st =>
    some (some r, if (sign s).1 = some '-' then st ++ [uminus] else st)

/-- Parse one level (`level`), or its operator loop `ZeroOrMore(op + operand)` (`loop`). -/
inductive Mode where
  | level (lv : Lv)
  | loop (lv : Lv)
deriving DecidableEq, Repr

/-- The grammar (nxexpression.py 171-195).  The first argument bounds the recursion depth.  When
the operand after an operator is missing, `ZeroOrMore` ends before the operator. -/
def run : Nat → Mode → Str → Stack → Res
  | 0, _, _, _ => none
  | n + 1, .level .atom, s, st => atomP (run n (.level .sum)) s st
  | n + 1, .level lv, s, st => andThen (run n (.level lv.first) s st) (run n (.loop lv))
  | n + 1, .loop lv, s, st =>
    match operator lv s with
    | none => some (some s, st)
    | some (c, r) =>
      match run n (.level lv.operand) r st with
      | none => none
      | some (none, st) => some (some s, st)
      | some (some r, st) => run n (.loop lv) r (st ++ [[c]])

/-- A recursion depth that is never reached. -/
def depth (s : Str) : Nat := 6 * s.length + 6

/-- `self.bnf.parseString(expression, parseAll=True)` (nxexpression.py 274): the stack, `none` for
`ParseException`. -/
def compile (s : Str) : Option Stack :=
  match run (depth s) (.level .sum) s [] with
  | some (some r, st) => if skip r = [] then some st else none
  | _ => none

/-! ## Evaluation -/

/-- What `numpy` computes with.  `none` is an exception. -/
structure Alg (V : Type) where
  /-- `-x` -/
  neg : V → Option V
  /-- `self.opn` (nxexpression.py 204-210) -/
  bin : Char → V → V → Option V
  /-- the entries of `self.fn` (212-231) except `nanone` and `nanzero` -/
  fn : Str → V → Option V
  /-- `a[np.isnan(a)] = v` with `v` 1 (`true`) or 0 (`false`): the new content of the array `a` -/
  fill : Bool → V → Option V
  /-- `np.pi` -/
  pi : V
  /-- `np.e` -/
  e : V
  /-- `0` -/
  zero : V
  /-- `self.dtype(op)` -/
  number : Str → Option V

/-- `"nanone"` -/
def nanone : Str := ['n', 'a', 'n', 'o', 'n', 'e']
/-- `"nanzero"` -/
def nanzero : Str := ['n', 'a', 'n', 'z', 'e', 'r', 'o']

/-- The keys of `self.fn` (nxexpression.py 212-231). -/
def fnNames : List Str :=
  [['s', 'i', 'n'], ['c', 'o', 's'], ['t', 'a', 'n'], ['a', 'b', 's'], ['t', 'r', 'u', 'n', 'c'],
   ['r', 'o', 'u', 'n', 'd'], ['s', 'g', 'n'], ['m', 'a', 'x'], ['m', 'i', 'n'], nanone, nanzero,
   ['m', 'e', 'a', 'n'], ['m', 'e', 'd', 'i', 'a', 'n'], ['l', 'n'], ['s', 'o', 'b', 'e', 'l']]

/-- A Python value: the array bound to a variable (the object itself, not a copy) or another
object. -/
inductive Obj (V : Type) where
  | ref (n : Str)
  | val (v : V)

/-- The contents of the arrays bound to the variables. -/
abbrev Store (V : Type) := Str → Option V

/-- Replace the content of an array. -/
def Store.set {V : Type} (σ : Store V) (n : Str) (v : V) : Store V := fun m => if m = n then some v else σ m

/-- The current content of an object. -/
def Obj.get {V : Type} (σ : Store V) : Obj V → Option V
  | .ref n => σ n
  | .val v => some v

/-- `self.opn[op]` -/
def opn {V : Type} (A : Alg V) (op : Str) (x y : V) : Option V :=
  match op with
  | [c] => A.bin c x y
  | _ => none

/-- `a in s` for strings. -/
def substring (a : Str) : Str → Bool
  | [] => a.isPrefixOf []
  | c :: s => a.isPrefixOf (c :: s) || substring a s

/-- `op in "+-*/^"` (nxexpression.py 244): a substring test. -/
def inOps (op : Str) : Bool := substring op ['+', '-', '*', '/', '^']

/-- `self._fn_nan(a, v)` (nxexpression.py 235-238): the array is changed in place and returned. -/
def fnNan {V : Type} (A : Alg V) (one : Bool) (x : Obj V) (σ : Store V) : Option (Obj V × Store V) :=
  match x.get σ with
  | none => none
  | some v =>
    match A.fill one v with
    | none => none
    | some w =>
      match x with
      | .ref n => some (.ref n, σ.set n w)
      | .val _ => some (.val w, σ)

/-- `self.fn[op](x)` -/
def applyFn {V : Type} (A : Alg V) (op : Str) (x : Obj V) (σ : Store V) : Option (Obj V × Store V) :=
  if op = nanone then fnNan A true x σ
  else if op = nanzero then fnNan A false x σ
  else
    match x.get σ with
    | none => none
    | some v => (A.fn op v).map fun w => (.val w, σ)

/-- `evaluateStack` (nxexpression.py 240-269) on the stack with its top first.  Variables are
arrays (the `nxfs.Path` and `h5py.Dataset` branches 257-264 are not used by `Task`).  The first
argument bounds the recursion depth. -/
def evalN {V : Type} (A : Alg V) : Nat → Stack → Store V → Option (Obj V × Stack × Store V)
  | 0, _, _ => none
  | _ + 1, [], _ => none
  | n + 1, op :: s, σ =>
    if op = uminus then
      match evalN A n s σ with
      | none => none
      | some (x, s, σ) =>
        match (x.get σ).bind A.neg with
        | none => none
        | some v => some (.val v, s, σ)
    else if inOps op then
      match evalN A n s σ with
      | none => none
      | some (x2, s, σ) =>
        match evalN A n s σ with
        | none => none
        | some (x1, s, σ) =>
          match (x1.get σ).bind (fun v1 => (x2.get σ).bind (fun v2 => opn A op v1 v2)) with
          | none => none
          | some v => some (.val v, s, σ)
    else if op.map Char.toUpper = ['P', 'I'] then some (.val A.pi, s, σ)
    else if op.map Char.toUpper = ['E'] then some (.val A.e, s, σ)
    else if op ∈ fnNames then
      match evalN A n s σ with
      | none => none
      | some (x, s, σ) =>
        match applyFn A op x σ with
        | none => none
        | some (y, σ) => some (y, s, σ)
    else if (op.head?.map Char.isAlpha) = some true then
      match σ op with
      | some _ => some (.ref op, s, σ)
      | none => some (.val A.zero, s, σ)
    else (A.number op).map fun v => (.val v, s, σ)

/-- `evaluateStack(list(self.exprStack))` (nxexpression.py 275): the content of the result.  What
is left on the stack is ignored. -/
def evaluate {V : Type} (A : Alg V) (st : Stack) (σ : Store V) : Option V :=
  match evalN A (st.length + 1) st.reverse σ with
  | none => none
  | some (x, _, σ) => x.get σ

/-- `MathParser.eval(expression, variables=variables)` (nxexpression.py 271-275). -/
def eval {V : Type} (A : Alg V) (s : Str) (σ : Store V) : Option V :=
  (compile s).bind fun st => evaluate A st σ

/-! ## Placeholders -/

/-- The match of `(.*?)\}`: the shortest text without a line break before a closing brace, and
what follows the brace. -/
def closing : Str → Option (Str × Str)
  | [] => none
  | c :: s =>
    if c = '}' then some ([], s)
    else if c = '\n' then none
    else (closing s).map fun x => (c :: x.1, x.2)

/-- `re.findall(r"\{(.*?)\}", s)` (nxexpression.py 108); the first argument bounds the number of
steps. -/
def findallN : Nat → Str → List Str
  | 0, _ => []
  | _ + 1, [] => []
  | n + 1, c :: s =>
    if c = '{' then
      match closing s with
      | some (name, r) => name :: findallN n r
      | none => findallN n s
    else findallN n s

/-- `re.findall` of placeholders in braces, nxexpression.py. -/
def findall (s : Str) : List Str := findallN s.length s

/-- `s.replace(old, new)` for a non-empty `old`; the first argument bounds the number of steps. -/
def replaceN (old new : Str) : Nat → Str → Str
  | 0, s => s
  | _ + 1, [] => []
  | n + 1, c :: s =>
    if old.isPrefixOf (c :: s) then new ++ replaceN old new n ((c :: s).drop old.length)
    else c :: replaceN old new n s

/-- `s.replace(old, new)`. -/
def replace (s old new : Str) : Str := replaceN old new s.length s

/-- `string.ascii_lowercase` -/
def lowercase : Str :=
  ['a', 'b', 'c', 'd', 'e', 'f', 'g', 'h', 'i', 'j', 'k', 'l', 'm', 'n', 'o', 'p', 'q', 'r', 's',
   't', 'u', 'v', 'w', 'x', 'y', 'z']

/-- `o.int2base(i)` (nxexpression.py 60 and 63). -/
def newName (i : Nat) : Str :=
  match IntBase.int2base lowercase '-' (i : Int) with
  | .ok s => s
  | .error _ => []

/-- `"{{{}}}".format(name)` -/
def braces (name : Str) : Str := '{' :: name ++ ['}']

/-- `"var_{}".format(name)` -/
def varText (name : Str) : Str := 'v' :: 'a' :: 'r' :: '_' :: name

/-- The loop over the fixed arguments (nxexpression.py 61-67), from number `i` on: the renamed
expression and `namemap`, in the order of insertion (the names are distinct). -/
def renameLoop : Nat → List Str → Str → Str × List (Str × Str)
  | _, [], s => (s, [])
  | i, old :: names, s =>
    let x := renameLoop (i + 1) names (replace s (braces old) (varText (newName i)))
    (x.1, (old, newName i) :: x.2)

/-- `_parse_expression` (nxexpression.py 43-69): `varnames` is the list made from the set of
placeholder names, in whatever order the set is iterated.  `none` is `ValueError`. -/
def parseExpression (s : Str) (varnames : List Str) : Option (Str × List (Str × Str)) :=
  if [] ∈ varnames then
    some (renameLoop 1 (varnames.erase []) (replace s (braces []) (varText ['a'])))
  else none

/-- `self.vardefault` (nxexpression.py 71-77) looked up by name: the only grid signal with that
name. -/
def varDefault {P : Type} (signals : List (Str × P)) (name : Str) : Option P :=
  match signals.filter (fun x => x.1 = name) with
  | [x] => some x.2
  | _ => none

/-- `_prepare_signal` (nxexpression.py 88-97) for a signal that is neither skipped nor copied:
`self.variables`.  `sibling name` is `signal.parent[name]`. -/
def prepareVariables {P : Type} (signals : List (Str × P)) (sibling : Str → P)
    (namemap : List (Str × Str)) : List (Str × P) :=
  namemap.map fun x => (x.2, (varDefault signals x.1).getD (sibling x.1))

/-- The `variables` dictionary of `_process_data` (nxexpression.py 36-39): `"a"` is the data, the
others are read from their dataset; a later entry replaces an earlier one of the same name. -/
def storeOf {V P : Type} (read : P → V) (data : V) (variables : List (Str × P)) : Store V :=
  variables.foldl (fun σ x => σ.set x.1 (read x.2)) (Store.set (fun _ => none) ['a'] data)

/-- `_process_data` (nxexpression.py 34-41). -/
def processData {V P : Type} (A : Alg V) (read : P → V) (expression : Str)
    (variables : List (Str × P)) (data : V) : Option V :=
  if variables.isEmpty then some data
  else eval A expression (storeOf read data variables)

/-- The calculation of one signal: `_parse_expression`, `_prepare_signal` and `_process_data`. -/
def calculate {V P : Type} (A : Alg V) (signals : List (Str × P)) (sibling : Str → P) (read : P → V)
    (expression : Str) (varnames : List Str) (data : V) : Option V :=
  (parseExpression expression varnames).bind fun x =>
    processData A read x.1 (prepareVariables signals sibling x.2) data

end SC.Expression
