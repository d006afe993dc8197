import Verif.Scan.Cmd
import Verif.Compound.Model
import Mathlib.Algebra.Field.Rat
import Mathlib.Algebra.Order.Field.Rat
/-! # Model of `materials/compoundfromformula.py`

A text is a list of characters, a number a rational.  The grammar of pyparsing is the code below:
every token skips blanks before it (pyparsing's default), nothing is skipped inside `Combine`, an
alternative that fails gives its text back, and `parseString` is called without `parseAll`, so
that text behind the formula is ignored.

`Word(letters, max=1)` differs between the versions of pyparsing: up to 2.4 the word is refused when
another letter follows (`strict := true`), from 3.0 on one letter is taken (`strict := false`). -/
namespace SC.Formula
open SC.Scan (floatOf)

abbrev Str := List Char

/-- pp.srange("[A-Z]"), compoundfromformula.py:13 -/
def isUpper (c : Char) : Bool := decide ('A' ≤ c ∧ c ≤ 'Z')
/-- pp.srange("[a-z]"), compoundfromformula.py:14 -/
def isLower (c : Char) : Bool := decide ('a' ≤ c ∧ c ≤ 'z')
/-- pyparsing's default white space -/
def isBlank (c : Char) : Bool := c == ' ' || c == '\n' || c == '\t' || c == '\r'
/-- what every token does first -/
def skip (s : Str) : Str := s.dropWhile isBlank

/-- pp.Word(pp.srange("[a-z]"), max=1) without white space, compoundfromformula.py:14. -/
def lower1 (strict : Bool) : Str → Option (Char × Str)
  | [] => none
  | c :: s =>
    if isLower c then
      match s with
      | [] => some (c, s)
      | d :: _ => if strict && isLower d then none else some (c, s)
    else none

/-- element, compoundfromformula.py:12-15. -/
def element (strict : Bool) (s : Str) : Option (Str × Str) :=
  match skip s with
  | [] => none
  | c :: r =>
    if isUpper c then
      match lower1 strict r with
      | some (d, r') => some ([c, d], r')
      | none => some ([c], r)
    else none

/-- fnumber, compoundfromformula.py:16-20. -/
def fnumber (s : Str) : Option (Str × Str) :=
  let s := skip s
  let w := s.takeWhile Char.isDigit
  let r := s.dropWhile Char.isDigit
  match r with
  | '.' :: r' =>
    let f := r'.takeWhile Char.isDigit
    if w = [] ∧ f = [] then none else some (w ++ '.' :: f, r'.dropWhile Char.isDigit)
  | _ => if w = [] then none else some (w, r)

/-- pp.Optional(fnumber, default="1"), compoundfromformula.py:24. -/
def number (s : Str) : Str × Str :=
  match fnumber s with
  | some x => x
  | none => (['1'], s)

/-- What is recognized: a row of groups; a group is an element with its number or a formula
between parentheses with its number; compoundfromformula.py:22-24. -/
inductive F where
  | nil
  | el (name num : Str) (rest : F)
  | par (inner : F) (num : Str) (rest : F)
  deriving DecidableEq

/-- As many groups as possible, compoundfromformula.py:22-24, with the text that is left.  Every
group takes at least one character, so the number of characters bounds the recursion. -/
def groups (strict : Bool) : Nat → Str → F × Str
  | 0, s => (.nil, s)
  | n + 1, s =>
    match element strict s with
    | some (e, r) =>
      let x := number r
      let y := groups strict n x.2
      (.el e x.1 y.1, y.2)
    | none =>
      match skip s with
      | '(' :: r =>
        let i := groups strict n r
        if i.1 = .nil then (.nil, s)
        else
          match skip i.2 with
          | ')' :: r' =>
            let x := number r'
            let y := groups strict n x.2
            (.par i.1 x.1 y.1, y.2)
          | _ => (.nil, s)
      | _ => (.nil, s)

/-- A pp.ParseResults or a text. -/
inductive Tree where
  | text (t : Str)
  | node (l : List Tree)

/-- The ParseResults of what is recognized: `Group` makes a list of one group, the parentheses are
suppressed; compoundfromformula.py:9-10,23-24. -/
def F.trees : F → List Tree
  | .nil => []
  | .el e n r => .node [.text e, .text n] :: r.trees
  | .par i n r => .node [.node i.trees, .text n] :: r.trees

/-- `c.isalpha()` for ASCII (the grammar gives nothing else) -/
def alpha (c : Char) : Bool := isUpper c || isLower c
/-- `t.isalpha()` -/
def isAlpha (t : Str) : Bool := !t.isEmpty && t.all alpha

/-- The multiplier inside a list, compoundfromformula.py:35-37. -/
def multiplier (l : List Tree) (m : ℚ) : ℚ :=
  match l.getLast? with
  | some (.text t) => if isAlpha t then m else m * floatOf t
  | _ => m

/-- What happens to a text, compoundfromformula.py:40-46. -/
def leaf (t : Str) (m : ℚ) (d : Compound.Items Str ℚ) : Compound.Items Str ℚ :=
  match t.getLast? with
  | some c => if alpha c then Compound.addTo id d t m else d
  | none => d

mutual
/-- parseresult, compoundfromformula.py:28-46; `d` is self.elements. -/
def walk : Tree → ℚ → Compound.Items Str ℚ → Compound.Items Str ℚ
  | .text t, m, d => leaf t m d
  | .node l, m, d => walks l (multiplier l m) d
/-- The loop of parseresult, compoundfromformula.py:38-39. -/
def walks : List Tree → ℚ → Compound.Items Str ℚ → Compound.Items Str ℚ
  | [], _, d => d
  | t :: l, m, d => walks l m (walk t m d)
end

/-- self.formula.parseString, compoundfromformula.py:50: what is recognized and what is left (`none`:
ParseException). -/
def parse (strict : Bool) (s : Str) : Option (F × Str) :=
  let x := groups strict (s.length + 1) s
  if x.1 = .nil then none else some x

/-- eval, compoundfromformula.py:48-52. -/
def eval (strict : Bool) (s : Str) : Option (Compound.Items Str ℚ) :=
  (parse strict s).map fun x => walk (.node x.1.trees) 1 []

/-- CompoundFromFormula.__init__, compoundfromformula.py:58-73.  An element is named by its symbol; a
symbol that xraylib does not know (`known`) raises ValueError in `element.Element`. -/
def new (strict : Bool) (known : Str → Bool) (MM rho : Str → ℚ) (formula : Str) (density : Option ℚ)
    (name : Option Str) : Option (Compound.Cmpd Str ℚ) :=
  match eval strict formula with
  | none => none
  | some d =>
    if d.isEmpty then none
    else if (Compound.keys d).all known then
      Compound.Cmpd.new MM rho (String.ofList (name.getD formula)) (Compound.keys d) (Compound.vals d) .mole density
    else none

/-- factory, compoundfromformula.py:76-87, for a list of formulas: all or nothing. -/
def factory (strict : Bool) (known : Str → Bool) (MM rho : Str → ℚ) (l : List Str) :
    Option (List (Compound.Cmpd Str ℚ)) :=
  l.mapM fun s => new strict known MM rho s none none

end SC.Formula
