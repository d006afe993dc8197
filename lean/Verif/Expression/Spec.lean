import Verif.Expression.Model
/-! # Formulas: how they are written and what they mean

Independent of the parser: formulas as trees, the texts that write a formula (with arbitrary white
space between the symbols), and the value of a formula. -/
namespace SC.Expression

/-! ## Number literals -/

/-- A number literal: sign, digits, decimals after a point, and an exponent (its letter, sign and
digits). -/
structure Lexeme where
  sign : Option Char := none
  int : Str
  frac : Option Str := none
  exp : Option (Char × Option Char × Str) := none

/-- The text of the decimals. -/
def fracText : Option Str → Str
  | none => []
  | some f => '.' :: f

/-- The text of the exponent. -/
def expText : Option (Char × Option Char × Str) → Str
  | none => []
  | some (c, s, d) => c :: (s.toList ++ d)

/-- The literal as written. -/
def Lexeme.written (l : Lexeme) : Str := l.sign.toList ++ l.int ++ fracText l.frac ++ expText l.exp

/-- The literal with the exponent letter `E`. -/
def Lexeme.text (l : Lexeme) : Str :=
  l.sign.toList ++ l.int ++ fracText l.frac ++ expText (l.exp.map (fun x => ('E', x.2)))

def Digits (s : Str) : Prop := s ≠ [] ∧ ∀ c ∈ s, c.isDigit = true

def IsSign (c : Char) : Prop := c = '+' ∨ c = '-'

/-- The literal is well formed. -/
structure Lexeme.Ok (l : Lexeme) : Prop where
  sign : ∀ c, l.sign = some c → IsSign c
  int : Digits l.int
  frac : ∀ f, l.frac = some f → ∀ c ∈ f, c.isDigit = true
  exp : ∀ c s d, l.exp = some (c, s, d) → (c = 'e' ∨ c = 'E') ∧ (∀ x, s = some x → IsSign x) ∧ Digits d

/-! ## Formulas -/

/-- A formula. -/
inductive Form where
  | num (l : Lexeme)
  | pi
  | euler
  | var (n : Str)
  | call (f : Str) (x : Form)
  | neg (x : Form)
  | bin (o : Char) (a b : Form)

/-- An identifier. -/
def Ident (f : Str) : Prop :=
  ∃ c s, f = c :: s ∧ c.isAlpha = true ∧
    ∀ d ∈ s, (d.isAlpha = true ∨ d.isDigit = true ∨ d = '_' ∨ d = '$')

/-- The text starts with the constant `e` or `pi`. -/
def StartsWithConstant (f : Str) : Prop :=
  ∃ s, f = 'e' :: s ∨ f = 'E' :: s ∨
    f = 'p' :: 'i' :: s ∨ f = 'P' :: 'i' :: s ∨ f = 'p' :: 'I' :: s ∨ f = 'P' :: 'I' :: s

/-- White space. -/
def Blank (w : Str) : Prop := ∀ c ∈ w, c = ' ' ∨ c = '\t' ∨ c = '\n' ∨ c = '\r'

/-- Precedence levels, the sign binding more strongly than the operators. -/
inductive Level where
  | sum | product | power | signed | prim
deriving DecidableEq

/-- `Writes wr lv t s`: the text `s` writes the formula `t` at level `lv`, the variable `n` being
written `wr n`.  Sums and products are grouped from the left, powers from the right. -/
inductive Writes (wr : Str → Str) : Level → Form → Str → Prop where
  | num {w : Str} {l : Lexeme} : Blank w → l.Ok → l.sign = none →
      Writes wr .prim (.num l) (w ++ l.written)
  | pi {w t : Str} : Blank w → t ∈ [['p', 'i'], ['P', 'i'], ['p', 'I'], ['P', 'I']] →
      Writes wr .prim .pi (w ++ t)
  | euler {w t : Str} : Blank w → t ∈ [['e'], ['E']] → Writes wr .prim .euler (w ++ t)
  | var {w n : Str} : Blank w → Writes wr .prim (.var n) (w ++ wr n)
  | call {w f w' s w'' : Str} {x : Form} : Blank w → Ident f → ¬ StartsWithConstant f → Blank w' →
      Writes wr .sum x s → Blank w'' →
      Writes wr .prim (.call f x) (w ++ (f ++ (w' ++ '(' :: (s ++ (w'' ++ [')'])))))
  | paren {w s w' : Str} {x : Form} : Blank w → Writes wr .sum x s → Blank w' →
      Writes wr .prim x (w ++ '(' :: (s ++ (w' ++ [')'])))
  | unsigned {s : Str} {x : Form} : Writes wr .prim x s → Writes wr .signed x s
  | minus {w s : Str} {x : Form} : Blank w → Writes wr .prim x s →
      Writes wr .signed (.neg x) (w ++ '-' :: s)
  | plus {w s : Str} {x : Form} : Blank w → Writes wr .prim x s → Writes wr .signed x (w ++ '+' :: s)
  | minusSigned {w w' : Str} {l : Lexeme} : Blank w → Blank w' → l.Ok →
      Writes wr .signed (.neg (.num l)) (w ++ '-' :: (w' ++ l.written))
  | plusSigned {w w' : Str} {l : Lexeme} : Blank w → Blank w' → l.Ok →
      Writes wr .signed (.num l) (w ++ '+' :: (w' ++ l.written))
  | base {s : Str} {x : Form} : Writes wr .signed x s → Writes wr .power x s
  | power {s w s' : Str} {x y : Form} : Writes wr .signed x s → Blank w → Writes wr .power y s' →
      Writes wr .power (.bin '^' x y) (s ++ (w ++ '^' :: s'))
  | factor {s : Str} {x : Form} : Writes wr .power x s → Writes wr .product x s
  | product {s w s' : Str} {x y : Form} {o : Char} : Writes wr .product x s → Blank w →
      (o = '*' ∨ o = '/') → Writes wr .power y s' → Writes wr .product (.bin o x y) (s ++ (w ++ o :: s'))
  | term {s : Str} {x : Form} : Writes wr .product x s → Writes wr .sum x s
  | sum {s w s' : Str} {x y : Form} {o : Char} : Writes wr .sum x s → Blank w →
      (o = '+' ∨ o = '-') → Writes wr .product y s' → Writes wr .sum (.bin o x y) (s ++ (w ++ o :: s'))

/-! ## Values -/

/-- The value of the function `f`. -/
def fnValue {V : Type} (A : Alg V) (f : Str) (v : V) : Option V :=
  if f = nanone then A.fill true v
  else if f = nanzero then A.fill false v
  else A.fn f v

/-- The value of a formula: every variable stands for its own value throughout. -/
def denote {V : Type} (A : Alg V) (env : Str → Option V) : Form → Option V
  | .num l => A.number l.text
  | .pi => some A.pi
  | .euler => some A.e
  | .var n => env n
  | .call f x => (denote A env x).bind (fnValue A f)
  | .neg x => (denote A env x).bind A.neg
  | .bin o a b => (denote A env a).bind fun v => (denote A env b).bind fun w => A.bin o v w

/-- The variables of a formula. -/
def Form.vars : Form → List Str
  | .var n => [n]
  | .call _ x | .neg x => x.vars
  | .bin _ a b => a.vars ++ b.vars
  | _ => []

/-- All functions of the formula exist. -/
def Form.Known : Form → Prop
  | .call f x => f ∈ fnNames ∧ x.Known
  | .neg x => x.Known
  | .bin o a b => o ∈ ['+', '-', '*', '/', '^'] ∧ a.Known ∧ b.Known
  | .num l => l.Ok
  | _ => True

/-- The variable whose array is the result of the formula (a variable, possibly with missing values
replaced). -/
def Form.array : Form → Option Str
  | .var n => some n
  | .call f x => if f = nanone ∨ f = nanzero then x.array else none
  | _ => none

/-- The variables whose missing values are replaced by the formula. -/
def Form.replaced : Form → List Str
  | .call f x => if f = nanone ∨ f = nanzero then x.array.toList ++ x.replaced else x.replaced
  | .neg x => x.replaced
  | .bin _ a b => a.replaced ++ b.replaced
  | _ => []

/-- A variable whose missing values are replaced in one operand is not used by the other. -/
def Form.Separate : Form → Prop
  | .call _ x | .neg x => x.Separate
  | .bin _ a b => a.Separate ∧ b.Separate ∧ (∀ n ∈ b.replaced, n ∉ a.vars) ∧
      (∀ n ∈ a.replaced, n ∉ b.vars)
  | _ => True

/-- A name that is neither a constant nor a function. -/
def Free (n : Str) : Prop :=
  n ≠ [] ∧ (∀ c ∈ n, c.isAlpha = true) ∧ n.map Char.toUpper ≠ ['E'] ∧ n.map Char.toUpper ≠ ['P', 'I'] ∧
    n ∉ fnNames

/-- A placeholder name: without braces or line breaks. -/
def Placeholder (n : Str) : Prop := ∀ c ∈ n, c ≠ '{' ∧ c ≠ '}' ∧ c ≠ '\n'

/-- The dataset `p` of the placeholder `n`: the only signal of that name, or the dataset with that
name next to the current signal. -/
def Stands {P : Type} (signals : List (Str × P)) (sibling : Str → P) (n : Str) (p : P) : Prop :=
  (∃ l r, signals = l ++ (n, p) :: r ∧ (∀ x ∈ l, x.1 ≠ n) ∧ ∀ x ∈ r, x.1 ≠ n) ∨
  ((¬ ∃ q l r, signals = l ++ (n, q) :: r ∧ (∀ x ∈ l, x.1 ≠ n) ∧ ∀ x ∈ r, x.1 ≠ n) ∧ p = sibling n)

/-- Renaming the variables. -/
def Form.rename (f : Str → Str) : Form → Form
  | .num l => .num l
  | .pi => .pi
  | .euler => .euler
  | .var n => .var (f n)
  | .call g x => .call g (x.rename f)
  | .neg x => .neg (x.rename f)
  | .bin o a b => .bin o (a.rename f) (b.rename f)

end SC.Expression
