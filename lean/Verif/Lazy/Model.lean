/-! # Model of `math/lazy.py`

Simplified: values are of an abstract type `V` with total operators (an exception is a value), and do not
know lazy functions: their own operators return `NotImplemented` for one, so that Python tries the
reflected method.  (Arrays of numpy do not behave so.)  All arguments of a call are one argument `A`.
Names are lists of characters. -/
namespace SC.Lazy

/-- The operators with two operands that `Function` defines, lazy.py:68-144. -/
inductive BinOp
  | mul | div | floordiv | mod | divmod | add | sub | pow | lt | le | gt | ge | eq | ne | and | or
  deriving DecidableEq

/-- The operators with one operand, lazy.py:149-156. -/
inductive UnOp | neg | pos | abs
  deriving DecidableEq

/-- What Python raises. -/
inductive Err | attributeError | typeError
  deriving DecidableEq

/-- The values: operators and text. -/
structure World (V : Type) where
  bin : BinOp → V → V → V
  un : UnOp → V → V
  text : V → List Char

/-- A Python object: a plain value or a `Function` with its name, lazy.py:9-17. -/
inductive Obj (V A : Type)
  | plain (v : V)
  | lazy (name : List Char) (f : A → V)

variable {V A : Type}

/-- What `format` gives, lazy.py:13-17. -/
def Obj.text (w : World V) : Obj V A → List Char
  | .plain v => w.text v
  | .lazy n _ => n

/-- _binary_op, lazy.py:22-49; `call` tells whether the name is a call (`symb2` given). -/
def binaryOp (w : World V) (a b : Obj V A) (op : BinOp) (symb1 : List Char) (call : Bool) : Obj V A :=
  let f : A → V :=
    match a, b with
    | .lazy _ f, .lazy _ g => fun x => w.bin op (f x) (g x)
    | .lazy _ f, .plain v => fun x => w.bin op (f x) v
    | .plain u, .lazy _ g => fun x => w.bin op u (g x)
    | .plain u, .plain v => fun _ => w.bin op u v
  .lazy (if call then symb1 ++ a.text w ++ [','] ++ b.text w ++ [')']
         else ['('] ++ a.text w ++ symb1 ++ b.text w ++ [')']) f

/-- _unitary_op, lazy.py:51-66. -/
def unitaryOp (w : World V) (a : Obj V A) (op : UnOp) (symb1 : List Char) (call : Bool) : Obj V A :=
  let f : A → V :=
    match a with
    | .lazy _ f => fun x => w.un op (f x)
    | .plain u => fun _ => w.un op u
  .lazy (if call then symb1 ++ a.text w ++ [')'] else ['('] ++ symb1 ++ a.text w ++ [')']) f

/-- The symbol of each operator, lazy.py:68-144. -/
def symbol : BinOp → List Char
  | .mul => ['*'] | .div => ['/'] | .floordiv => ['/', '/'] | .mod => ['%']
  | .divmod => ['d', 'i', 'v', 'm', 'o', 'd', '('] | .add => ['+'] | .sub => ['-'] | .pow => ['^']
  | .lt => ['<'] | .le => ['<', '='] | .gt => ['>'] | .ge => ['>', '='] | .eq => ['=', '='] | .ne => ['!', '=']
  | .and => [' ', 'a', 'n', 'd', ' '] | .or => [' ', 'o', 'r', ' ']

/-- The methods called when the left operand is a `Function`, lazy.py:68-93 and 122-144.  `operator.divmod`
does not exist (lazy.py:84). -/
def method (w : World V) (op : BinOp) (a b : Obj V A) : Except Err (Obj V A) :=
  match op with
  | .divmod => .error .attributeError
  | _ => .ok (binaryOp w a b op (symbol op) false)

/-- The comparison that Python tries with exchanged operands. -/
def mirrored : BinOp → BinOp
  | .lt => .gt | .le => .ge | .gt => .lt | .ge => .le | op => op

/-- The methods called when only the right operand `b` is a `Function`, lazy.py:95-120: the reflected
methods; for comparisons the mirrored comparison of `b` with `a`; there is none for `&` and `|`. -/
def rmethod (w : World V) (op : BinOp) (a b : Obj V A) : Except Err (Obj V A) :=
  match op with
  | .divmod => .ok (binaryOp w a b .mod (symbol .divmod) true)
  | .lt | .le | .gt | .ge | .eq | .ne => .ok (binaryOp w b a (mirrored op) (symbol (mirrored op)) false)
  | .and | .or => .error .typeError
  | _ => .ok (binaryOp w a b op (symbol op) false)

/-- Python's evaluation of an operator. -/
def apply2 (w : World V) (op : BinOp) (a b : Obj V A) : Except Err (Obj V A) :=
  match a, b with
  | .plain u, .plain v => .ok (.plain (w.bin op u v))
  | .lazy _ _, _ => method w op a b
  | .plain _, .lazy _ _ => rmethod w op a b

/-- Python's evaluation of an operator with one operand, lazy.py:149-156. -/
def apply1 (w : World V) (op : UnOp) (a : Obj V A) : Obj V A :=
  match a with
  | .plain u => .plain (w.un op u)
  | .lazy _ _ =>
    match op with
    | .neg => unitaryOp w a .neg ['-'] false
    | .pos => unitaryOp w a .pos ['+'] false
    | .abs => unitaryOp w a .abs ['a', 'b', 's', '('] true

/-- `not f`: Python does not know `__not__` (lazy.py:146-147) and takes the truth of the object, which is
true for want of `__bool__` (commented out, lazy.py:167-171). -/
def notObj (truth : V → Bool) : Obj V A → Bool
  | .plain v => !truth v
  | .lazy _ _ => false

/-- An expression in the source of a program. -/
inductive PExp (V F : Type)
  | lit (v : V)
  | fn (f : F)
  | bin (op : BinOp) (l r : PExp V F)
  | un (op : UnOp) (e : PExp V F)

/-- The functions of the program: their name and what they compute. -/
structure Env (V A F : Type) where
  name : F → List Char
  fn : F → A → V

/-- What Python makes of an expression. -/
def build {F : Type} (w : World V) (env : Env V A F) : PExp V F → Except Err (Obj V A)
  | .lit v => .ok (.plain v)
  | .fn f => .ok (.lazy (env.name f) (env.fn f))
  | .bin op l r =>
    match build w env l with
    | .error e => .error e
    | .ok a =>
      match build w env r with
      | .error e => .error e
      | .ok b => apply2 w op a b
  | .un op e =>
    match build w env e with
    | .error e => .error e
    | .ok a => .ok (apply1 w op a)

/-- Calling the result, lazy.py:19-20. -/
def Obj.call : Obj V A → A → V
  | .plain v, _ => v
  | .lazy _ f, x => f x

end SC.Lazy
