import Verif.Formula.Model
import Verif.Scan.CmdSpec
/-! # C53: specification of chemical formulas

A formula is a row of groups, each with a multiplier; a group is an element symbol or a formula in
parentheses.  `Layout f t` says that `t` is a way to write `f`.  `Model.F` is used as the type of
formulas (a data type without behaviour). -/
namespace SC.Formula
open SC.Scan (natVal)

/-- `t` is an unsigned decimal number with value `q`: digits, and possibly a point with digits
before or behind it. -/
def IsDecimal (t : Str) (q : ℚ) : Prop := ∃ w f : Str, (∀ c ∈ w, c.isDigit = true) ∧ (∀ c ∈ f, c.isDigit = true) ∧
  ((f = [] ∧ w ≠ [] ∧ t = w) ∨ ((w ≠ [] ∨ f ≠ []) ∧ t = w ++ '.' :: f)) ∧
  q = (natVal w : ℚ) + (natVal f : ℚ) / (10 : ℚ) ^ f.length

/-- A symbol: a capital letter, or a capital letter and a small letter. -/
def IsSymbol (e : Str) : Prop := ∃ c : Char, ('A' ≤ c ∧ c ≤ 'Z') ∧
  (e = [c] ∨ ∃ d : Char, ('a' ≤ d ∧ d ≤ 'z') ∧ e = [c, d])

/-- White space. -/
def Blank (w : Str) : Prop := ∀ c ∈ w, c = ' ' ∨ c = '\n' ∨ c = '\t' ∨ c = '\r'

/-- A way to write a multiplier: the number after white space, or nothing for `1`. -/
def Multiplier (num t : Str) : Prop := (t = [] ∧ num = ['1']) ∨ ∃ w q, Blank w ∧ IsDecimal num q ∧ t = w ++ num

/-- The ways to write a formula. -/
inductive Layout : F → Str → Prop
  | nil : Layout .nil []
  | el {e num r w t u} : Blank w → IsSymbol e → Multiplier num t → Layout r u →
      Layout (.el e num r) (w ++ (e ++ (t ++ u)))
  | par {i num r w t u v b} : Blank w → i ≠ .nil → Layout i v → Blank b → Multiplier num t → Layout r u →
      Layout (.par i num r) (w ++ ('(' :: (v ++ (b ++ (')' :: (t ++ u))))))

/-- The occurrences of elements, left to right, with the product of the multipliers around them;
`val` is the value of a number. -/
def occurrences (val : Str → ℚ) : F → ℚ → List (Str × ℚ)
  | .nil, _ => []
  | .el e n r, m => (e, m * val n) :: occurrences val r m
  | .par i n r, m => occurrences val i (m * val n) ++ occurrences val r m

/-- The formula uses `val` correctly: it gives every number in it its value. -/
def Values (val : Str → ℚ) : F → Prop
  | .nil => True
  | .el _ n r => IsDecimal n (val n) ∧ Values val r
  | .par i n r => IsDecimal n (val n) ∧ Values val i ∧ Values val r

/-- the first occurrence of every entry -/
def firsts : List Str → List Str
  | [] => []
  | a :: l => a :: (firsts l).filter fun b => decide (b ≠ a)

/-- No two small letters in a row. -/
def NoPair (s : Str) : Prop := ∀ p a b q, s = p ++ a :: b :: q → ('a' ≤ a ∧ a ≤ 'z') → ¬ ('a' ≤ b ∧ b ≤ 'z')

/-- Text that has no place in a formula: nothing, or something that starts with another character
than white space, a letter, a digit, a point or an opening parenthesis. -/
def Foreign (z : Str) : Prop := ∀ c ∈ z.head?, c ∉ [' ', '\n', '\t', '\r', '.', '('] ∧ ¬ ('A' ≤ c ∧ c ≤ 'Z') ∧
  ¬ ('a' ≤ c ∧ c ≤ 'z') ∧ c.isDigit = false

end SC.Formula
