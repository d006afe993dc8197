import Verif.Pymca.Material
import Verif.Formula.Spec
/-! # What the conversion of materials has to satisfy

Predicates that do not use the functions of the model that recognize names, save or load. -/
namespace SC.Pymca
open SC.Formula (Str IsSymbol)
open SC.Py

/-- The text of one piece of a formula: a symbol with digits behind it. -/
def IsPiece (t : Str) : Prop := ∃ e ds : Str, IsSymbol e ∧ (∀ c ∈ ds, '0' ≤ c ∧ c ≤ '9') ∧ t = e ++ ds

/-- A text that looks like a formula: one or more pieces, and possibly a newline at the end. -/
def FormulaText (s : Str) : Prop :=
  ∃ ts : List Str, ts ≠ [] ∧ (∀ t ∈ ts, IsPiece t) ∧ (s = ts.flatten ∨ s = ts.flatten ++ ['\n'])

/-- A text that stands for the pure element `e`: its symbol, possibly the number one, possibly a
newline. -/
def PureText (e s : Str) : Prop :=
  IsSymbol e ∧ (s = e ∨ s = e ++ ['1'] ∨ s = e ++ ['\n'] ∨ s = e ++ ['1', '\n'])

mutual
/-- The material and everything inside it. -/
def Mat.nodes : Mat → List Mat
  | .elem s => [.elem s]
  | .cmpd n els d => [.cmpd n els d]
  | .mix n ps => ps.nodes ++ [.mix n ps]
/-- Everything inside the parts of a mixture. -/
def Parts.nodes : Parts → List Mat
  | .nil => []
  | .cons m _ r => m.nodes ++ r.nodes
end

mutual
/-- How deep mixtures are nested. -/
def Mat.depth : Mat → Nat
  | .elem _ => 0
  | .cmpd _ _ _ => 1
  | .mix _ ps => ps.depth + 1
/-- The depth of the deepest part. -/
def Parts.depth : Parts → Nat
  | .nil => 0
  | .cons m _ r => max m.depth r.depth
end

/-- Fractions of distinct things that add up to one. -/
def Fractions (l : List (Str × ℚ)) : Prop := (l.map Prod.fst).Nodup ∧ (l.map Prod.snd).sum = 1

mutual
/-- A material that PyMca's format can hold, when `d` is the density given along with its name: the
symbols exist; a compound or mixture has fractions; its name does not look like a formula, except for a
compound which is what the formula says (with density `d`); a mixture has a part that is not an
element. -/
def Mat.Fits (P : Params) : Option ℚ → Mat → Prop
  | _, .elem s => IsSymbol s ∧ P.known s = true
  | d, .cmpd n els ρ =>
    (¬ FormulaText n ∧ (∀ p ∈ els, IsSymbol p.1 ∧ P.known p.1 = true) ∧ Fractions els ∧ ρ ≠ 0) ∨
    (FormulaText n ∧ (∀ e, ¬ PureText e n) ∧ fromFormula P n d = some (.cmpd n els ρ))
  | _, .mix n ps =>
    ¬ FormulaText n ∧ ps.Fits P ((Mat.mix n ps).density P) ∧
      Fractions (ps.toList.map fun p => (p.1.name, p.2)) ∧ ∃ p ∈ ps.toList, p.1.isElem = false
/-- All parts of a mixture of density `d`. -/
def Parts.Fits (P : Params) : ℚ → Parts → Prop
  | _, .nil => True
  | d, .cons m _ r => m.Fits P (some d) ∧ r.Fits P d
end

/-- Within a list of materials, things that need an entry of their own and have the same name are the
same. -/
def Consistent (l : List Mat) : Prop :=
  ∀ a ∈ l, ∀ b ∈ l, ¬ FormulaText a.name → a.name = b.name → a = b

end SC.Pymca
