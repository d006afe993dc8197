import Verif.Naming.Model
/-! # Specification of names with numbers -/
namespace SC.Naming

/-- A text without braces (format strings treat braces specially). -/
def NoBrace (s : Str) : Prop := '{' ∉ s ∧ '}' ∉ s

/-- `name` consists of `p`, the digits `d` of its last number, and `s`. -/
structure Split (name p d s : Str) : Prop where
  eq : name = p ++ d ++ s
  ne : d ≠ []
  digits : ∀ c ∈ d, c.isDigit = true
  before : ∀ c ∈ p.getLast?, c.isDigit = false
  after : ∀ c ∈ s, c.isDigit = false

/-- A text without digits. -/
def NoDigit (s : Str) : Prop := ∀ c ∈ s, c.isDigit = false

/-- `d` is a decimal notation of `n` with at least `w` digits and no superfluous zeros. -/
structure Decimal (w n : Nat) (d : Str) : Prop where
  ne : d ≠ []
  digits : ∀ c ∈ d, c.isDigit = true
  value : Nat.ofDigitChars 10 d 0 = n
  width : w ≤ d.length
  minimal : w < d.length → 10 ^ (d.length - 1) ≤ n ∨ d.length = 1

end SC.Naming
