import Verif.Mca.Model
import Verif.Scan.CmdSpec
/-! # What the texts of `io/mca.py` mean -/
namespace SC.Mca
open SC.Scan (IsNumber IsSign IsNat natVal)

/-- `t` is the notation of `q`: a decimal number, possibly with an exponent. -/
def IsFloat (t : Str) (q : Rat) : Prop := ∃ m q0, IsNumber m q0 ∧
  ((t = m ∧ q = q0) ∨ ∃ sg ex, IsSign sg ∧ IsNat ex ∧ t = m ++ 'e' :: (sg ++ ex) ∧
    q = q0 * (10 : Rat) ^ (if sg = ['-'] then -(natVal ex : Int) else natVal ex))

/-- Numbers with at most `P` significant decimal digits. -/
def HasDigits (P : Nat) (r : Rat) : Prop := ∃ k j : Int, |k| < 10 ^ P ∧ r = k * (10 : Rat) ^ j

/-- `r` is a number with `P` digits that is as close as possible to `q`. -/
def Nearest (P : Nat) (q r : Rat) : Prop := HasDigits P r ∧ ∀ r', HasDigits P r' → |r - q| ≤ |r' - q|

/-- A token that was read. -/
def flush (cur : Str) (l : List Str) : List Str := if cur = [] then l else cur :: l

/-- The tokens of a line of a SPEC file that a backslash continues on the next line, and what follows. -/
def tokens : Str → Str → List Str × Str
  | cur, [] => (flush cur [], [])
  | cur, '\n' :: r => (flush cur [], r)
  | cur, ' ' :: r => let (l, e) := tokens [] r; (flush cur l, e)
  | cur, ['\\'] => (flush (cur ++ ['\\']) [], [])
  | cur, '\\' :: c :: r =>
      if c = '\n' then let (l, e) := tokens [] r; (flush cur l, e) else tokens (cur ++ ['\\', c]) r
  | cur, c :: r => tokens (cur ++ [c]) r

/-- Reading an MCA: `@A` and the tokens. -/
def readMca : Str → Option (List Str × Str)
  | '@' :: 'A' :: r => some (tokens [] r)
  | _ => none

/-- The lines of a file. -/
def splitLines : Str → List Str
  | [] => [[]]
  | c :: s =>
      match splitLines s with
      | [] => [[]]
      | t :: ts => if c = '\n' then [] :: t :: ts else (c :: t) :: ts

/-- The header of the first scan: from the line `#S` on, the lines that start with `#`. -/
def scanHeader (file : Str) : List Str :=
  ((splitLines file).dropWhile fun l => !("#S".toList.isPrefixOf l)).filter fun l => l.head? == some '#'

/-- The file from the first line that starts with `@A`; `bol`: at the beginning of a line. -/
def fromMca : Bool → Str → Str
  | _, [] => []
  | bol, c :: s =>
      if bol = true ∧ "@A".toList.isPrefixOf (c :: s) = true then c :: s else fromMca (c == '\n') s

end SC.Mca
