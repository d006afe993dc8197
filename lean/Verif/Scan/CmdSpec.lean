import Verif.Scan.Cmd
import Mathlib.Data.Nat.Digits.Defs
import Mathlib.Algebra.Field.Rat
/-! # Specification for C51: what a scan command looks like -/
namespace SC.Scan

/-- The value of a digit. -/
def digitVal (c : Char) : Nat := c.toNat - 48

/-- A non-negative integer in decimal notation. -/
def IsNat (t : Str) : Prop := t ≠ [] ∧ ∀ c ∈ t, c.isDigit = true

/-- Its value. -/
def natVal (t : Str) : Nat := Nat.ofDigits 10 (t.reverse.map digitVal)

/-- The optional sign of a number. -/
def IsSign (s : Str) : Prop := s = [] ∨ s = ['+'] ∨ s = ['-']

/-- `t` is the decimal notation of `q`: an optional sign, then digits, then possibly a point and
at least one digit; digits before the point may be missing. -/
def IsNumber (t : Str) (q : Rat) : Prop := ∃ sg w f : Str, IsSign sg ∧ (∀ c ∈ w, c.isDigit = true) ∧
  (∀ c ∈ f, c.isDigit = true) ∧
  ((f = [] ∧ w ≠ [] ∧ t = sg ++ w) ∨ (f ≠ [] ∧ t = sg ++ w ++ '.' :: f)) ∧
  q = (if sg = ['-'] then -1 else 1) * ((natVal w : Rat) + (natVal f : Rat) / (10 : Rat) ^ f.length)

/-- What a field may look like. -/
def Kind.Ok : Kind → Str → Prop
  | .word w, t => t = w
  | .motor, t => t ≠ [] ∧ ∀ c ∈ t, c.isAlpha = true
  | .motornum, t => t ≠ [] ∧ ∀ c ∈ t, c.isAlphanum = true
  | .float, t => ∃ q, IsNumber t q
  | .int, t => IsNat t

/-- White space between fields. -/
def IsGap (s : Str) : Prop := s ≠ [] ∧ ∀ c ∈ s, isBlank c = true

/-- What follows `r` cannot make the field `t` longer: no further character of the field, and no
point with a digit behind it when `t` is a whole number. -/
def Kind.Stops : Kind → Str → Str → Prop
  | .word _, _, _ => True
  | .motor, _, r => ∀ c ∈ r.head?, c.isAlpha = false
  | .motornum, _, r => ∀ c ∈ r.head?, c.isAlphanum = false
  | .float, t, r => (∀ c ∈ r.head?, c.isDigit = false) ∧
      ('.' ∉ t → ∀ c, r.head? = some '.' → r[1]? = some c → c.isDigit = false)
  | .int, _, r => ∀ c ∈ r.head?, c.isDigit = false

/-- `cmd` consists of the fields `toks` of the given kinds, white space in between, and a rest
that is not part of the last field. -/
inductive Layout : List Kind → List Str → Str → Prop
  | last {k t r} : k.Ok t → k.Stops t r → Layout [k] [t] (t ++ r)
  | next {k t ks ts gap s} : k.Ok t → IsGap gap → Layout ks ts s → Layout (k :: ks) (t :: ts) (t ++ gap ++ s)

/-- A scan command and what it says.  Times are in milliseconds, those of `ascan` and `mesh` in
seconds. -/
inductive IsScan : Str → List (G × Val) → Prop
  /-- `zapimage motor start end pixels time motor start end steps` -/
  | zapimage {cmd mf a b n t ms c d m qa qb qc qd} :
      Layout [.word sZapimage, .motor, .float, .float, .int, .int, .motor, .float, .float, .int]
        [sZapimage, mf, a, b, n, t, ms, c, d, m] cmd →
      (∃ s, cmd = sZapimage ++ ' ' :: s) →
      IsNumber a qa → IsNumber b qb → IsNumber c qc → IsNumber d qd →
      IsScan cmd [(.name, .str sZapimage), (.motfast, .str mf), (.startfast, .num qa), (.endfast, .num qb),
        (.npixelsfast, .int (natVal n)), (.time, .ms (natVal t)), (.motslow, .str ms), (.startslow, .num qc),
        (.endslow, .num qd), (.nstepsslow, .int (natVal m))]
  /-- `zapimage motor start end pixels motor start end steps time` -/
  | zapimage2 {cmd mf a b n t ms c d m qa qb qc qd} :
      Layout [.word sZapimage, .motor, .float, .float, .int, .motor, .float, .float, .int, .int]
        [sZapimage, mf, a, b, n, ms, c, d, m, t] cmd →
      (∃ s, cmd = sZapimage ++ ' ' :: s) →
      IsNumber a qa → IsNumber b qb → IsNumber c qc → IsNumber d qd →
      IsScan cmd [(.name, .str sZapimage), (.motfast, .str mf), (.startfast, .num qa), (.endfast, .num qb),
        (.npixelsfast, .int (natVal n)), (.motslow, .str ms), (.startslow, .num qc), (.endslow, .num qd),
        (.nstepsslow, .int (natVal m)), (.time, .ms (natVal t))]
  /-- `puzzle motor start end pixels motor start end steps time` -/
  | puzzle {cmd mf a b n t ms c d m qa qb qc qd} :
      Layout [.word sPuzzle, .motornum, .float, .float, .int, .motornum, .float, .float, .int, .int]
        [sPuzzle, mf, a, b, n, ms, c, d, m, t] cmd →
      (∃ s, cmd = sPuzzle ++ ' ' :: s) →
      IsNumber a qa → IsNumber b qb → IsNumber c qc → IsNumber d qd →
      IsScan cmd [(.name, .str sPuzzle), (.motfast, .str mf), (.startfast, .num qa), (.endfast, .num qb),
        (.npixelsfast, .int (natVal n)), (.motslow, .str ms), (.startslow, .num qc), (.endslow, .num qd),
        (.nstepsslow, .int (natVal m)), (.time, .ms (natVal t))]
  /-- `mesh motor start end steps motor start end steps time` -/
  | mesh {cmd mf a b n t ms c d m qa qb qc qd qt} :
      Layout [.word sMesh, .motor, .float, .float, .int, .motor, .float, .float, .int, .float]
        [sMesh, mf, a, b, n, ms, c, d, m, t] cmd →
      (∃ s, cmd = sMesh ++ ' ' :: s) →
      IsNumber a qa → IsNumber b qb → IsNumber c qc → IsNumber d qd → IsNumber t qt →
      IsScan cmd [(.name, .str sMesh), (.motfast, .str mf), (.startfast, .num qa), (.endfast, .num qb),
        (.nstepsfast, .int (natVal n)), (.motslow, .str ms), (.startslow, .num qc), (.endslow, .num qd),
        (.nstepsslow, .int (natVal m)), (.time, .sec qt)]
  /-- `zapenergy SUM repeats time` and `zapenergy SUM2 repeats time` -/
  | zapenergy {cmd w n t qt} :
      w = sSum ∨ w = sSum2 →
      Layout [.word sZapenergy, .word w, .int, .float] [sZapenergy, w, n, t] cmd →
      (∃ s, cmd = sZapenergy ++ ' ' :: s) →
      IsNumber t qt →
      IsScan cmd [(.name, .str sZapenergy), (.repeats, .int (natVal n)), (.time, .ms qt)]
  /-- `zapline motor start end pixels time` -/
  | zapline {cmd mf a b n t qa qb qt} :
      Layout [.word sZapline, .motor, .float, .float, .int, .float] [sZapline, mf, a, b, n, t] cmd →
      (∃ s, cmd = sZapline ++ ' ' :: s) →
      IsNumber a qa → IsNumber b qb → IsNumber t qt →
      IsScan cmd [(.name, .str sZapline), (.motfast, .str mf), (.startfast, .num qa), (.endfast, .num qb),
        (.npixelsfast, .int (natVal n)), (.time, .ms qt)]
  /-- `ascan motor start end steps time` -/
  | ascan {cmd mf a b n t qa qb qt} :
      Layout [.word sAscan, .motor, .float, .float, .int, .float] [sAscan, mf, a, b, n, t] cmd →
      (∃ s, cmd = sAscan ++ ' ' :: s) →
      IsNumber a qa → IsNumber b qb → IsNumber t qt →
      IsScan cmd [(.name, .str sAscan), (.motfast, .str mf), (.startfast, .num qa), (.endfast, .num qb),
        (.nstepsfast, .int (natVal n)), (.time, .sec qt)]

end SC.Scan
