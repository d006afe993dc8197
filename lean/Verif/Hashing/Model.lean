import Verif.Common.Sort
import Mathlib.Data.List.Lex
import Mathlib.Data.Char
/-! # Model of `utils/hashing.py`

Bytes are modelled by `Char` (one character per byte).  The MD5 hex digest is an arbitrary function
`md5 : Bytes → Bytes`; the facts used about it (fixed length, no `<` among its characters) are
hypotheses of the theorems (`Digest` in `Verif.Hashing.Spec`). -/
namespace SC.Hashing
open SC.Common

/-- Byte strings. -/
abbrev Bytes := List Char

/-- A Python or numpy number, with the text `str(x)`.  Rational stands for every finite real type. -/
inductive Num where
  | real (q : Rat) (txt : Bytes)
  | cplx (re im : Rat) (txt : Bytes)
  /-- nan and infinities -/
  | special (txt : Bytes)
  deriving DecidableEq

/-- The values distinguished by `calchash`.  Class names are part of the value only where the code
uses them.  `set`: elements in iteration order; `dict`: keys and values in insertion order, `ordered`
for an `OrderedDict`; `arr0`: zero-dimensional array and its item; `obj`: any other object with the
state that `jsonpickle` returns (not modelled). -/
inductive Val where
  | none
  | str (s : Bytes)
  | num (n : Num)
  | seq (cls : Bytes) (xs : List Val)
  | set (cls : Bytes) (xs : List Val)
  | dict (ordered : Bool) (cls : Bytes) (keys values : List Val)
  | arr0 (item : Val)
  | qty (magnitude : Val) (units : Bytes)
  | obj (state : Val)

/-- hashing.py 13-14 -/
def className (n : Bytes) : Bytes :=
  ['<', 'c', 'l', 'a', 's', 's', ' ', '\''] ++ n ++ ['\'', '>']

/-- `str(i)` of a Python `int` -/
def intText (i : Int) : Bytes :=
  match i with
  | .ofNat n => Nat.toDigits 10 n
  | .negSucc n => '-' :: Nat.toDigits 10 (n + 1)

/-- hashing.py 51-57: `int(x)` when equal to `x`; `int` of a complex, nan or infinity raises and is
ignored. -/
def numText : Num → Bytes
  | .real q txt => if q.den = 1 then intText q.num else txt
  | .cplx _ _ txt => txt
  | .special txt => txt

/-- listtools.sort2lists (listtools.py 87-98) on hashes: stable sort of the pairs by the first. -/
def sort2 (ks vs : List Bytes) : List Bytes × List Bytes :=
  (stableSort Prod.fst (ks.zip vs)).unzip

mutual
/-- hashing.py 29-88; `none`: the `RuntimeError` at depth 100 -/
def calchash (md5 : Bytes → Bytes) (depth : Nat) : Val → Option Bytes
  | .none => if depth = 100 then Option.none else some (md5 (className "NoneType".toList))
  | .str s => if depth = 100 then Option.none else
      some (md5 (className "string".toList ++ s))
  | .num n => if depth = 100 then Option.none else
      some (md5 (className "number".toList ++ numText n))
  | .arr0 x => if depth = 100 then Option.none else do
      let h ← calchash md5 (depth + 1) x
      return md5 h
  | .set cls xs => if depth = 100 then Option.none else
      if xs.isEmpty then some (md5 (className cls)) else do
        let hs ← calchashAll md5 (depth + 1) xs
        return md5 (stableSort id hs).flatten
  | .seq cls xs => if depth = 100 then Option.none else
      if xs.isEmpty then some (md5 (className cls)) else do
        let hs ← calchashAll md5 (depth + 1) xs
        return md5 hs.flatten
  | .dict ordered cls keys values => if depth = 100 then Option.none else
      if keys.isEmpty then some (md5 (className cls)) else do
        let ks ← calchashAll md5 (depth + 1) keys
        let vs ← calchashAll md5 (depth + 1) values
        let (ks, vs) := if !ordered then sort2 ks vs else (ks, vs)
        return md5 (ks ++ vs).flatten
  | .qty m u => if depth = 100 then Option.none else do
      let h ← calchash md5 (depth + 1) m
      let hu ← if depth + 1 = 100 then Option.none else some (md5 (className "string".toList ++ u))
      return md5 (h ++ hu)
  | .obj s => if depth = 100 then Option.none else do
      let h ← calchash md5 (depth + 1) s
      return md5 h

/-- `[calchash(y, _depth) for y in x]` -/
def calchashAll (md5 : Bytes → Bytes) (depth : Nat) : List Val → Option (List Bytes)
  | [] => some []
  | x :: xs => do
      let h ← calchash md5 depth x
      let hs ← calchashAll md5 depth xs
      return h :: hs
end

/-- hashing.py 91-92 -/
def hashequal (md5 : Bytes → Bytes) (a b : Val) : Option Bool := do
  let x ← calchash md5 0 a
  let y ← calchash md5 0 b
  return x == y

/-- hashing.py 95-99; `none`: no arguments (`IndexError`) -/
def mergehash (md5 : Bytes → Bytes) (hashes : List Bytes) : Option Bytes :=
  if hashes.length > 1 then calchash md5 0 (.seq "tuple".toList (hashes.map .str))
  else hashes[0]?

end SC.Hashing
