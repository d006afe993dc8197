import Verif.Py.Dict
/-! # Model of `utils/classfactory.py` (C39)

Classes are numbered in the order in which their `class` statements are executed.  A class
statement lists its bases, says whether `FactoryMeta` is asked for (through `with_metaclass`,
classfactory.py 120-126; `future.utils.with_metaclass` leaves no intermediate class behind) and
may define `aliases`.  The implicit base `object` has none of the attributes looked at here and
is left out.  A class that redefines `register`, `clsregistry` or one of the other attributes set
by `FactoryMeta.__new__`, or changes `aliases` after the class statement, is not modelled.
`str.lower` is a parameter: nothing is assumed about it. -/
namespace SC.Factory
open SC.Py

/-- Texts. -/
abbrev Str := List Char

/-- A class statement: `class name(bases): aliases = ...`; `fac`: with metaclass `FactoryMeta`. -/
structure Decl where
  name : Str
  bases : List Nat
  fac : Bool
  aliases : Option (List Str)
deriving DecidableEq

/-- A class: what the statement says, `__mro__`, whether its metaclass is `FactoryMeta` and
whether `clsregistry`, `aliasregistry`, `register`, ... are in its own namespace. -/
structure Cls where
  decl : Decl
  mro : List Nat
  fac : Bool
  own : Bool
deriving DecidableEq

/-- `clsregistry` and `aliasregistry`, classfactory.py 98-99. -/
structure Reg where
  names : Dict Str Nat
  aliases : Dict Str Nat
deriving DecidableEq

/-- All classes, and the registries of the classes that have their own. -/
structure St where
  classes : List Cls
  regs : Nat → Reg

/-- No classes yet. -/
def init : St := ⟨[], fun _ => ⟨[], []⟩⟩

/-! ## Python's method resolution order (trusted specification: C3 linearization) -/

/-- A candidate is in no tail. -/
def inNoTail (seqs : List (List Nat)) (c : Nat) : Bool := seqs.all (fun s => !(s.tail.contains c))

/-- The first head that is in no tail. -/
def pick (seqs : List (List Nat)) : Option Nat := (seqs.filterMap List.head?).find? (inNoTail seqs)

/-- Remove `c` from the front. -/
def dropHead (c : Nat) : List Nat → List Nat
  | [] => []
  | x :: l => if x = c then l else x :: l

/-- The merge step of C3; `none`: `TypeError`. -/
def merge : Nat → List (List Nat) → Option (List Nat)
  | 0, _ => some []
  | n + 1, seqs =>
    if seqs.all List.isEmpty then some []
    else match pick seqs with
      | none => none
      | some c => (merge n (seqs.map (dropHead c))).map (fun l => c :: l)

/-- The method resolution order of class `k` of the table. -/
def mroOf (cs : List Cls) (k : Nat) : List Nat := match cs[k]? with
  | none => []
  | some c => c.mro

/-- The part of `__mro__` behind the new class. -/
def linearize (cs : List Cls) (bases : List Nat) : Option (List Nat) :=
  merge ((bases.map (fun b => (mroOf cs b).length)).sum + bases.length)
    (bases.map (mroOf cs) ++ [bases])

/-! ## Attribute lookup -/

/-- Are the registries in the namespace of class `k`? -/
def ownAt (cs : List Cls) (k : Nat) : Bool := match cs[k]? with
  | none => false
  | some c => c.own

/-- Is the metaclass of class `k` `FactoryMeta`? -/
def facAt (cs : List Cls) (k : Nat) : Bool := match cs[k]? with
  | none => false
  | some c => c.fac

/-- `aliases` in the namespace of class `k`. -/
def ownAliases (cs : List Cls) (k : Nat) : Option (List Str) := match cs[k]? with
  | none => none
  | some c => c.decl.aliases

/-- `hasattr(cls, "register")` for a class with this resolution order. -/
def hasRegister (cs : List Cls) (mro : List Nat) : Bool := mro.any (ownAt cs)

/-- The class whose `clsregistry` is found as `cls.clsregistry`. -/
def ownerOf (cs : List Cls) (k : Nat) : Option Nat := (mroOf cs k).find? (ownAt cs)

/-- `regcls.aliases`, or nothing when there is no such attribute, classfactory.py 70-71. -/
def aliasesOf (cs : List Cls) (k : Nat) : List Str := ((mroOf cs k).findSome? (ownAliases cs)).getD []

/-! ## Registration -/

/-- The body of the loop over the aliases, classfactory.py 72-75. -/
def addAlias (lower : Str → Str) (k : Nat) (d : Dict Str Nat) (a : Str) : Dict Str Nat :=
  let d := Dict.set d a k
  if lower a ≠ a then Dict.set d (lower a) k else d

/-- register on the registries it writes to, classfactory.py 58-75. -/
def regCls (lower : Str → Str) (aliases : List Str) (k : Nat) (name : Str) (r : Reg) : Reg :=
  { names := Dict.set r.names name k
    aliases := aliases.foldl (addAlias lower k)
      (if lower name ≠ name then Dict.set r.aliases (lower name) k else r.aliases) }

/-- Replace the registries of class `r`. -/
def setReg (regs : Nat → Reg) (r : Nat) (x : Reg) : Nat → Reg := fun q => if q = r then x else regs q

/-- `c.register(k, name)` when `c` has `register`, else nothing, classfactory.py 58-75 and
`hasattr(b, "register")` of 113-114. -/
def register (lower : Str → Str) (s : St) (c k : Nat) (name : Str) : St := match ownerOf s.classes c with
  | none => s
  | some r => ⟨s.classes, setReg s.regs r (regCls lower (aliasesOf s.classes k) k name (s.regs r))⟩

/-- `FactoryMeta.__init__`, classfactory.py 110-115. -/
def initCls (lower : Str → Str) (s : St) (k : Nat) (name : Str) (bases : List Nat) : St :=
  bases.foldl (fun s b => register lower s b k name) (register lower s k k name)

/-- The class made by a class statement, `type.__new__` and `FactoryMeta.__new__`, classfactory.py
94-108. -/
def mkCls (cs : List Cls) (d : Decl) (l : List Nat) : Cls :=
  let fac := d.fac || d.bases.any (facAt cs)
  ⟨d, cs.length :: l, fac, fac && !(hasRegister cs l)⟩

/-- A class statement.  `none`: a base does not exist (`NameError`) or the bases have no
consistent resolution order (`TypeError`); nothing is registered then. -/
def define (lower : Str → Str) (s : St) (d : Decl) : Option St :=
  if d.bases.all (fun b => decide (b < s.classes.length)) then
    match linearize s.classes d.bases with
    | none => none
    | some l =>
      let k := s.classes.length
      let c := mkCls s.classes d l
      let s1 : St := ⟨s.classes ++ [c], if c.own then setReg s.regs k ⟨[], []⟩ else s.regs⟩
      some (if c.fac then initCls lower s1 k d.name d.bases else s1)
  else none

/-- A program of class statements; those that fail leave no trace. -/
def run (lower : Str → Str) (s : St) (h : List Decl) : St :=
  h.foldl (fun s d => (define lower s d).getD s) s

/-! ## Lookup -/

/-- Failures of a lookup. -/
inductive Err where
  | attributeError
  | unknown
deriving DecidableEq

/-- The lookup in two registries, classfactory.py 32-41. -/
def find (r : Reg) (n : Str) : Except Err Nat :=
  match Dict.get? r.names n with
  | some k => .ok k
  | none => match Dict.get? r.aliases n with
    | some k => .ok k
    | none => .error .unknown

/-- clsfactory called on class `c`, classfactory.py 22-41. -/
def clsfactory (s : St) (c : Nat) (n : Str) : Except Err Nat := match ownerOf s.classes c with
  | none => .error .attributeError
  | some r => find (s.regs r) n

/-- clsnames, classfactory.py 78-80. -/
def clsnames (s : St) (c : Nat) : List Str := match ownerOf s.classes c with
  | none => []
  | some r => Dict.keys (s.regs r).names

/-- clsaliases, classfactory.py 83-85. -/
def clsaliases (s : St) (c : Nat) : List Str := match ownerOf s.classes c with
  | none => []
  | some r => Dict.keys (s.regs r).aliases

/-- clsallnames, classfactory.py 88-90. -/
def clsallnames (s : St) (c : Nat) : List Str := clsnames s c ++ clsaliases s c

end SC.Factory
