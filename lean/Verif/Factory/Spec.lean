import Verif.Factory.Model
/-! # Specification for C39: what a class can be found under

Written in terms of the class statements only: who derives from whom, names and aliases. -/
namespace SC.Factory

/-- The class statement of class `k`. -/
def declAt (s : St) (k : Nat) : Option Decl := (s.classes[k]?).map Cls.decl

/-- `b` is listed as a base of `k`. -/
def Base (s : St) (b k : Nat) : Prop := ∃ d, declAt s k = some d ∧ b ∈ d.bases

/-- `a` is `k` or an ancestor of `k`. -/
inductive Anc (s : St) : Nat → Nat → Prop where
  | refl {k : Nat} : k < s.classes.length → Anc s k k
  | step {a b k : Nat} : Anc s a b → Base s b k → Anc s a k

/-- `k` is made by the factory metaclass: asked for by itself or by an ancestor. -/
def IsFactory (s : St) (k : Nat) : Prop := ∃ a d, Anc s a k ∧ declAt s a = some d ∧ d.fac = true

/-- `r` starts a family: a factory class none of whose bases is one. -/
def IsRoot (s : St) (r : Nat) : Prop := IsFactory s r ∧ ∀ b, Base s b r → ¬ IsFactory s b

/-- `k` is the last number below `n` with property `P`. -/
def IsLast (P : Nat → Prop) (n k : Nat) : Prop := k < n ∧ P k ∧ ∀ j, k < j → j < n → ¬ P j

/-- `k` takes part in the family of `r`: the registries it sees, or those one of its bases sees,
are those of `r`. -/
def Member (s : St) (r k : Nat) : Prop :=
  facAt s.classes k = true ∧ (ownerOf s.classes k = some r ∨ ∃ b, Base s b k ∧ ownerOf s.classes b = some r)

/-- `k` takes part in the family of `r` and is called `n`. -/
def Named (s : St) (r : Nat) (n : Str) (k : Nat) : Prop :=
  Member s r k ∧ ∃ d, declAt s k = some d ∧ d.name = n

/-- `n` is another spelling for `k`: its name in lower case, an alias or an alias in lower case. -/
def Spelling (lower : Str → Str) (s : St) (n : Str) (k : Nat) : Prop :=
  (∃ d, declAt s k = some d ∧ lower d.name = n) ∨ ∃ a ∈ aliasesOf s.classes k, n = a ∨ n = lower a

/-- `k` takes part in the family of `r` and `n` is another spelling for it. -/
def Spelled (lower : Str → Str) (s : St) (r : Nat) (n : Str) (k : Nat) : Prop :=
  Member s r k ∧ Spelling lower s n k

/-- Every class has at most one base. -/
def SingleInheritance (h : List Decl) : Prop := ∀ d ∈ h, d.bases.length ≤ 1

end SC.Factory
