import Mathlib.Algebra.Order.Field.Basic
/-! # C41: specification

A composition is a list of (component, number) pairs in which a component may occur several times;
components are told apart by a key. -/
namespace SC.Compound

variable {K : Type} [Field K] {α β : Type} [DecidableEq β]

/-- how much of `b` there is, all occurrences together -/
def amount (key : α → β) (l : List (α × K)) (b : β) : K :=
  ((l.filter fun p => decide (key p.1 = b)).map Prod.snd).sum

/-- everything together -/
def total (l : List (α × K)) : K := (l.map Prod.snd).sum

/-- the same composition counted in another unit: one unit of `a` is `g a` of the other -/
def inUnits (g : α → K) (l : List (α × K)) : List (α × K) := l.map fun p => (p.1, p.2 * g p.1)

/-- `d[b]` of a dictionary (`none`: KeyError) -/
def item (key : α → β) (d : List (α × K)) (b : β) : Option K :=
  (d.find? fun p => decide (key p.1 = b)).map Prod.snd

/-- the names in a composition -/
def names (key : α → β) (l : List (α × K)) : List β := l.map fun p => key p.1

/-- `d` is a dictionary with the names of `l` as keys and the values `f`. -/
structure IsTable (key : α → β) (d : List (α × K)) (ns : List β) (f : β → K) : Prop where
  distinct : (names key d).Nodup
  known : ∀ b ∈ ns, item key d b = some (f b)
  unknown : ∀ b, b ∉ ns → item key d b = none

end SC.Compound
