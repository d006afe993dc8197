import Verif.Paths.Model
/-! # What paths should be

A path is a sequence of names below a root; `k` is the number of slashes of the root, POSIX
distinguishes one and two. -/

namespace SC.Paths

/-- A name. -/
def Name (n : Str) : Prop := n ≠ [] ∧ '/' ∉ n ∧ n ≠ dot ∧ n ≠ dots

/-- The text of a path. -/
def render (k : Nat) (l : List Str) : Str := List.replicate k '/' ++ glue ['/'] l

/-- The text of a normalized path. -/
structure Is (p : Str) (k : Nat) (l : List Str) : Prop where
  eq : p = render k l
  root : k = 1 ∨ k = 2
  names : ∀ n ∈ l, Name n

/-- Follow the parts of a text from a place: `..` goes up (the root is its own parent), nothing and
`.` stay, names go down. -/
def follow : List Str → List Str → List Str
  | l, [] => l
  | l, c :: cs => follow (if c = [] ∨ c = dot then l else if c = dots then l.dropLast else l ++ [c]) cs

/-- The text has a part that looks like the end of a file name (an extension) followed by `::`. -/
def HasDev (s : Str) : Prop := ∃ a x r, s = a ++ ('.' :: x) ++ devsep ++ r ∧ x ≠ [] ∧ '/' ∉ x

/-- The file name has an extension. -/
def HasExt (d : Str) : Prop := ∃ a e, d = a ++ '.' :: e ∧ e ≠ [] ∧ '/' ∉ e

end SC.Paths
