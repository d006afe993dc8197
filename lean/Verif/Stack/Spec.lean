import Verif.Stack.Model
/-! # What a stack of images should do -/
namespace SC.Stack
variable {V : Type}

/-- The same pixels. -/
def SameImage (a b : Arr V) : Prop := a.shape = b.shape ∧ ∀ j : List Nat, j.length = a.shape.length → a.data j = b.data j

/-- An image to be written: which dataset, which place in the stack, the image. -/
abbrev Write (W : Type) := Nat × Nat × W

/-- What should be at a place after some writes: the last image written there, else what was there. -/
def lastWritten {W : Type} (l : List (Write W)) (di ii : Nat) (before : W) : W :=
  ((l.reverse.find? fun e => e.1 == di && e.2.1 == ii).map fun e => e.2.2).getD before

/-- A stack of `n` images with `h` rows and `w` columns, stacked along axis `k`. -/
def IsStack (k n h w : Nat) (a : Arr V) : Prop :=
  (k = 0 ∧ a.shape = [n, h, w]) ∨ (k = 1 ∧ a.shape = [h, n, w]) ∨ (k = 2 ∧ a.shape = [h, w, n])

/-- Image `i` of a stack. -/
def image (k h w i : Nat) (a : Arr V) : Arr V :=
  ⟨[h, w], a.dtype, fun j => match j with
    | [y, x] => a.data (if k = 0 then [i, y, x] else if k = 1 then [y, i, x] else [y, x, i])
    | _ => a.data []⟩

end SC.Stack
