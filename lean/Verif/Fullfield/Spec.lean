import Verif.Fullfield.Model
/-! # Specification of full-field images -/
namespace SC.Fullfield

open SC.Py

/-- Images of the same shape with the same pixels. -/
def SameImg (a b : Img) : Prop := a.rows = b.rows ∧ a.cols = b.cols ∧ ∀ i j, i < a.rows → j < a.cols → a.px i j = b.px i j

/-- The same shape. -/
def SameShape (a b : Img) : Prop := a.rows = b.rows ∧ a.cols = b.cols

/-- The sum of the pixels of a rectangle. -/
def boxSum (px : Nat → Nat → ℚ) (r0 c0 : Nat) (n : Nat × Nat) : ℚ :=
  ((List.range n.1).map fun a => ((List.range n.2).map fun b => px (r0 + a) (c0 + b)).sum).sum

/-- First row or column of a region. -/
def first (n : Nat) (e : Option Int × Option Int) : Nat := sliceBound n 0 e.1

/-- A region that lies in an axis with n pixels; it may be empty. -/
def InBounds (n : Nat) (e : Option Int × Option Int) : Prop :=
  0 ≤ axisEnd n 0 e.1 ∧ axisEnd n 0 e.1 ≤ axisEnd n n e.2 ∧ axisEnd n n e.2 ≤ n

/-- The dark signal of one frame. -/
def darkFrame : DarkData × ℚ → Nat → Nat → ℚ
  | (.image x, n), i, j => x.px i j / n
  | (.number q, n), _, _ => q / n

/-- A dark that can be subtracted from an image. -/
def Fits (img : Img) : DarkData → Prop
  | .image x => SameShape img x
  | .number _ => True

/-- The files with a stack value and a region of the camera. -/
def chosen (fs : Str → File) (p : Params) (l : List (Str × Option Key)) (k : Key) (roi : CamRoi) : List Str :=
  (l.filter fun q => fileKey p (fs q.1) q.2 = some k ∧ (getroi p.roilabel (fs q.1)).toOption = some roi).map Prod.fst

end SC.Fullfield
