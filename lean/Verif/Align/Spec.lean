import Verif.Align.Model
/-! # Specification of alignment bookkeeping

Everything is relative to the pixel grid of the raw image: output pixel `k` along an axis that is
extended by `e` before its first pixel is raw position `k - e`. -/
namespace SC.Align

/-- The value of an axis at raw position `p`: the axis itself inside, the straight line through its
first two or last two values outside. -/
def axisAt (ax : List Rat) (p : Int) : Rat :=
  if p < 0 then ax.getD 0 0 + (p : Rat) * (ax.getD 1 0 - ax.getD 0 0)
  else if p < ax.length then ax.getD p.toNat 0
  else ax.getD (ax.length - 1) 0 +
    ((p : Rat) - ((ax.length : Rat) - 1)) * (ax.getD (ax.length - 1) 0 - ax.getD (ax.length - 2) 0)

/-- A pixel of a raw image, `cval` outside the image. -/
def rawPixel (cval : Px) (img : Img) (y x : Int) : Px :=
  if 0 ≤ y ∧ y < img.h ∧ 0 ≤ x ∧ x < img.w then img.get y x else cval

/-- An integer translation. -/
def IntTr (t : Tr) (n : Int × Int) : Prop := t.1 = (n.1 : Rat) ∧ t.2 = (n.2 : Rat)

/-- The pixel `(y, x)` of the common frame is inside image `i` aligned with `t`. -/
def Inside (size : Nat × Nat) (t : Tr) (y x : Rat) : Prop :=
  0 ≤ y + t.2 ∧ y + t.2 ≤ (size.1 : Rat) - 1 ∧ 0 ≤ x + t.1 ∧ x + t.1 ≤ (size.2 : Rat) - 1

/-- The number of pixels added before and after each axis (negative: removed) when the images are
transformed: none without padding and cropping. -/
def ext (s : St) : (Int × Int) × (Int × Int) := if s.pad || s.crop then (s.e1, s.e2) else ((0, 0), (0, 0))

/-- A call that can be made on images of this size: the mask is not larger than the image. -/
def Call.Ok (k : Call) (size : Nat × Nat) : Prop := k.mh ≤ size.1 ∧ k.mw ≤ size.2

end SC.Align
