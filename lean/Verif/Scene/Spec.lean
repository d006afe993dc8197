import Verif.Scene.Image
/-! # Specification of the coordinates of a scene -/
namespace SC.Scene

/-- The coordinates of an item along an axis as they are given. -/
def Item.coords (a : Fin 2) : Item → List ℚ
  | .image lim _ => [(lim a).1, (lim a).2]
  | .points c => c a

/-- All coordinates. -/
def coords (s : Scene) (a : Fin 2) : List ℚ := s.items.flatMap (Item.coords a)

/-- There is something to show along this axis. -/
def Shows (s : Scene) (a : Fin 2) : Prop := s.items ≠ [] ∧ ∀ i ∈ s.items, i.coords a ≠ []

/-- Smallest and largest of some numbers. -/
def IsRange (l : List ℚ) (p : ℚ × ℚ) : Prop := p.1 ∈ l ∧ p.2 ∈ l ∧ ∀ x ∈ l, p.1 ≤ x ∧ x ≤ p.2

/-- The coordinates that must be visible: points, and the outer edges of the pixels at the limits of an image. -/
def Item.outer (s : Scene) (a : Fin 2) : Item → List ℚ
  | .image lim n =>
    let half := (datatransform s a (lim a).2 - datatransform s a (lim a).1) / (2 * ((n a : ℚ) - 1))
    [datatransform s a (lim a).1 - half, datatransform s a (lim a).2 + half]
  | .points c => (c a).map (datatransform s a)

/-- The same for all items. -/
def outer (s : Scene) (a : Fin 2) : List ℚ := s.items.flatMap (Item.outer s a)

/-- The limits of a display axis, by data axis. -/
def axisLim (s : Scene) (a : Fin 2) : Except Err (ℚ × ℚ) :=
  match collect (itemLim s a) s.items with
  | .error e => .error e
  | .ok l => displaylim s a l

/-- Where a coordinate is shown between the two ends of its axis: 0 at the start, 1 at the end. -/
def place (s : Scene) (a : Fin 2) (v : ℚ) : Except Err ℚ :=
  match axisLim s a with
  | .error e => .error e
  | .ok lim => .ok ((datatransform s a v - lim.1) / (lim.2 - lim.1))

end SC.Scene
