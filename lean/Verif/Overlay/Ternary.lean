import Mathlib.Analysis.Real.Sqrt
import Mathlib.Tactic.Ring
import Mathlib.Tactic.Linarith
import Mathlib.Tactic.FieldSimp
import Mathlib.Tactic.LinearCombination
/-! # C89: triangles of three components, `visualization/ternary_diagram.py`

Coordinates are real numbers; the drawing (axes, ticks, colours) is not modelled. -/
namespace SC.Ternary

/-- `TernaryCoordinates`, ternary_diagram.py:9-11. -/
@[ext] structure T where
  left : ℝ
  right : ℝ
  top : ℝ

/-- `CartesianCoordinates`, ternary_diagram.py:8. -/
@[ext] structure C where
  x : ℝ
  y : ℝ

/-- `np.sqrt(3) / 2`, ternary_diagram.py:197 and 205. -/
noncomputable def H : ℝ := Real.sqrt 3 / 2

/-- `TernaryToCartesian`, ternary_diagram.py:196-201. -/
noncomputable def toCart (p : T) : C :=
  let tot := p.left + p.right + p.top
  { x := (2 * p.right + p.top) / (2 * tot), y := H * p.top / tot }

/-- `CartesianToTernary`, ternary_diagram.py:204-209. -/
noncomputable def toTern (p : C) : T :=
  let top := p.y / H
  let right := p.x - top / 2
  { left := 1 - top - right, right := right, top := top }

/-- The ends of the three lines through a point, ternary_diagram.py:212-222: for right, left and top. -/
noncomputable def pointLines (p : T) : C × C × C :=
  (toCart { p with left := p.left + p.top, top := 0 },
   toCart { p with top := p.top + p.right, right := 0 },
   toCart { p with right := p.right + p.left, left := 0 })

/-- `np.linspace(0, 1, n + 2)[1:-1][k]`, ternary_diagram.py:229. -/
noncomputable def gridValue (n k : ℕ) : ℝ := (k + 1) / (n + 1)

/-- The two ends of the grid lines of right, left and top, ternary_diagram.py:231-259. -/
noncomputable def gridRight (n k : ℕ) : C × C :=
  (toCart ⟨0, gridValue n k, 1 - gridValue n k⟩, toCart ⟨1 - gridValue n k, gridValue n k, 0⟩)
noncomputable def gridLeft (n k : ℕ) : C × C :=
  (toCart ⟨gridValue n k, 0, 1 - gridValue n k⟩, toCart ⟨gridValue n k, 1 - gridValue n k, 0⟩)
noncomputable def gridTop (n k : ℕ) : C × C :=
  (toCart ⟨1 - gridValue n k, 0, gridValue n k⟩, toCart ⟨0, 1 - gridValue n k, gridValue n k⟩)

/-- `NormTernary`, ternary_diagram.py:180-193, for one component with its limits. -/
noncomputable def norm1 (mi ma x : ℝ) : ℝ := max 0 (min 1 ((x - mi) / (ma - mi)))

theorem H_pos : 0 < H := by unfold H; positivity

theorem H_sq : H * H = 3 / 4 := by
  unfold H
  have := Real.mul_self_sqrt (show (0 : ℝ) ≤ 3 by norm_num)
  linear_combination this / 4

/-- From a point to its place in the triangle and back gives the shares of the components. -/
theorem round_trip (p : T) (h : p.left + p.right + p.top ≠ 0) :
    toTern (toCart p) = ⟨p.left / (p.left + p.right + p.top), p.right / (p.left + p.right + p.top),
      p.top / (p.left + p.right + p.top)⟩ := by
  have := H_pos.ne'
  ext <;> simp only [toTern, toCart] <;> field_simp <;> ring

/-- From a place to its components and back gives the place. -/
theorem round_trip' (q : C) : toCart (toTern q) = q := by
  have hH := H_pos.ne'
  have h1 : (toTern q).left + (toTern q).right + (toTern q).top = 1 := by simp only [toTern]; ring
  have e : toCart (toTern q) = ⟨(2 * (toTern q).right + (toTern q).top) / 2, H * (toTern q).top⟩ := by
    ext <;> simp only [toCart, h1] <;> ring
  rw [e]
  ext
  · simp only [toTern]; ring
  · simp only [toTern]; field_simp

/-- Squared distance. -/
def dist2 (p q : C) : ℝ := (p.x - q.x) ^ 2 + (p.y - q.y) ^ 2

/-- The pure components are the corners of a triangle with sides one, with left and right on the base. -/
theorem corners : toCart ⟨1, 0, 0⟩ = ⟨0, 0⟩ ∧ toCart ⟨0, 1, 0⟩ = ⟨1, 0⟩ ∧
    dist2 (toCart ⟨0, 0, 1⟩) (toCart ⟨1, 0, 0⟩) = 1 ∧ dist2 (toCart ⟨0, 0, 1⟩) (toCart ⟨0, 1, 0⟩) = 1 ∧
    0 < (toCart ⟨0, 0, 1⟩).y := by
  have h := H_sq
  refine ⟨by ext <;> simp [toCart], by ext <;> simp [toCart], ?_, ?_, by simp [toCart, H_pos]⟩
  · simp [dist2, toCart]; linear_combination h
  · simp [dist2, toCart]; linear_combination h

/-- The place is the average of the corners weighted with the components, so inside the triangle. -/
theorem barycentric (p : T) :
    (toCart p).x = (p.left * (toCart ⟨1, 0, 0⟩).x + p.right * (toCart ⟨0, 1, 0⟩).x + p.top * (toCart ⟨0, 0, 1⟩).x) /
      (p.left + p.right + p.top) ∧
    (toCart p).y = (p.left * (toCart ⟨1, 0, 0⟩).y + p.right * (toCart ⟨0, 1, 0⟩).y + p.top * (toCart ⟨0, 0, 1⟩).y) /
      (p.left + p.right + p.top) := by
  constructor
  · simp only [toCart]
    norm_num
    rw [show 2 * p.right + p.top = 2 * (p.right + p.top * (1 / 2)) by ring, mul_div_mul_left _ _ two_ne_zero]
  · simp only [toCart]
    norm_num
    ring

/-- The share of each component is the distance to the opposite side relative to the height of the triangle. -/
theorem share_distance (p : T) (h : p.left + p.right + p.top ≠ 0) :
    p.top / (p.left + p.right + p.top) = (toCart p).y / H ∧
    p.right / (p.left + p.right + p.top) = (H * (toCart p).x - (toCart p).y / 2) / H ∧
    p.left / (p.left + p.right + p.top) = (H * (1 - (toCart p).x) - (toCart p).y / 2) / H := by
  have := H_pos.ne'
  refine ⟨?_, ?_, ?_⟩ <;> simp only [toCart] <;> field_simp <;> ring

/-- The components of a place, as shares. -/
def Share (q : C) (l r t : ℝ) : Prop := toTern q = ⟨l, r, t⟩

/-- The line of a component of a point ends on a side, with the same share of that component. -/
theorem point_lines (p : T) (h : p.left + p.right + p.top = 1) :
    Share (pointLines p).1 (1 - p.right) p.right 0 ∧
    Share (pointLines p).2.1 p.left 0 (1 - p.left) ∧
    Share (pointLines p).2.2 0 (1 - p.top) p.top := by
  have key : ∀ q : T, q.left + q.right + q.top = 1 → toTern (toCart q) = q := by
    intro q hq
    rw [round_trip q (by rw [hq]; norm_num), hq]
    simp
  refine ⟨?_, ?_, ?_⟩
  · unfold Share pointLines
    rw [key _ (by simp only; linarith)]
    ext <;> simp only <;> linarith
  · unfold Share pointLines
    rw [key _ (by simp only; linarith)]
    ext <;> simp only <;> linarith
  · unfold Share pointLines
    rw [key _ (by simp only; linarith)]
    ext <;> simp only <;> linarith

/-- The grid has the lines of equal share k/(n+1), each between the two sides it meets. -/
theorem grid_lines (n k : ℕ) :
    let v : ℝ := (k + 1) / (n + 1)
    (Share (gridRight n k).1 0 v (1 - v) ∧ Share (gridRight n k).2 (1 - v) v 0) ∧
    (Share (gridLeft n k).1 v 0 (1 - v) ∧ Share (gridLeft n k).2 v (1 - v) 0) ∧
    (Share (gridTop n k).1 (1 - v) 0 v ∧ Share (gridTop n k).2 0 (1 - v) v) := by
  have key : ∀ q : T, q.left + q.right + q.top = 1 → toTern (toCart q) = q := by
    intro q hq
    rw [round_trip q (by rw [hq]; norm_num), hq]
    simp
  refine ⟨⟨?_, ?_⟩, ⟨?_, ?_⟩, ⟨?_, ?_⟩⟩ <;> (apply key; simp only [gridValue]; ring)

/-- Normalised components are between zero and one, the limits become zero and one, and in between the order is kept. -/
theorem norm_range (mi ma x y : ℝ) (h : mi < ma) :
    (0 ≤ norm1 mi ma x ∧ norm1 mi ma x ≤ 1) ∧ (x ≤ mi → norm1 mi ma x = 0) ∧ (ma ≤ x → norm1 mi ma x = 1) ∧
    (mi ≤ x → x < y → y ≤ ma → norm1 mi ma x < norm1 mi ma y) := by
  have hd : 0 < ma - mi := by linarith
  unfold norm1
  refine ⟨⟨le_max_left _ _, max_le (by norm_num) (min_le_left _ _)⟩, ?_, ?_, ?_⟩
  · intro hx
    have : (x - mi) / (ma - mi) ≤ 0 := div_nonpos_of_nonpos_of_nonneg (by linarith) hd.le
    exact max_eq_left ((min_le_right _ _).trans this)
  · intro hx
    have : 1 ≤ (x - mi) / (ma - mi) := by rw [le_div_iff₀ hd]; linarith
    rw [min_eq_left this]; norm_num
  · intro hx hxy hy
    have a : 0 ≤ (x - mi) / (ma - mi) := div_nonneg (by linarith) hd.le
    have b : (x - mi) / (ma - mi) < (y - mi) / (ma - mi) := by gcongr
    have c : (y - mi) / (ma - mi) ≤ 1 := by rw [div_le_one hd]; linarith
    rw [min_eq_right (b.le.trans c), min_eq_right c, max_eq_right a, max_eq_right (a.trans b.le)]
    exact b

example : (⟨1, 2, 3⟩ : T).left + (⟨1, 2, 3⟩ : T).right + (⟨1, 2, 3⟩ : T).top ≠ 0 := by norm_num
example : toTern (toCart ⟨1, 2, 1⟩) = ⟨1 / 4, 1 / 2, 1 / 4⟩ := by
  rw [round_trip _ (by norm_num)]; norm_num
example : (⟨1 / 4, 1 / 2, 1 / 4⟩ : T).left + (⟨1 / 4, 1 / 2, 1 / 4⟩ : T).right + (⟨1 / 4, 1 / 2, 1 / 4⟩ : T).top = 1 := by norm_num

end SC.Ternary
