import Verif.Overlay.Model
import Mathlib.Tactic.Ring
import Mathlib.Tactic.Linarith
import Mathlib.Tactic.FieldSimp
import Mathlib.Data.List.Sort
/-! # C89: point measurements drawn on a map -/
namespace SC.Overlay

/-- A drawn point lies inside a pixel with this value. -/
def Over (s : Pic) (p : Rat × Rat) (v : Rat) : Prop :=
  ∃ r c : Nat, r < s.nr ∧ c < s.nc ∧ s.img r c = v ∧
    (∃ t : Rat, 0 < t ∧ t < 1 ∧ p.1 = s.x0 + (c + t) * ((s.x1 - s.x0) / s.nc)) ∧
    (∃ t : Rat, 0 < t ∧ t < 1 ∧ p.2 = s.y0 + (r + t) * ((s.y1 - s.y0) / s.nr))

/-- The coordinates are a regular grid from `a` in steps of `d`, in any order. -/
def Regular (xs : List Rat) (a d : Rat) : Prop :=
  0 < d ∧ xs.Perm ((List.range xs.length).map fun k : Nat => a + k * d)

/-- The fitted surface passes through its data, for increasing coordinates. -/
def Interpolates (f : Interp) : Prop :=
  ∀ x y z (r c : Nat) (hr : r < y.length) (hc : c < x.length), x.Pairwise (· < ·) → y.Pairwise (· < ·) →
    f x y z x[c] y[r] = z r c

theorem flip_index (n k : Nat) (h : k < n) : ((n - 1 - k : Nat) : Rat) = n - 1 - k := by
  have : n - 1 - k + 1 + k = n := by omega
  have h2 : ((n - 1 - k + 1 + k : Nat) : Rat) = n := by rw [this]
  push_cast at h2
  linarith

theorem transpose_over {s : State} {v : Rat} {k : Nat} {p : Rat × Rat} (hp : s.2[k]? = some p) (h : Over s.1 p v) :
    ∃ q, (transposeS s).2[k]? = some q ∧ Over (transposeS s).1 q v := by
  obtain ⟨r, c, hr, hc, hv, hx, hy⟩ := h
  exact ⟨(p.2, p.1), by simp [transposeS, hp], c, r, hc, hr, hv, hy, hx⟩

theorem flipvert_over {s : State} {v : Rat} {k : Nat} {p : Rat × Rat} (hp : s.2[k]? = some p) (h : Over s.1 p v) :
    ∃ q, (flipvertS s).2[k]? = some q ∧ Over (flipvertS s).1 q v := by
  obtain ⟨r, c, hr, hc, hv, hx, t, h0, h1, ht⟩ := h
  have hn : (s.1.nr : Rat) ≠ 0 := by
    have : 0 < s.1.nr := by omega
    exact_mod_cast this.ne'
  refine ⟨p, hp, s.1.nr - 1 - r, c, by simp [flipvertS]; omega, hc, ?_, hx, 1 - t, by linarith, by linarith, ?_⟩
  · simp only [flipvertS]
    rw [show s.1.nr - 1 - (s.1.nr - 1 - r) = r from by omega]; exact hv
  · simp only [flipvertS]
    rw [flip_index _ _ hr, ht]
    field_simp
    ring

theorem fliphor_over {s : State} {v : Rat} {k : Nat} {p : Rat × Rat} (hp : s.2[k]? = some p) (h : Over s.1 p v) :
    ∃ q, (fliphorS s).2[k]? = some q ∧ Over (fliphorS s).1 q v := by
  obtain ⟨r, c, hr, hc, hv, ⟨t, h0, h1, ht⟩, hy⟩ := h
  have hn : (s.1.nc : Rat) ≠ 0 := by
    have : 0 < s.1.nc := by omega
    exact_mod_cast this.ne'
  refine ⟨p, hp, r, s.1.nc - 1 - c, hr, by simp [fliphorS]; omega, ?_, ⟨1 - t, by linarith, by linarith, ?_⟩, hy⟩
  · simp only [fliphorS]
    rw [show s.1.nc - 1 - (s.1.nc - 1 - c) = c from by omega]; exact hv
  · simp only [fliphorS]
    rw [flip_index _ _ hc, ht]
    field_simp
    ring

theorem originX_over {s : State} {v : Rat} {k : Nat} {p : Rat × Rat} (hp : s.2[k]? = some p) (h : Over s.1 p v) :
    ∃ q, (originX s).2[k]? = some q ∧ Over (originX s).1 q v := by
  unfold originX
  split
  · obtain ⟨r, c, hr, hc, hv, ⟨t, h0, h1, ht⟩, hy⟩ := h
    refine ⟨(s.1.x1 + s.1.x0 - p.1, p.2), by simp [hp], r, c, hr, hc, hv, ⟨t, h0, h1, ?_⟩, hy⟩
    simp only [ht]; ring
  · exact ⟨p, hp, h⟩

theorem originY_over {s : State} {v : Rat} {k : Nat} {p : Rat × Rat} (hp : s.2[k]? = some p) (h : Over s.1 p v) :
    ∃ q, (originY s).2[k]? = some q ∧ Over (originY s).1 q v := by
  unfold originY
  split
  · obtain ⟨r, c, hr, hc, hv, hx, t, h0, h1, ht⟩ := h
    refine ⟨(p.1, s.1.y1 + s.1.y0 - p.2), by simp [hp], r, c, hr, hc, hv, hx, t, h0, h1, ?_⟩
    simp only [ht]; ring
  · exact ⟨p, hp, h⟩

/-- However the picture is transposed, flipped and redrawn, a marker stays on a pixel of the value it was on. -/
theorem arrange_over (o : Opt) {s : State} {v : Rat} {k : Nat} {p : Rat × Rat} (hp : s.2[k]? = some p) (h : Over s.1 p v) :
    ∃ q, (arrange o s).2[k]? = some q ∧ Over (arrange o s).1 q v := by
  have step : ∀ (b : Bool) (f : State → State) (s : State),
      (∀ p, s.2[k]? = some p → Over s.1 p v → ∃ q, (f s).2[k]? = some q ∧ Over (f s).1 q v) →
      ∀ p, s.2[k]? = some p → Over s.1 p v →
        ∃ q, (if b then f s else s).2[k]? = some q ∧ Over (if b then f s else s).1 q v := by
    intro b f s hf p hp h
    cases b
    · exact ⟨p, hp, h⟩
    · exact hf p hp h
  unfold arrange
  obtain ⟨p1, hp1, h1⟩ := step o.transpose transposeS s (fun _ a b => transpose_over a b) p hp h
  obtain ⟨p2, hp2, h2⟩ := step o.flipvert flipvertS _ (fun _ a b => flipvert_over a b) p1 hp1 h1
  obtain ⟨p3, hp3, h3⟩ := step o.fliphor fliphorS _ (fun _ a b => fliphor_over a b) p2 hp2 h2
  exact step o.defaultorigin (fun s => originY (originX s)) _
    (fun _ a b => by obtain ⟨q, hq, h⟩ := originX_over a b; exact originY_over hq h) p3 hp3 h3

theorem argsort_perm (v : List Rat) : (argsort v).Perm (List.range v.length) := Common.stableSort_perm _ _

theorem sorted_length (v : List Rat) : (sorted v).length = v.length := by
  simp [sorted, (argsort_perm v).length_eq]

theorem sorted_perm (v : List Rat) : (sorted v).Perm v := by
  have h := (argsort_perm v).map fun i => v.getD i 0
  have e : (List.range v.length).map (fun i => v.getD i 0) = v := by
    apply List.ext_getElem
    · simp
    · intro i h1 h2
      simp [List.getD_eq_getElem?_getD, List.getElem?_eq_getElem h2]
  rw [e] at h
  exact h

theorem sorted_regular {xs : List Rat} {a d : Rat} (h : Regular xs a d) :
    sorted xs = (List.range xs.length).map fun k : Nat => a + k * d := by
  have hs : (sorted xs).Pairwise (· ≤ ·) := by
    unfold sorted
    rw [List.pairwise_map]
    exact Common.stableSort_sorted _ _
  have hg : ((List.range xs.length).map fun k : Nat => a + k * d).Pairwise (· ≤ ·) := by
    rw [List.pairwise_map]
    refine List.pairwise_lt_range.imp ?_
    intro i j hij
    have : (i : Rat) ≤ j := by exact_mod_cast hij.le
    nlinarith [h.1]
  exact List.Perm.eq_of_pairwise (fun _ _ _ _ h1 h2 => le_antisymm h1 h2) hs hg ((sorted_perm xs).trans h.2)

theorem regular_increasing {xs : List Rat} {a d : Rat} (h : Regular xs a d) : (sorted xs).Pairwise (· < ·) := by
  rw [sorted_regular h, List.pairwise_map]
  refine List.pairwise_lt_range.imp ?_
  intro i j hij
  have : (i : Rat) < j := by exact_mod_cast hij
  nlinarith [h.1]

theorem regular_get {xs : List Rat} {a d : Rat} (h : Regular xs a d) {k : Nat} (hk : k < xs.length) :
    (sorted xs).getD k 0 = a + k * d := by
  rw [sorted_regular h]
  simp [List.getD_eq_getElem?_getD, hk]

theorem regular_grid {xs : List Rat} {a d : Rat} (h : Regular xs a d) (h2 : ¬ xs.length < 2) (k : Nat) :
    grid (sorted xs) k = a + k * d := by
  have hl : (xs.length - 1) + 1 = xs.length := by omega
  have hl' : ((xs.length - 1 : Nat) : Rat) = xs.length - 1 := by
    have : (((xs.length - 1) + 1 : Nat) : Rat) = xs.length := by rw [hl]
    push_cast at this; linarith
  have hn : (xs.length : Rat) - 1 ≠ 0 := by
    rw [← hl']
    have : xs.length - 1 ≠ 0 := by omega
    exact_mod_cast this
  unfold grid
  rw [sorted_length, regular_get h (by omega), regular_get h (by omega), hl']
  push_cast
  field_simp
  ring

/-- The rank of every coordinate. -/
theorem rank {xs : List Rat} {a d : Rat} (h : Regular xs a d) {c : Nat} (hc : c < xs.length) :
    ∃ k, k < xs.length ∧ (argsort xs).getD k 0 = c ∧ xs[c] = a + k * d := by
  have hm : c ∈ argsort xs := (argsort_perm xs).mem_iff.mpr (List.mem_range.mpr hc)
  obtain ⟨k, hk, e⟩ := List.getElem_of_mem hm
  have hk' : k < xs.length := by rwa [(argsort_perm xs).length_eq, List.length_range] at hk
  refine ⟨k, hk', by simp [List.getD_eq_getElem?_getD, hk, e], ?_⟩
  rw [← regular_get h hk']
  simp [sorted, List.getD_eq_getElem?_getD, hk, e, hc]

theorem clip_id {v : Rat} (h0 : 0 ≤ v) (h1 : v ≤ 1) : clip v = v := by simp [clip, h0, h1]

theorem frac {a d x : Rat} {k n : Nat} (hd : 0 < d) (hn : (n : Rat) ≠ 0) (h : |x - (a + k * d)| < d / 2) :
    ∃ t : Rat, 0 < t ∧ t < 1 ∧
      x = (a - d / 2) + (k + t) * ((a + ((n : Rat) - 1) * d + d / 2 - (a - d / 2)) / n) := by
  rw [abs_lt] at h
  refine ⟨(x - (a + k * d)) / d + 1 / 2, ?_, ?_, ?_⟩
  · have : -(1 / 2) < (x - (a + k * d)) / d := by rw [lt_div_iff₀ hd]; linarith [h.1]
    linarith
  · have : (x - (a + k * d)) / d < 1 / 2 := by rw [div_lt_iff₀ hd]; linarith [h.2]
    linarith
  · field_simp
    ring

theorem prepare_over {f : Interp} (hf : Interpolates f) {xs ys : List Rat} {ax dx ay dy : Rat}
    (hx : Regular xs ax dx) (hy : Regular ys ay dy) {img : Nat → Nat → Rat} {s : Pic} (hs : prepare f xs ys img = some s)
    {r c : Nat} (hr : r < ys.length) (hc : c < xs.length) (h0 : 0 ≤ img r c) (h1 : img r c ≤ 1)
    {p : Rat × Rat} (hpx : |p.1 - xs[c]| < dx / 2) (hpy : |p.2 - ys[r]| < dy / 2) : Over s p (img r c) := by
  unfold prepare at hs
  split at hs
  · cases hs
  · rename_i hl
    rw [not_or] at hl
    obtain ⟨kx, hkx, ex, vx⟩ := rank hx hc
    obtain ⟨ky, hky, ey, vy⟩ := rank hy hr
    have cast : ∀ n : Nat, ¬ n < 2 → ((n - 1 : Nat) : Rat) = n - 1 := by
      intro n hn
      have : (((n - 1) + 1 : Nat) : Rat) = n := by rw [show n - 1 + 1 = n from by omega]
      push_cast at this; linarith
    have ne : ∀ n : Nat, ¬ n < 2 → (n : Rat) ≠ 0 := by
      intro n hn
      have : n ≠ 0 := by omega
      exact_mod_cast this
    cases hs
    rw [vx] at hpx
    rw [vy] at hpy
    refine ⟨ky, kx, hky, hkx, ?_, ?_, ?_⟩
    · simp only
      rw [regular_grid hx hl.1, regular_grid hy hl.2]
      have hkx' : kx < (sorted xs).length := by rw [sorted_length]; exact hkx
      have hky' : ky < (sorted ys).length := by rw [sorted_length]; exact hky
      have e := hf (sorted xs) (sorted ys) (fun r c => img ((argsort ys).getD r 0) ((argsort xs).getD c 0)) ky kx hky' hkx'
        (regular_increasing hx) (regular_increasing hy)
      have gx : (sorted xs)[kx] = ax + kx * dx := by
        rw [← regular_get hx hkx]; simp [List.getD_eq_getElem?_getD, hkx']
      have gy : (sorted ys)[ky] = ay + ky * dy := by
        rw [← regular_get hy hky]; simp [List.getD_eq_getElem?_getD, hky']
      rw [gx, gy] at e
      rw [e, ex, ey]
      exact clip_id h0 h1
    · simp only [sorted_length]
      rw [regular_grid hx hl.1, regular_grid hx hl.1, regular_get hx (by omega), regular_get hx (by omega), cast _ hl.1]
      obtain ⟨t, a, b, e⟩ := frac (n := xs.length) hx.1 (ne _ hl.1) hpx
      refine ⟨t, a, b, ?_⟩
      rw [e]
      have := ne _ hl.1
      push_cast
      field_simp
      ring
    · simp only [sorted_length]
      rw [regular_grid hy hl.2, regular_grid hy hl.2, regular_get hy (by omega), regular_get hy (by omega), cast _ hl.2]
      obtain ⟨t, a, b, e⟩ := frac (n := ys.length) hy.1 (ne _ hl.2) hpy
      refine ⟨t, a, b, ?_⟩
      rw [e]
      have := ne _ hl.2
      push_cast
      field_simp
      ring

/-- A marker within half a step of a measured pixel is drawn on a pixel with the value of that one, whatever the
order of the coordinates and the options. -/
theorem show_over {f : Interp} (hf : Interpolates f) (o : Opt) {xs ys : List Rat} {ax dx ay dy : Rat}
    (hx : Regular xs ax dx) (hy : Regular ys ay dy) {img : Nat → Nat → Rat} {marks : List (Rat × Rat)} {s : State}
    (hs : showS f o xs ys img marks = some s) {k : Nat} {p : Rat × Rat} (hp : marks[k]? = some p)
    {r c : Nat} (hr : r < ys.length) (hc : c < xs.length) (h0 : 0 ≤ img r c) (h1 : img r c ≤ 1)
    (hpx : |p.1 - xs[c]| < dx / 2) (hpy : |p.2 - ys[r]| < dy / 2) :
    ∃ q, s.2[k]? = some q ∧ Over s.1 q (img r c) := by
  unfold showS at hs
  cases hP : prepare f xs ys img with
  | none => rw [hP] at hs; cases hs
  | some P =>
    rw [hP] at hs
    cases hs
    exact arrange_over o (s := (P, marks)) hp (prepare_over hf hx hy hP hr hc h0 h1 hpx hpy)

theorem regular_shift {xs : List Rat} {a d : Rat} (h : Regular xs a d) (m : Rat) :
    Regular (xs.map (· - m)) (a - m) d := by
  refine ⟨h.1, ?_⟩
  have := h.2.map (· - m)
  rw [List.map_map] at this
  rw [List.length_map]
  refine this.trans (List.Perm.of_eq ?_)
  apply List.map_congr_left
  intro k _
  simp only [Function.comp]
  ring

/-- The same with the axes and the positions shifted to start at zero. -/
theorem overlay_over {f : Interp} (hf : Interpolates f) (o : Opt) {dim1 dim2 : List Rat} {ax dx ay dy : Rat}
    (hx : Regular dim2 ax dx) (hy : Regular dim1 ay dy) {img : Nat → Nat → Rat} {marks : List (Rat × Rat)} {s : State}
    (hs : overlay f o dim1 dim2 img marks = some s) {k : Nat} {p : Rat × Rat} (hp : marks[k]? = some p)
    {r c : Nat} (hr : r < dim1.length) (hc : c < dim2.length) (h0 : 0 ≤ img r c) (h1 : img r c ≤ 1)
    (hpx : |p.1 - dim2[c]| < dx / 2) (hpy : |p.2 - dim1[r]| < dy / 2) :
    ∃ q, s.2[k]? = some q ∧ Over s.1 q (img r c) := by
  refine show_over hf o (regular_shift hx (minimum dim2)) (regular_shift hy (minimum dim1)) hs
    (p := (p.1 - minimum dim2, p.2 - minimum dim1)) (by simp [hp]) (by simpa using hr) (by simpa using hc) h0 h1 ?_ ?_
  · simpa using hpx
  · simpa using hpy

/-- The order of two markers along the vertical direction of the screen. -/
def height (s : Pic) (p : Rat × Rat) : Rat := (p.2 - s.y0) / (s.y1 - s.y0)
def across (s : Pic) (p : Rat × Rat) : Rat := (p.1 - s.x0) / (s.x1 - s.x0)

theorem prepare_extent {f : Interp} {xs ys : List Rat} {ax dx ay dy : Rat} (hx : Regular xs ax dx) (hy : Regular ys ay dy)
    {img : Nat → Nat → Rat} {s : Pic} (hs : prepare f xs ys img = some s) : s.x0 < s.x1 ∧ s.y0 < s.y1 := by
  unfold prepare at hs
  split at hs
  · cases hs
  · rename_i hl
    rw [not_or] at hl
    cases hs
    simp only [sorted_length]
    rw [regular_grid hx hl.1, regular_grid hx hl.1, regular_get hx (by omega), regular_get hx (by omega),
      regular_grid hy hl.2, regular_grid hy hl.2, regular_get hy (by omega), regular_get hy (by omega)]
    have a : (0 : Rat) ≤ ((xs.length - 1 : Nat) : Rat) := Nat.cast_nonneg _
    have b : (0 : Rat) ≤ ((ys.length - 1 : Nat) : Rat) := Nat.cast_nonneg _
    have := mul_nonneg a hx.1.le
    have := mul_nonneg b hy.1.le
    have := hx.1
    have := hy.1
    push_cast
    constructor <;> linarith

/-- With the option for the default origin the axes increase to the right and upwards. -/
theorem origin_increasing {f : Interp} {o : Opt} (ho : o.defaultorigin = true) {xs ys : List Rat} {ax dx ay dy : Rat}
    (hx : Regular xs ax dx) (hy : Regular ys ay dy) {img : Nat → Nat → Rat} {marks : List (Rat × Rat)} {s : State}
    (hs : showS f o xs ys img marks = some s) : s.1.x0 < s.1.x1 ∧ s.1.y0 < s.1.y1 := by
  unfold showS at hs
  cases hP : prepare f xs ys img with
  | none => rw [hP] at hs; cases hs
  | some P =>
    rw [hP] at hs
    cases hs
    obtain ⟨hx', hy'⟩ := prepare_extent hx hy hP
    have hx2 := hx'.le.not_gt
    have hy2 := hy'.le.not_gt
    obtain ⟨a, b, c, d⟩ := o
    cases ho
    cases a <;> cases b <;> cases c <;>
      simp [arrange, transposeS, flipvertS, fliphorS, originX, originY, hx', hy', hx2, hy2]

/-- Without it the markers keep their coordinates, so the numbers along the axes are true. -/
theorem markers_true {f : Interp} {o : Opt} (ho : o.defaultorigin = false) {xs ys : List Rat}
    {img : Nat → Nat → Rat} {marks : List (Rat × Rat)} {s : State} (hs : showS f o xs ys img marks = some s) :
    s.2 = if o.transpose then marks.map Prod.swap else marks := by
  unfold showS at hs
  cases hP : prepare f xs ys img with
  | none => rw [hP] at hs; cases hs
  | some P =>
    rw [hP] at hs
    cases hs
    obtain ⟨a, b, c, d⟩ := o
    cases ho
    cases a <;> cases b <;> cases c <;> simp [arrange, transposeS, flipvertS, fliphorS] <;> rfl

theorem neg_div_lt {a b c : Rat} (h : c < 0) : a / c < b / c ↔ b < a := by
  rw [← neg_div_neg_eq a, ← neg_div_neg_eq b, div_lt_div_iff_of_pos_right (by linarith)]
  exact neg_lt_neg_iff

/-- A picture is upside down exactly when the option says so, and left to right likewise, with every other
option. -/
theorem orientation {f : Interp} {o : Opt} {xs ys : List Rat} {ax dx ay dy : Rat}
    (hx : Regular xs ax dx) (hy : Regular ys ay dy) {img : Nat → Nat → Rat} {marks : List (Rat × Rat)} {s : State}
    (hs : showS f o xs ys img marks = some s) {i j : Nat} {p q p' q' : Rat × Rat}
    (hp : marks[i]? = some p) (hq : marks[j]? = some q) (hp' : s.2[i]? = some p') (hq' : s.2[j]? = some q') :
    (height s.1 p' < height s.1 q' ↔
      let u := if o.transpose then (p.1, q.1) else (p.2, q.2)
      if o.flipvert then u.2 < u.1 else u.1 < u.2) ∧
    (across s.1 p' < across s.1 q' ↔
      let u := if o.transpose then (p.2, q.2) else (p.1, q.1)
      if o.fliphor then u.2 < u.1 else u.1 < u.2) := by
  unfold showS at hs
  cases hP : prepare f xs ys img with
  | none => rw [hP] at hs; cases hs
  | some P =>
    rw [hP] at hs
    cases hs
    obtain ⟨hx', hy'⟩ := prepare_extent hx hy hP
    have hx2 := hx'.le.not_gt
    have hy2 := hy'.le.not_gt
    have ix : 0 < P.x1 - P.x0 := by linarith
    have iy : 0 < P.y1 - P.y0 := by linarith
    have jx : P.x0 - P.x1 < 0 := by linarith
    have jy : P.y0 - P.y1 < 0 := by linarith
    obtain ⟨a, b, c, d⟩ := o
    cases a <;> cases b <;> cases c <;> cases d <;>
      simp [arrange, transposeS, flipvertS, fliphorS, originX, originY, hx', hy', hx2, hy2, hp, hq] at hp' hq' ⊢ <;>
      subst hp' <;> subst hq' <;>
      simp [height, across, div_lt_div_iff_of_pos_right, neg_div_lt, ix, iy, jx, jy]

/-- Whichever of the two motors is scanned, the axis is the total position in micron. -/
theorem axisInfo_spec (coarse fine : String) (hn : coarse ≠ fine) (vc vf : Rat) (l : List (String × Rat))
    (hc : ∀ v, (coarse, v) ∈ l → v = vc) (hf : ∀ v, (fine, v) ∈ l → v = vf) (a : Option Rat × String × Rat)
    (ha : a.1 = none ∨ a = (some (vc * 1000), fine, 1) ∨ a = (some vf, coarse, 1000)) :
    (∃ v, (coarse, v) ∈ l ∨ (fine, v) ∈ l) ∨ a.1 ≠ none →
    axisInfo coarse fine l a = (some (vc * 1000), fine, 1) ∨ axisInfo coarse fine l a = (some vf, coarse, 1000) := by
  induction l generalizing a with
  | nil =>
    intro h
    simp only [List.not_mem_nil, or_self, exists_false, false_or] at h
    rcases ha with ha | ha
    · exact absurd ha h
    · exact ha
  | cons x l ih =>
    obtain ⟨n, v⟩ := x
    intro h
    have hc' := fun v h => hc v (List.mem_cons_of_mem _ h)
    have hf' := fun v h => hf v (List.mem_cons_of_mem _ h)
    unfold axisInfo
    by_cases h1 : n = coarse
    · subst h1
      have := hc v (by simp)
      subst this
      simp only [if_true, hn, if_false]
      exact ih hc' hf' _ (.inr (.inl rfl)) (.inr (by simp))
    · by_cases h2 : n = fine
      · subst h2
        have := hf v (by simp)
        subst this
        simp only [if_true]
        exact ih hc' hf' _ (.inr (.inr rfl)) (.inr (by simp))
      · simp only [h1, h2, if_false]
        apply ih hc' hf' _ ha
        rcases h with ⟨w, h | h⟩ | h
        · simp only [List.mem_cons, Prod.mk.injEq, Ne.symm h1, false_and, false_or] at h
          exact .inl ⟨w, .inl h⟩
        · simp only [List.mem_cons, Prod.mk.injEq, Ne.symm h2, false_and, false_or] at h
          exact .inl ⟨w, .inr h⟩
        · exact .inr h

/-- A point measurement at the motor positions of a pixel has the coordinate of the pixel: with the coarse motor
at `vc` and the fine one scanned, or the fine one at `vf` and the coarse one scanned. -/
theorem axis_position (coarse fine : String) (hn : coarse ≠ fine) (vc vf : Rat) (fixed : List (String × Rat))
    (hc : ∀ v, (coarse, v) ∈ fixed → v = vc) (hf : ∀ v, (fine, v) ∈ fixed → v = vf)
    (he : ∃ v, (coarse, v) ∈ fixed ∨ (fine, v) ∈ fixed) (scanned : String → Option (List Rat)) (l : List Rat)
    (h : axisValues coarse fine fixed scanned = some l) :
    (∃ m, scanned fine = some m ∧ l = m.map fun v => position vc v 0) ∨
    (∃ m, scanned coarse = some m ∧ l = m.map fun v => position v vf 0) := by
  unfold axisValues at h
  rcases axisInfo_spec coarse fine hn vc vf fixed hc hf (none, coarse, 1) (.inl rfl) (.inl he) with e | e
  · rw [e] at h
    cases hm : scanned fine with
    | none => simp [hm] at h
    | some m =>
      simp only [hm, Option.map_some, Option.some.injEq] at h
      refine .inl ⟨m, rfl, h.symm.trans ?_⟩
      apply List.map_congr_left
      intro v _
      simp only [position]; ring
  · rw [e] at h
    cases hm : scanned coarse with
    | none => simp [hm] at h
    | some m =>
      simp only [hm, Option.map_some, Option.some.injEq] at h
      refine .inr ⟨m, rfl, h.symm.trans ?_⟩
      apply List.map_congr_left
      intro v _
      simp only [position]; ring

/-- Without a fixed motor the axis can not be made, the default coordinates are unusable. -/
theorem axis_fails (coarse fine : String) (fixed : List (String × Rat)) (h : ∀ x ∈ fixed, x.1 ≠ coarse ∧ x.1 ≠ fine)
    (scanned : String → Option (List Rat)) : axisValues coarse fine fixed scanned = none := by
  have : ∀ a, axisInfo coarse fine fixed a = a := by
    induction fixed with
    | nil => intro a; rfl
    | cons x l ih =>
      intro a
      obtain ⟨n, v⟩ := x
      have := h _ (List.mem_cons_self)
      unfold axisInfo
      simp only [this.1, this.2, if_false]
      exact ih (fun y hy => h y (List.mem_cons_of_mem _ hy)) a
  unfold axisValues
  rw [this]

theorem clip_range (x : Rat) : 0 ≤ clip x ∧ clip x ≤ 1 := by
  unfold clip
  exact ⟨le_max_left _ _, max_le (by norm_num) (min_le_left _ _)⟩

/-- Intensities are between zero and one. -/
theorem intensity_range {lo hi v i : Rat} {img : List Rat} (h : intensity lo hi img v = some i) : 0 ≤ i ∧ i ≤ 1 := by
  unfold intensity at h
  simp only at h
  split at h
  · cases h
  · cases h; exact clip_range _

/-- A larger value is not darker, and the low end of the range is black. -/
theorem intensity_mono {lo hi v w i j : Rat} {img : List Rat} (hr : 0 < (colourRange lo hi img).2)
    (h : intensity lo hi img v = some i) (h' : intensity lo hi img w = some j) (hvw : v ≤ w) :
    i ≤ j ∧ (v ≤ (colourRange lo hi img).1 → i = 0) := by
  unfold intensity at h h'
  simp only [hr.ne', if_false, Option.some.injEq] at h h'
  subst h h'
  constructor
  · unfold clip
    have : (v - (colourRange lo hi img).1) / (colourRange lo hi img).2 ≤ (w - (colourRange lo hi img).1) / (colourRange lo hi img).2 := by
      gcongr
    exact max_le_max (le_refl _) (min_le_min (le_refl _) this)
  · intro hv
    unfold clip
    have : (v - (colourRange lo hi img).1) / (colourRange lo hi img).2 ≤ 0 :=
      div_nonpos_of_nonpos_of_nonneg (by linarith) hr.le
    exact max_eq_left ((min_le_right _ _).trans this)

/-- A value has full intensity when it is at least the sum of both ends of the range: the difference with the low
end is divided by the high end, not by the difference of the ends. -/
theorem intensity_full {lo hi v : Rat} {img : List Rat} (hr : 0 < (colourRange lo hi img).2) :
    intensity lo hi img v = some 1 ↔ (colourRange lo hi img).1 + (colourRange lo hi img).2 ≤ v := by
  unfold intensity
  simp only [hr.ne', if_false, Option.some.injEq]
  have key : 1 ≤ (v - (colourRange lo hi img).1) / (colourRange lo hi img).2 ↔
      (colourRange lo hi img).1 + (colourRange lo hi img).2 ≤ v := by
    rw [le_div_iff₀ hr]; constructor <;> intro h <;> linarith
  rw [← key]
  unfold clip
  constructor
  · intro h
    by_contra hn
    rw [not_le] at hn
    have : max 0 (min 1 ((v - (colourRange lo hi img).1) / (colourRange lo hi img).2)) < 1 :=
      max_lt (by norm_num) ((min_le_right _ _).trans_lt hn)
    exact this.ne h
  · intro h
    rw [min_eq_left h]; norm_num

/-- With a range that starts at zero the high end has full intensity. -/
theorem intensity_top {lo hi v : Rat} {img : List Rat} (hr : 0 < (colourRange lo hi img).2)
    (h0 : (colourRange lo hi img).1 = 0) (hv : (colourRange lo hi img).2 ≤ v) : intensity lo hi img v = some 1 := by
  rw [intensity_full hr, h0]; linarith

/-- On a background the brightest pixel of the full range is nearly black. -/
theorem intensity_background : intensity 0 1 [9, 10] 10 = some (1 / 10) := by decide +kernel

/-- Negative images (logarithms of values below one) come out reversed. -/
theorem intensity_negative : intensity 0 1 [-3, -2, -1] (-1) = some 0 ∧ colourRange 0 1 [-3, -2, -1] = (-3, -1) := by
  decide +kernel

example : Regular [3, 1, 2] 1 1 := ⟨by norm_num, by decide +kernel⟩

/-- A surface through its data exists. -/
def nearest : Interp := fun x y z a b => z (y.idxOf b) (x.idxOf a)

example : Interpolates nearest := by
  intro x y z r c hr hc hx hy
  simp only [nearest]
  have nx : x.Nodup := hx.imp (fun h => h.ne)
  have ny : y.Nodup := hy.imp (fun h => h.ne)
  rw [List.Nodup.idxOf_getElem nx, List.Nodup.idxOf_getElem ny]

example : (overlay nearest ⟨true, true, false, true⟩ [7, 6] [12, 11, 10] (fun r c => (r + c) / 4) [(12, 6)]).map (·.2)
    = some [(0, 0)] := by decide +kernel

example : axisValues "samz" "sampz" [("samz", 2)] (fun n => if n = "sampz" then some [10, 20] else none)
    = some [2010, 2020] := by decide +kernel

example : 0 < (colourRange 0 1 [0, 10]).2 ∧ (colourRange 0 1 [0, 10]).1 = 0 := by decide +kernel

end SC.Overlay
