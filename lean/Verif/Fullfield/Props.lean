import Verif.Fullfield.Spec
import Mathlib.Tactic.Ring
import Mathlib.Tactic.FieldSimp
import Mathlib.Tactic.Linarith
/-! # Pixels, regions, bins and axes -/
namespace SC.Fullfield

open SC.Py

/-! ## Rebinning -/

/-- A bin is the sum of its pixels. -/
theorem rebin_spec (img : Img) (r : Nat × Nat) (i j : Nat) (hj : j < img.cols / r.2) :
    (execrebin img r).px i j = boxSum img.px (i * r.1) (j * r.2) r := by
  have hr : 0 < r.2 := by
    rcases Nat.eq_zero_or_pos r.2 with h | h
    · rw [h, Nat.div_zero] at hj; omega
    · exact h
  simp only [execrebin, boxSum]
  congr 1
  apply List.map_congr_left
  intro a _
  congr 1
  apply List.map_congr_left
  intro b hb
  have hb : b < r.2 := List.mem_range.1 hb
  have hlt : j * r.2 + b < img.cols / r.2 * r.2 := by
    calc j * r.2 + b < j * r.2 + r.2 := by omega
      _ = (j + 1) * r.2 := by ring
      _ ≤ _ := Nat.mul_le_mul_right _ hj
  have hk : ((i * r.1 + a) * (img.cols / r.2) + j) * r.2 + b = (j * r.2 + b) + (img.cols / r.2 * r.2) * (i * r.1 + a) := by ring
  simp only [view4, hk]
  rw [Nat.add_mul_div_left _ _ (by omega), Nat.add_mul_mod_self_left, Nat.div_eq_of_lt hlt, Nat.mod_eq_of_lt hlt, Nat.zero_add]

/-- Bins of one pixel. -/
theorem rebin_one (img : Img) : SameImg (execrebin img (1, 1)) img := by
  refine ⟨by simp [execrebin], by simp [execrebin], fun i j hi hj => ?_⟩
  have hj' : j < img.cols / 1 := by simpa [execrebin] using hj
  rw [rebin_spec img (1, 1) i j hj']
  simp [boxSum, List.range_succ]

theorem sum_add {α : Type} (l : List α) (f g : α → ℚ) : (l.map fun x => f x + g x).sum = (l.map f).sum + (l.map g).sum := by
  induction l with
  | nil => simp
  | cons a l ih => simp [ih]; ring

theorem sum_mul {α : Type} (l : List α) (c : ℚ) (f : α → ℚ) : (l.map fun x => c * f x).sum = c * (l.map f).sum := by
  induction l with
  | nil => simp
  | cons a l ih => simp [ih]; ring

theorem sum_const {α : Type} (l : List α) (c : ℚ) : (l.map fun _ => c).sum = l.length * c := by
  induction l with
  | nil => simp
  | cons a l ih => simp [ih]; ring

theorem sum_range_add (m n : Nat) (f : Nat → ℚ) :
    ((List.range (m + n)).map f).sum = ((List.range m).map f).sum + ((List.range n).map fun i => f (m + i)).sum := by
  rw [List.range_add, List.map_append, List.sum_append, List.map_map]
  rfl

/-- The sum over all bins along an axis is the sum over the pixels. -/
theorem sum_bins (n d : Nat) (f : Nat → ℚ) :
    ((List.range n).map fun i => ((List.range d).map fun a => f (i * d + a)).sum).sum = ((List.range (n * d)).map f).sum := by
  induction n with
  | zero => simp
  | succ n ih => rw [List.range_succ, List.map_append, List.sum_append, ih, Nat.succ_mul, sum_range_add]; simp

theorem sum_swap (m n : Nat) (f : Nat → Nat → ℚ) :
    ((List.range m).map fun i => ((List.range n).map fun j => f i j).sum).sum =
    ((List.range n).map fun j => ((List.range m).map fun i => f i j).sum).sum := by
  induction m with
  | zero => simp [sum_const]
  | succ m ih =>
    simp only [List.range_succ, List.map_append, List.sum_append, List.map_cons, List.map_nil, List.sum_cons, List.sum_nil, add_zero]
    rw [sum_add, ih]

/-- Rebinning keeps the total of the pixels that fit in bins. -/
theorem rebin_total (img : Img) (r : Nat × Nat) :
    boxSum (execrebin img r).px 0 0 (img.rows / r.1, img.cols / r.2) =
    boxSum img.px 0 0 (img.rows / r.1 * r.1, img.cols / r.2 * r.2) := by
  have h1 : boxSum (execrebin img r).px 0 0 (img.rows / r.1, img.cols / r.2) =
      ((List.range (img.rows / r.1)).map fun i => ((List.range r.1).map fun a =>
        ((List.range (img.cols / r.2)).map fun j => ((List.range r.2).map fun b => img.px (i * r.1 + a) (j * r.2 + b)).sum).sum).sum).sum := by
    unfold boxSum
    congr 1
    apply List.map_congr_left
    intro i _
    rw [sum_swap]
    congr 1
    apply List.map_congr_left
    intro j hj
    rw [Nat.zero_add, Nat.zero_add, rebin_spec img r i j (List.mem_range.1 hj)]
    rfl
  rw [h1]
  simp only [boxSum, Nat.zero_add]
  rw [← sum_bins (img.rows / r.1) r.1]
  congr 1
  apply List.map_congr_left
  intro i _
  congr 1
  apply List.map_congr_left
  intro a _
  exact sum_bins _ _ fun c => img.px (i * r.1 + a) c

/-! ## Regions -/

/-- Python's ends and those of the axes are the same for a region in the image. -/
theorem ends_agree (n : Nat) (e : Option Int × Option Int) (h : InBounds n e) :
    (sliceBound n 0 e.1 : Int) = axisEnd n 0 e.1 ∧ (sliceBound n n e.2 : Int) = axisEnd n n e.2 := by
  obtain ⟨h1, h2, h3⟩ := h
  have hs : ∀ (d : Nat) (x : Option Int), 0 ≤ axisEnd n d x → axisEnd n d x ≤ n → (sliceBound n d x : Int) = axisEnd n d x := by
    intro d x ha hb
    cases x with
    | none => rfl
    | some i =>
      simp only [axisEnd, sliceBound] at ha hb ⊢
      split at ha <;> rename_i hi
      · rw [if_pos hi] at hb ⊢
        rw [if_pos hi]; omega
      · rw [if_neg hi] at hb ⊢
        rw [if_neg hi]; omega
  exact ⟨hs 0 e.1 h1 (by simpa using h2.trans h3), hs n e.2 (h1.trans h2) h3⟩

/-- The pixels after cropping and rebinning. -/
theorem procraw_pixel (p : Params) (img : Img) (hr : 0 < p.rebin.1 ∧ 0 < p.rebin.2) (i j : Nat) (hj : j < (procraw p img).cols) :
    (procraw p img).px i j = boxSum img.px ((p.roi.map fun r => first img.rows r.1).getD 0 + i * p.rebin.1)
      ((p.roi.map fun r => first img.cols r.2).getD 0 + j * p.rebin.2) p.rebin := by
  have key : ∀ (x : Img), j < (if 1 < p.rebin.1 ∨ 1 < p.rebin.2 then execrebin x p.rebin else x).cols →
      (if 1 < p.rebin.1 ∨ 1 < p.rebin.2 then execrebin x p.rebin else x).px i j = boxSum x.px (i * p.rebin.1) (j * p.rebin.2) p.rebin := by
    intro x hx
    split at hx
    · next hb => rw [if_pos hb]; exact rebin_spec x p.rebin i j hx
    · next hb =>
      rw [if_neg hb]
      have e1 : p.rebin.1 = 1 := by omega
      have e2 : p.rebin.2 = 1 := by omega
      simp [boxSum, e1, e2, List.range_succ]
  unfold procraw at hj ⊢
  cases hroi : p.roi with
  | none =>
    rw [hroi] at hj
    simp only at hj ⊢
    rw [key img hj]
    simp
  | some roi =>
    rw [hroi] at hj
    simp only at hj ⊢
    rw [key (execroi img roi) hj]
    simp only [execroi, boxSum, Option.map_some, Option.getD_some, first, Nat.add_assoc]

/-- Number of rows or columns after cropping and rebinning. -/
def size (n : Nat) (e : Option (Option Int × Option Int)) (d : Nat) : Nat :=
  (match e with
    | none => n
    | some e => sliceBound n n e.2 - sliceBound n 0 e.1) / d

theorem procraw_shape (p : Params) (img : Img) (hr : 0 < p.rebin.1 ∧ 0 < p.rebin.2) :
    (procraw p img).rows = size img.rows (p.roi.map Prod.fst) p.rebin.1 ∧ (procraw p img).cols = size img.cols (p.roi.map Prod.snd) p.rebin.2 := by
  have key : ∀ (x : Img), (if 1 < p.rebin.1 ∨ 1 < p.rebin.2 then execrebin x p.rebin else x).rows = x.rows / p.rebin.1 ∧
      (if 1 < p.rebin.1 ∨ 1 < p.rebin.2 then execrebin x p.rebin else x).cols = x.cols / p.rebin.2 := by
    intro x
    split
    · exact ⟨rfl, rfl⟩
    · have e1 : p.rebin.1 = 1 := by omega
      have e2 : p.rebin.2 = 1 := by omega
      simp [e1, e2]
  unfold procraw size
  cases hroi : p.roi with
  | none => exact key img
  | some roi => exact key (execroi img roi)

/-! ## Axes -/

/-- The mean of d numbers from c on. -/
theorem mean_range (c : ℚ) (d : Nat) (hd : 0 < d) :
    ((List.range d).map fun (a : Nat) => c + (a : ℚ)).sum / d = c + ((d : ℚ) - 1) / 2 := by
  have h : ∀ d : Nat, ((List.range d).map fun (a : Nat) => c + (a : ℚ)).sum = d * c + d * ((d : ℚ) - 1) / 2 := by
    intro d
    induction d with
    | zero => simp
    | succ d ih =>
      rw [List.range_succ, List.map_append, List.sum_append, ih]
      simp
      ring
  rw [h]
  have : (d : ℚ) ≠ 0 := by exact_mod_cast hd.ne'
  field_simp

/-- An axis has one value for each row or column of the image: the mean position, on the camera, of the pixels that are
summed. -/
theorem axis_spec (x0 n : Nat) (e : Option (Option Int × Option Int)) (d : Nat) (hd : 0 < d)
    (hb : ∀ r, e = some r → InBounds n r) :
    ∃ l, axisvalues x0 n e d = .ok l ∧ l.length = size n e d ∧ ∀ i, i < size n e d →
      l[i]? = some (((List.range d).map fun a => ((x0 + ((e.map (first n)).getD 0 + i * d + a) : Nat) : ℚ)).sum / d) := by
  have key : ∀ (x1 w : Nat), ∃ l, linspace ((x1 : ℚ) + ((d : ℚ) - 1) / 2) ((x1 : ℚ) + ((d : ℚ) - 1) / 2 + ((((w : Int) / (d : Int) : Int) : ℚ) - 1) * d)
      ((w : Int) / (d : Int)) = .ok l ∧ l.length = w / d ∧ ∀ i, i < w / d →
      l[i]? = some (((List.range d).map fun a => ((x1 + (i * d + a) : Nat) : ℚ)).sum / d) := by
    intro x1 w
    have hw : ((w : Int) / (d : Int)) = ((w / d : Nat) : Int) := by simp
    rw [hw]
    unfold linspace
    rw [if_neg (Int.not_lt.2 (Int.natCast_nonneg _))]
    refine ⟨_, rfl, by rw [List.length_map, List.length_range, Int.toNat_natCast], fun i hi => ?_⟩
    simp only [Int.toNat_natCast]
    rw [List.getElem?_map, List.getElem?_range hi]
    simp only [Option.map_some, Option.some.injEq]
    have hm : ((List.range d).map fun a => ((x1 + (i * d + a) : Nat) : ℚ)).sum / d =
        ((List.range d).map fun (a : Nat) => ((x1 : ℚ) + i * d) + (a : ℚ)).sum / d := by
      congr 2
      apply List.map_congr_left
      intro a _
      push_cast
      ring
    rw [hm, mean_range _ d hd]
    rcases Nat.lt_or_ge 1 (w / d) with h1 | h1
    · have : ((w / d : Nat) : ℚ) - 1 ≠ 0 := by
        have : (1 : ℚ) < ((w / d : Nat) : ℚ) := by exact_mod_cast h1
        intro h; linarith
      rw [Int.cast_natCast]
      generalize ((w / d : Nat) : ℚ) = k at this
      field_simp
      ring
    · have hi0 : i = 0 := by omega
      subst hi0
      simp
  cases e with
  | none =>
    obtain ⟨l, h1, h2, h3⟩ := key x0 n
    refine ⟨l, ?_, h2, fun i hi => ?_⟩
    · unfold axisvalues; simpa using h1
    · rw [h3 i hi]; simp
  | some r =>
    obtain ⟨ha, hb'⟩ := ends_agree n r (hb r rfl)
    have hle := (hb r rfl).2.1
    rw [← ha, ← hb'] at hle
    obtain ⟨l, h1, h2, h3⟩ := key (x0 + sliceBound n 0 r.1) (sliceBound n n r.2 - sliceBound n 0 r.1)
    refine ⟨l, ?_, h2, fun i hi => ?_⟩
    · unfold axisvalues
      simp only
      rw [← ha, ← hb']
      have hsub : ((sliceBound n n r.2 : Int) - (sliceBound n 0 r.1 : Int)) = ((sliceBound n n r.2 - sliceBound n 0 r.1 : Nat) : Int) := by omega
      rw [hsub]
      rw [← h1]
      push_cast
      rfl
    · rw [h3 i hi]
      simp only [Option.map_some, Option.getD_some, first]
      congr 3
      apply List.map_congr_left
      intro a _
      push_cast
      ring

/-- Axes and image belong together: pixel (i, j) is the sum of the pixels of the camera whose mean position is
`row[i]`, `col[j]`. -/
theorem axes_spec (p : Params) (img : Img) (cam : CamRoi) (hr : 0 < p.rebin.1 ∧ 0 < p.rebin.2)
    (hs : img.rows = cam.ny ∧ img.cols = cam.nx)
    (hb : ∀ r, p.roi = some r → InBounds img.rows r.1 ∧ InBounds img.cols r.2) :
    ∃ row col, axesvalues cam p = .ok (row, col) ∧ row.length = (procraw p img).rows ∧ col.length = (procraw p img).cols ∧
      ∀ i j, i < (procraw p img).rows → j < (procraw p img).cols → ∃ r0 c0, (procraw p img).px i j = boxSum img.px r0 c0 p.rebin ∧
        row[i]? = some (((List.range p.rebin.1).map fun a => ((cam.y0 + (r0 + a) : Nat) : ℚ)).sum / p.rebin.1) ∧
        col[j]? = some (((List.range p.rebin.2).map fun a => ((cam.x0 + (c0 + a) : Nat) : ℚ)).sum / p.rebin.2) := by
  obtain ⟨row, a1, a2, a3⟩ := axis_spec cam.y0 cam.ny (p.roi.map Prod.fst) p.rebin.1 hr.1 (by
    intro r h
    obtain ⟨q, hq, rfl⟩ := Option.map_eq_some_iff.1 h
    rw [← hs.1]; exact (hb q hq).1)
  obtain ⟨col, b1, b2, b3⟩ := axis_spec cam.x0 cam.nx (p.roi.map Prod.snd) p.rebin.2 hr.2 (by
    intro r h
    obtain ⟨q, hq, rfl⟩ := Option.map_eq_some_iff.1 h
    rw [← hs.2]; exact (hb q hq).2)
  obtain ⟨s1, s2⟩ := procraw_shape p img hr
  rw [← hs.1] at a2 a3
  rw [← hs.2] at b2 b3
  rw [← s1] at a2 a3
  rw [← s2] at b2 b3
  refine ⟨row, col, by unfold axesvalues; rw [a1, b1], a2, b2, fun i j hi hj => ?_⟩
  refine ⟨_, _, procraw_pixel p img hr i j hj, ?_, ?_⟩
  · rw [a3 i hi, Option.map_map]; rfl
  · rw [b3 j hj, Option.map_map]; rfl

/-- A region that ends outside of the camera: the axis is longer than the image. -/
theorem axis_too_long : ∃ (p : Params) (img : Img), (procraw p img).rows = 4 ∧
    (axesvalues ⟨0, 0, img.rows, img.cols⟩ p).toOption.map (fun q => q.1.length) = some 6 :=
  ⟨⟨some ((none, some 6), (none, none)), (1, 1), [], [], [], [], [], 0, 0, [], [], false, false, false⟩, ⟨4, 3, fun _ _ => 1⟩,
    by decide +kernel, by decide +kernel⟩

example : (axesvalues ⟨10, 20, 4, 6⟩ ⟨some ((some 1, none), (none, some (-1))), (2, 2), [], [], [], [], [], 0, 0, [], [], false, false, false⟩).toOption =
    some ([23 / 2], [41 / 2, 45 / 2]) := by decide +kernel

/-! ## Linearity -/

theorem boxSum_add (f g : Nat → Nat → ℚ) (r c : Nat) (n : Nat × Nat) :
    boxSum (fun i j => f i j + g i j) r c n = boxSum f r c n + boxSum g r c n := by
  unfold boxSum
  rw [← sum_add]
  congr 1
  apply List.map_congr_left
  intro a _
  exact sum_add _ _ _

theorem boxSum_mul (q : ℚ) (f : Nat → Nat → ℚ) (r c : Nat) (n : Nat × Nat) :
    boxSum (fun i j => q * f i j) r c n = q * boxSum f r c n := by
  unfold boxSum
  rw [← sum_mul]
  congr 1
  apply List.map_congr_left
  intro a _
  exact sum_mul _ _ _

theorem boxSum_const (q : ℚ) (r c : Nat) (n : Nat × Nat) : boxSum (fun _ _ => q) r c n = n.1 * n.2 * q := by
  unfold boxSum
  simp only [sum_const, List.length_range]
  ring

/-- The shape after cropping and rebinning depends on the shape only. -/
theorem procraw_same (p : Params) (a b : Img) (hr : 0 < p.rebin.1 ∧ 0 < p.rebin.2) (h : SameShape a b) :
    SameShape (procraw p a) (procraw p b) := by
  obtain ⟨a1, a2⟩ := procraw_shape p a hr
  obtain ⟨b1, b2⟩ := procraw_shape p b hr
  exact ⟨by rw [a1, b1, h.1], by rw [a2, b2, h.2]⟩

/-- Combinations of images are cropped and rebinned as the images are. -/
theorem procraw_linear (p : Params) (hr : 0 < p.rebin.1 ∧ 0 < p.rebin.2) (m n : Nat) (x y : ℚ) (f g : Nat → Nat → ℚ) (i j : Nat)
    (hj : j < (procraw p ⟨m, n, f⟩).cols) :
    (procraw p ⟨m, n, fun i j => x * f i j + y * g i j⟩).px i j = x * (procraw p ⟨m, n, f⟩).px i j + y * (procraw p ⟨m, n, g⟩).px i j := by
  have e1 := (procraw_same p ⟨m, n, f⟩ ⟨m, n, g⟩ hr ⟨rfl, rfl⟩).2
  have e2 := (procraw_same p ⟨m, n, f⟩ ⟨m, n, fun i j => x * f i j + y * g i j⟩ hr ⟨rfl, rfl⟩).2
  rw [procraw_pixel p _ hr i j (e2 ▸ hj), procraw_pixel p _ hr i j hj, procraw_pixel p _ hr i j (e1 ▸ hj)]
  simp only
  rw [boxSum_add, boxSum_mul, boxSum_mul]

end SC.Fullfield
