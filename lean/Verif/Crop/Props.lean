import Verif.Crop.Lemmas3
/-! # C25: automatic cropping returns the bounding box of the valid pixels

The specification below is about pixels of the grid and boxes of pixels; it does not mention masks,
sums or loops. -/
namespace SC.Crop
open SC.Numpy SC.Py

/-! ## Specification -/

/-- A pixel has the value to be removed; NaN is not equal to itself unless `nanval` is `np.nan`. -/
def BadPx : NanVal → Px → Prop
  | .npnan, x => x = none
  | .value v, x => ∃ q, x = some q ∧ v = some q

/-- The pixel `p` is valid in all images of the stack. -/
def Valid (a : Arr Px) (nv : NanVal) (sd : Nat) (p : List Nat) : Prop :=
  InB p a.shape ∧ ∀ k, k < a.shape.getD sd 0 → ¬ BadPx nv (a.get (p.set sd k))

/-- The pixel `p` is in the box. -/
def InBox (roi : List (Nat × Nat)) (p : List Nat) : Prop :=
  p.length = roi.length ∧ ∀ g, g < roi.length → (roi.getD g (0, 0)).1 ≤ p.getD g 0 ∧ p.getD g 0 < (roi.getD g (0, 0)).2

/-- The box is not empty and does not exceed the shape. -/
def Fits (roi : List (Nat × Nat)) (s : List Nat) : Prop :=
  roi.length = s.length ∧ ∀ g, g < s.length → (roi.getD g (0, 0)).1 < (roi.getD g (0, 0)).2 ∧ (roi.getD g (0, 0)).2 ≤ s.getD g 0

/-- The first box lies in the second. -/
def Within (r1 r2 : List (Nat × Nat)) : Prop :=
  r1.length = r2.length ∧ ∀ g, g < r1.length → (r2.getD g (0, 0)).1 ≤ (r1.getD g (0, 0)).1 ∧ (r1.getD g (0, 0)).2 ≤ (r2.getD g (0, 0)).2

theorem bad_iff (nv : NanVal) (x : Px) : isBad nv x = true ↔ BadPx nv x := by
  cases nv with
  | npnan => simp [isBad, BadPx]
  | value v =>
    cases x with
    | none => simp [isBad, BadPx, ieeeEq]
    | some q =>
      cases v with
      | none => simp [isBad, BadPx, ieeeEq]
      | some w => simp [isBad, BadPx, ieeeEq, eq_comm]

/-- Validity of a grid pixel is the mask value of the corresponding mask pixel. -/
theorem valid_mask (a : Arr Px) (nv : NanVal) (sd : Nat) (hsd : sd < a.shape.length) (r : List Nat) (k : Nat)
    (hr : InB r (a.shape.eraseIdx sd)) (hk : k < a.shape.getD sd 0) :
    Valid a nv sd (r.insertIdx sd k) ↔ maskWhole a sd nv r = true := by
  have hl : sd ≤ r.length := by rw [hr.length, List.length_eraseIdx_of_lt hsd]; omega
  rw [maskWhole_all]
  simp only [List.all_eq_true, List.mem_range, Bool.not_eq_true', Valid, inB_join hsd hk hr, true_and, insert_set _ _ _ _ hl]
  constructor
  · intro h x hx
    have := h x hx
    rw [← bad_iff] at this
    simpa using this
  · intro h x hx
    rw [← bad_iff, h x hx]; simp

theorem getD_roi (len : Nat) (f : Nat → Nat × Nat) (g : Nat) (hg : g < len) :
    ((List.range' 0 len).map f).getD g (0, 0) = f g := by
  rw [List.getD_eq_getElem?_getD, List.getElem?_map, ← List.range_eq_range', List.getElem?_range hg]; rfl

theorem length_roi (len : Nat) (f : Nat → Nat × Nat) : ((List.range' 0 len).map f).length = len := by simp

theorem exists_mask (a : Arr Px) (nv : NanVal) (sd : Nat) (hsd : sd < a.shape.length) (h : ∃ p, Valid a nv sd p) :
    ∃ r, InB r (a.shape.eraseIdx sd) ∧ maskWhole a sd nv r = true := by
  obtain ⟨p, hp⟩ := h
  obtain ⟨k, r, hk, hr, rfl⟩ := inB_split hsd hp.1
  exact ⟨r, hr, (valid_mask a nv sd hsd r k hr hk).1 hp⟩

theorem no_mask (a : Arr Px) (nv : NanVal) (sd : Nat) (hsd : sd < a.shape.length) (hn : 0 < a.shape.getD sd 0)
    (h : ¬ ∃ p, Valid a nv sd p) (r : List Nat) (hr : InB r (a.shape.eraseIdx sd)) : maskWhole a sd nv r = false := by
  by_contra hne
  exact h ⟨r.insertIdx sd 0, (valid_mask a nv sd hsd r 0 hr hn).2 (by simpa using hne)⟩

/-! ## Sliced and unsliced -/

/-- **The sliced and the unsliced computation agree**: for every stack, stack dimension, `nanval` and
`nanfull`. -/
theorem sliced_eq_unsliced (a : Arr Px) (sd : Nat) (nv : NanVal) (nf : Bool) (h : sd < a.shape.length) :
    calccroproi a sd nv nf true = calccroproi a sd nv nf false := by
  rw [calc_whole a sd nv nf true h, calc_whole a sd nv nf false h]

/-! ## nanfull=False: the bounding box -/

/-- **The ROI is the bounding box** (`nanfull=False`): when some pixel is valid in all images, the ROI
fits in the grid, contains every valid pixel, lies in every box that contains all of them, and keeps
the whole stack dimension. -/
theorem bounding_box (a : Arr Px) (sd : Nat) (nv : NanVal) (sl : Bool) (hsd : sd < a.shape.length)
    (h : ∃ p, Valid a nv sd p) :
    ∃ roi, calccroproi a sd nv false sl = some (some roi) ∧ Fits roi a.shape ∧
      (∀ p, Valid a nv sd p → InBox roi p) ∧
      (∀ roi', (∀ p, Valid a nv sd p → InBox roi' p) → Within roi roi') ∧
      roi.getD sd (0, 0) = (0, a.shape.getD sd 0) := by
  have hn : 0 < a.shape.getD sd 0 := by
    obtain ⟨p, hp⟩ := h; have := inB_lt hp.1 hsd; omega
  have hm := exists_mask a nv sd hsd h
  have hlen : (a.shape.eraseIdx sd).length = a.shape.length - 1 := List.length_eraseIdx_of_lt hsd
  have key : ∀ g, g < a.shape.length → g ≠ sd → ∃ ij : Nat × Nat,
      axisRoi false (counts (a.shape.eraseIdx sd) (maskWhole a sd nv) (dm sd g)) = some (some (ij.1, ij.2 + 1)) ∧
      (∃ r, InB r (a.shape.eraseIdx sd) ∧ maskWhole a sd nv r = true ∧ r.getD (dm sd g) 0 = ij.1) ∧
      (∃ r, InB r (a.shape.eraseIdx sd) ∧ maskWhole a sd nv r = true ∧ r.getD (dm sd g) 0 = ij.2) ∧
      ∀ r, InB r (a.shape.eraseIdx sd) → maskWhole a sd nv r = true → ij.1 ≤ r.getD (dm sd g) 0 ∧ r.getD (dm sd g) 0 ≤ ij.2 := by
    intro g hg hne
    obtain ⟨i, j, h1, h2, h3, h4⟩ := axis_any (a.shape.eraseIdx sd) (maskWhole a sd nv) (dm sd g)
      (by rw [hlen]; exact dm_lt hsd hg hne) hm
    exact ⟨(i, j), h1, h2, h3, h4⟩
  choose! f hf using key
  have hloop := roiLoop_some (a.shape.eraseIdx sd) (maskWhole a sd nv) false sd (a.shape.getD sd 0)
    (fun g => ((f g).1, (f g).2 + 1)) a.shape.length 0 (fun g _ hg hne => (hf g (by omega) hne).1)
  rw [if_pos (Nat.zero_le _)] at hloop
  refine ⟨_, by rw [calc_whole a sd nv false sl hsd, List.range_eq_range', hloop], ⟨length_roi _ _, ?_⟩, ?_, ?_, ?_⟩
  · intro g hg
    rw [getD_roi _ _ _ hg]
    by_cases he : g = sd
    · subst he; simp only [if_true]; omega
    · simp only [if_neg he]
      obtain ⟨_, ⟨r, h1, h2, h3⟩, ⟨r', h1', h2', h3'⟩, h4⟩ := hf g hg he
      have := (h4 r h1 h2).2
      have h5 := inB_lt h1' (d := dm sd g) (by rw [hlen]; exact dm_lt hsd hg he)
      rw [erase_getD _ _ _ he] at h5
      omega
  · intro p hp
    refine ⟨by rw [hp.1.length, length_roi], ?_⟩
    intro g hg
    rw [length_roi] at hg
    rw [getD_roi _ _ _ hg]
    by_cases he : g = sd
    · subst he
      simp only [if_true]
      exact ⟨Nat.zero_le _, inB_lt hp.1 hsd⟩
    · simp only [if_neg he]
      obtain ⟨k, r, hk, hr, rfl⟩ := inB_split hsd hp.1
      rw [insert_dm r sd k g (by rw [hr.length, hlen]; omega) he]
      have := (hf g hg he).2.2.2 r hr ((valid_mask a nv sd hsd r k hr hk).1 hp)
      omega
  · intro roi' h'
    have hl : roi'.length = a.shape.length := by
      obtain ⟨p, hp⟩ := h
      rw [← (h' p hp).1, hp.1.length]
    refine ⟨by rw [length_roi, hl], ?_⟩
    intro g hg
    rw [length_roi] at hg
    rw [getD_roi _ _ _ hg]
    by_cases he : g = sd
    · subst he
      simp only [if_true]
      obtain ⟨r, hr, hmr⟩ := hm
      have hrl : g ≤ r.length := by rw [hr.length, hlen]; omega
      have h0 := (h' _ ((valid_mask a nv g hsd r 0 hr hn).2 hmr)).2 g (by omega)
      have h1 := (h' _ ((valid_mask a nv g hsd r (a.shape.getD g 0 - 1) hr (by omega)).2 hmr)).2 g (by omega)
      rw [insert_self _ _ _ hrl] at h0 h1
      omega
    · simp only [if_neg he]
      obtain ⟨_, ⟨r, h1, h2, h3⟩, ⟨r', h1', h2', h3'⟩, _⟩ := hf g hg he
      have b0 := (h' _ ((valid_mask a nv sd hsd r 0 h1 hn).2 h2)).2 g (by omega)
      have b1 := (h' _ ((valid_mask a nv sd hsd r' 0 h1' hn).2 h2')).2 g (by omega)
      rw [insert_dm r sd 0 g (by rw [h1.length, hlen]; omega) he] at b0
      rw [insert_dm r' sd 0 g (by rw [h1'.length, hlen]; omega) he] at b1
      omega
  · rw [getD_roi _ _ _ hsd]; simp

/-- **No ROI without valid pixels** (`nanfull=False`): `None` is returned exactly when no pixel is
valid in all images of a non-empty stack of at least one-dimensional images. -/
theorem none_iff (a : Arr Px) (sd : Nat) (nv : NanVal) (sl : Bool) (hsd : sd < a.shape.length)
    (hn : 0 < a.shape.getD sd 0) (hd : 2 ≤ a.shape.length) :
    calccroproi a sd nv false sl = some none ↔ ¬ ∃ p, Valid a nv sd p := by
  constructor
  · intro h hv
    obtain ⟨roi, h1, _⟩ := bounding_box a sd nv sl hsd hv
    rw [h1] at h; simp at h
  · intro h
    rw [calc_whole a sd nv false sl hsd, List.range_eq_range']
    have := roiLoop_none (a.shape.eraseIdx sd) (maskWhole a sd nv) false sd (a.shape.getD sd 0) a.shape.length 0
      (fun g _ _ _ => by
        rw [axis_empty false _ _ _ (by simp) (no_mask a nv sd hsd hn h)]; simp)
      ⟨if sd = 0 then 1 else 0, by omega, by split_ifs <;> omega, by split_ifs <;> omega,
        axis_empty false _ _ _ (by simp) (no_mask a nv sd hsd hn h)⟩
    rwa [if_pos (Nat.zero_le _)] at this

/-! ## nanfull=True, the default -/

/-- **nanfull=True**: when some pixel is valid, there is a ROI; it fits in the grid, lies in the
bounding box, keeps the stack dimension, and its first and last slices contain a valid pixel. -/
theorem full_box (a : Arr Px) (sd : Nat) (nv : NanVal) (sl : Bool) (hsd : sd < a.shape.length)
    (h : ∃ p, Valid a nv sd p) :
    ∃ roi, calccroproi a sd nv true sl = some (some roi) ∧ Fits roi a.shape ∧
      (∀ roi', (∀ p, Valid a nv sd p → InBox roi' p) → Within roi roi') ∧
      (∀ g, g < a.shape.length → (∃ p, Valid a nv sd p ∧ p.getD g 0 = (roi.getD g (0, 0)).1) ∧
        ∃ p, Valid a nv sd p ∧ p.getD g 0 + 1 = (roi.getD g (0, 0)).2) ∧
      roi.getD sd (0, 0) = (0, a.shape.getD sd 0) := by
  have hn : 0 < a.shape.getD sd 0 := by
    obtain ⟨p, hp⟩ := h; have := inB_lt hp.1 hsd; omega
  have hm := exists_mask a nv sd hsd h
  have hlen : (a.shape.eraseIdx sd).length = a.shape.length - 1 := List.length_eraseIdx_of_lt hsd
  have key : ∀ g, g < a.shape.length → g ≠ sd → ∃ ij : Nat × Nat,
      axisRoi true (counts (a.shape.eraseIdx sd) (maskWhole a sd nv) (dm sd g)) = some (some (ij.1, ij.2 + 1)) ∧
      (∃ r, InB r (a.shape.eraseIdx sd) ∧ maskWhole a sd nv r = true ∧ r.getD (dm sd g) 0 = ij.1) ∧
      (∃ r, InB r (a.shape.eraseIdx sd) ∧ maskWhole a sd nv r = true ∧ r.getD (dm sd g) 0 = ij.2) ∧ ij.1 ≤ ij.2 ∧
      ij.2 < a.shape.getD g 0 := by
    intro g hg hne
    obtain ⟨i, j, h1, h2, h3, h4, h5, h6, h7⟩ := axis_full (a.shape.eraseIdx sd) (maskWhole a sd nv) (dm sd g)
      (by rw [hlen]; exact dm_lt hsd hg hne) hm
    rw [erase_getD _ _ _ hne] at h3
    have hi : count (a.shape.eraseIdx sd) (maskWhole a sd nv) (dm sd g) i ≠ 0 := by omega
    have hj : count (a.shape.eraseIdx sd) (maskWhole a sd nv) (dm sd g) j ≠ 0 := by omega
    exact ⟨(i, j), h1, (count_pos _ _ _ _).1 hi, (count_pos _ _ _ _).1 hj, h2, h3⟩
  choose! f hf using key
  have hloop := roiLoop_some (a.shape.eraseIdx sd) (maskWhole a sd nv) true sd (a.shape.getD sd 0)
    (fun g => ((f g).1, (f g).2 + 1)) a.shape.length 0 (fun g _ hg hne => (hf g (by omega) hne).1)
  rw [if_pos (Nat.zero_le _)] at hloop
  have hfl : ∀ g, g < a.shape.length →
      (∃ p, Valid a nv sd p ∧ p.getD g 0 = (((List.range' 0 a.shape.length).map fun g => if g = sd then (0, a.shape.getD sd 0)
        else ((f g).1, (f g).2 + 1)).getD g (0, 0)).1) ∧
      ∃ p, Valid a nv sd p ∧ p.getD g 0 + 1 = (((List.range' 0 a.shape.length).map fun g => if g = sd then (0, a.shape.getD sd 0)
        else ((f g).1, (f g).2 + 1)).getD g (0, 0)).2 := by
    intro g hg
    rw [getD_roi _ _ _ hg]
    by_cases he : g = sd
    · subst he
      simp only [if_true]
      obtain ⟨r, hr, hmr⟩ := hm
      have hrl : g ≤ r.length := by rw [hr.length, hlen]; omega
      exact ⟨⟨_, (valid_mask a nv g hsd r 0 hr hn).2 hmr, insert_self _ _ _ hrl⟩,
        ⟨_, (valid_mask a nv g hsd r (a.shape.getD g 0 - 1) hr (by omega)).2 hmr, by rw [insert_self _ _ _ hrl]; omega⟩⟩
    · simp only [if_neg he]
      obtain ⟨_, ⟨r, h1, h2, h3⟩, ⟨r', h1', h2', h3'⟩, _⟩ := hf g hg he
      refine ⟨⟨_, (valid_mask a nv sd hsd r 0 h1 hn).2 h2, ?_⟩, ⟨_, (valid_mask a nv sd hsd r' 0 h1' hn).2 h2', ?_⟩⟩
      · rw [insert_dm r sd 0 g (by rw [h1.length, hlen]; omega) he, h3]
      · rw [insert_dm r' sd 0 g (by rw [h1'.length, hlen]; omega) he, h3']
  refine ⟨_, by rw [calc_whole a sd nv true sl hsd, List.range_eq_range', hloop], ⟨length_roi _ _, ?_⟩, ?_, hfl, ?_⟩
  · intro g hg
    rw [getD_roi _ _ _ hg]
    by_cases he : g = sd
    · subst he; simp only [if_true]; omega
    · simp only [if_neg he]
      have := (hf g hg he).2.2.2
      omega
  · intro roi' h'
    have hl : roi'.length = a.shape.length := by
      obtain ⟨p, hp⟩ := h
      rw [← (h' p hp).1, hp.1.length]
    refine ⟨by rw [length_roi, hl], ?_⟩
    intro g hg
    rw [length_roi] at hg
    obtain ⟨⟨p, hp, e1⟩, ⟨q, hq, e2⟩⟩ := hfl g hg
    have b0 := (h' p hp).2 g (by omega)
    have b1 := (h' q hq).2 g (by omega)
    rw [← e1, ← e2]
    omega
  · rw [getD_roi _ _ _ hsd]; simp

/-- **nanfull=True is exact on boxes**: when the valid pixels are exactly the pixels of a box in the
grid, as after aligning images by translations, the ROI is that box. -/
theorem full_exact (a : Arr Px) (sd : Nat) (nv : NanVal) (sl : Bool) (hsd : sd < a.shape.length)
    (box : List (Nat × Nat)) (hfit : Fits box a.shape)
    (h : ∀ p, Valid a nv sd p ↔ InBox box p) : calccroproi a sd nv true sl = some (some box) := by
  have hlen : (a.shape.eraseIdx sd).length = a.shape.length - 1 := List.length_eraseIdx_of_lt hsd
  -- the lower corner is valid
  have hcorner : InBox box (box.map Prod.fst) := by
    refine ⟨by simp, fun g hg => ?_⟩
    have := hfit.2 g (by rw [← hfit.1]; exact hg)
    have e : (box.map Prod.fst).getD g 0 = (box.getD g (0, 0)).1 := by
      simp only [List.getD_eq_getElem?_getD, List.getElem?_map]
      cases box[g]? <;> simp
    rw [e]; omega
  have hex : ∃ p, Valid a nv sd p := ⟨_, (h _).2 hcorner⟩
  have hn : 0 < a.shape.getD sd 0 := by
    obtain ⟨p, hp⟩ := hex; have := inB_lt hp.1 hsd; omega
  have hm := exists_mask a nv sd hsd hex
  -- the whole stack dimension
  have hstack : box.getD sd (0, 0) = (0, a.shape.getD sd 0) := by
    obtain ⟨r, hr, hmr⟩ := hm
    have hrl : sd ≤ r.length := by rw [hr.length, hlen]; omega
    have h0 := ((h _).1 ((valid_mask a nv sd hsd r 0 hr hn).2 hmr)).2 sd (by rw [hfit.1]; exact hsd)
    have h1 := ((h _).1 ((valid_mask a nv sd hsd r (a.shape.getD sd 0 - 1) hr (by omega)).2 hmr)).2 sd (by rw [hfit.1]; exact hsd)
    rw [insert_self _ _ _ hrl] at h0 h1
    have h2 := (hfit.2 sd hsd).2
    exact Prod.ext (by simp only; omega) (by simp only; omega)
  -- membership of a mask pixel
  have hmask : ∀ r, InB r (a.shape.eraseIdx sd) → (maskWhole a sd nv r = true ↔
      ∀ g, g < a.shape.length → g ≠ sd → (box.getD g (0, 0)).1 ≤ r.getD (dm sd g) 0 ∧ r.getD (dm sd g) 0 < (box.getD g (0, 0)).2) := by
    intro r hr
    have hrl : sd ≤ r.length := by rw [hr.length, hlen]; omega
    rw [← valid_mask a nv sd hsd r 0 hr hn, h]
    constructor
    · intro hb g hg hne
      have := hb.2 g (by rw [hfit.1]; exact hg)
      rwa [insert_dm r sd 0 g hrl hne] at this
    · intro hb
      refine ⟨by rw [List.length_insertIdx_of_le_length hrl, hr.length, hlen, hfit.1]; omega, fun g hg => ?_⟩
      rw [hfit.1] at hg
      by_cases he : g = sd
      · subst he
        rw [insert_self _ _ _ hrl, hstack]
        exact ⟨le_refl _, hn⟩
      · rw [insert_dm r sd 0 g hrl he]
        exact hb g hg he
  have dm_inj : ∀ g g', g ≠ sd → g' ≠ sd → g ≠ g' → dm sd g ≠ dm sd g' := by
    intro g g' h1 h2 h3
    unfold dm; split_ifs <;> omega
  -- each dimension
  have key : ∀ g, g < a.shape.length → g ≠ sd →
      axisRoi true (counts (a.shape.eraseIdx sd) (maskWhole a sd nv) (dm sd g)) = some (some (box.getD g (0, 0))) := by
    intro g hg hne
    have hd : dm sd g < (a.shape.eraseIdx sd).length := by rw [hlen]; exact dm_lt hsd hg hne
    obtain ⟨i, j, h1, h2, h3, h4, h5, h6, h7⟩ := axis_full (a.shape.eraseIdx sd) (maskWhole a sd nv) (dm sd g) hd hm
    rw [h1]
    have hb := hfit.2 g hg
    rw [erase_getD _ _ _ hne] at h3 h7
    have hin : ∀ k, count (a.shape.eraseIdx sd) (maskWhole a sd nv) (dm sd g) k ≠ 0 →
        (box.getD g (0, 0)).1 ≤ k ∧ k < (box.getD g (0, 0)).2 := by
      intro k hk
      obtain ⟨r, hr, hmr, rfl⟩ := (count_pos _ _ _ _).1 hk
      exact (hmask r hr).1 hmr g hg hne
    have hsame : ∀ k, (box.getD g (0, 0)).1 ≤ k → k < (box.getD g (0, 0)).2 →
        count (a.shape.eraseIdx sd) (maskWhole a sd nv) (dm sd g) k = count (a.shape.eraseIdx sd) (maskWhole a sd nv) (dm sd g) i := by
      intro k hk1 hk2
      refine le_antisymm (h4 k) ?_
      have hklt : k < (a.shape.eraseIdx sd).getD (dm sd g) 0 := by rw [erase_getD _ _ _ hne]; omega
      apply count_le _ _ _ _ _ hd hklt
      intro r hr hmr _
      rw [hmask _ (inB_set hr hklt)]
      intro g' hg' hne'
      by_cases he : g = g'
      · subst he
        rw [getD_set_self (by rw [hr.length]; exact hd)]
        exact ⟨hk1, hk2⟩
      · rw [getD_set_ne (dm_inj g g' hne hne' he)]
        exact (hmask r hr).1 hmr g' hg' hne'
    have hi := hin i (by omega)
    have hj := hin j (by omega)
    have hlo := h7 (box.getD g (0, 0)).1 (by omega) (hsame _ (le_refl _) hb.1)
    have hhi := h7 ((box.getD g (0, 0)).2 - 1) (by omega) (hsame _ (by omega) (by omega))
    congr 2
    exact Prod.ext (by simp only; omega) (by simp only; omega)
  have hloop := roiLoop_some (a.shape.eraseIdx sd) (maskWhole a sd nv) true sd (a.shape.getD sd 0)
    (fun g => box.getD g (0, 0)) a.shape.length 0 (fun g _ hg hne => key g (by omega) hne)
  rw [if_pos (Nat.zero_le _)] at hloop
  rw [calc_whole a sd nv true sl hsd, List.range_eq_range', hloop]
  congr 2
  apply List.ext_getElem?
  intro g
  by_cases hg : g < a.shape.length
  · have e1 : ∀ l : List (Nat × Nat), g < l.length → l[g]? = some (l.getD g (0, 0)) := by
      intro l hl; simp [List.getD_eq_getElem?_getD, hl]
    rw [e1 _ (by rw [length_roi]; exact hg), e1 _ (by rw [hfit.1]; exact hg), getD_roi _ _ _ hg]
    by_cases he : g = sd
    · subst he; simp only [if_true]; rw [hstack]
    · rw [if_neg he]
  · rw [List.getElem?_eq_none (by rw [length_roi]; omega), List.getElem?_eq_none (by rw [hfit.1]; omega)]

/-- **nanfull=True without valid pixels**: `None`, unless a dimension of the images is empty. -/
theorem full_none (a : Arr Px) (sd : Nat) (nv : NanVal) (sl : Bool) (hsd : sd < a.shape.length)
    (hd : 2 ≤ a.shape.length) (hpos : ∀ n ∈ a.shape, 0 < n) (h : ¬ ∃ p, Valid a nv sd p) :
    calccroproi a sd nv true sl = some none := by
  have hp : ∀ g, g < a.shape.length → 0 < a.shape.getD g 0 := by
    intro g hg
    apply hpos
    simp [List.getD_eq_getElem?_getD, hg]
  have hn := hp sd hsd
  rw [calc_whole a sd nv true sl hsd, List.range_eq_range']
  have hax : ∀ g, g < a.shape.length → g ≠ sd →
      axisRoi true (counts (a.shape.eraseIdx sd) (maskWhole a sd nv) (dm sd g)) = some none := by
    intro g hg hne
    exact axis_empty true _ _ _ (fun _ => by rw [erase_getD _ _ _ hne]; exact hp g hg) (no_mask a nv sd hsd hn h)
  have := roiLoop_none (a.shape.eraseIdx sd) (maskWhole a sd nv) true sd (a.shape.getD sd 0) a.shape.length 0
    (fun g _ hg hne => by rw [hax g (by omega) hne]; simp)
    ⟨if sd = 0 then 1 else 0, by omega, by split_ifs <;> omega, by split_ifs <;> omega,
      hax _ (by split_ifs <;> omega) (by split_ifs <;> omega)⟩
  rwa [if_pos (Nat.zero_le _)] at this

/-! ## Applying the ROI -/

/-- The element of the source at index `r` of the cropped array. -/
def source (roi : List (Nat × Nat)) (r : List Nat) : List Nat := List.zipWith (fun ab i => ab.1 + i) roi r

/-- **No access is out of range**: cropping at once with a ROI that fits gives an array of the cropped
shape with the elements of the box. -/
theorem crop_whole {α : Type} (a : Arr α) (roi : List (Nat × Nat)) (hf : Fits roi a.shape) :
    ∃ b, cropWhole a (toInt roi) = some b ∧ b.shape = roi.map (fun ab => ab.2 - ab.1) ∧
      b.shape.map (fun n : Nat => (n : Int)) = croppedShape (toInt roi) ∧
      ∀ r, InB r b.shape → b.get r = a.get (source roi r) ∧ InB (source roi r) a.shape ∧ InBox roi (source roi r) := by
  have hok := toSel_ok a.shape roi hf.1.symm (fun g hg => by
    have := hf.2 g (by rw [← hf.1]; exact hg); omega)
  obtain ⟨b, h1, h2, h3⟩ := npGet_sel a (toSel roi) hok
  rw [toSel_item] at h1
  rw [toSel_shape _ _ hf.1.symm] at h2
  refine ⟨b, h1, h2, ?_, ?_⟩
  · rw [h2]
    unfold croppedShape toInt
    rw [List.map_map, List.map_map]
    apply List.map_congr_left
    intro ab hab
    obtain ⟨g, hg, rfl⟩ := List.getElem_of_mem hab
    have := hf.2 g (by rw [← hf.1]; exact hg)
    simp only [List.getD_eq_getElem?_getD, List.getElem?_eq_getElem hg, Option.getD_some] at this
    simp only [Function.comp]
    omega
  · intro r hr
    have hrl : r.length = roi.length := by rw [hr.length, h2]; simp
    have hsl : (source roi r).length = roi.length := by simp [source, hrl]
    have hbox : InBox roi (source roi r) := by
      refine ⟨hsl, fun g hg => ?_⟩
      have h5 := inB_lt hr (d := g) (by rw [h2]; simpa using hg)
      have e1 : b.shape.getD g 0 = (roi.getD g (0, 0)).2 - (roi.getD g (0, 0)).1 := by
        rw [h2]; simp [List.getD_eq_getElem?_getD, List.getElem?_eq_getElem hg]
      have e2 : (source roi r).getD g 0 = (roi.getD g (0, 0)).1 + r.getD g 0 := by
        simp [source, List.getD_eq_getElem?_getD, List.getElem?_zipWith, List.getElem?_eq_getElem hg,
          List.getElem?_eq_getElem (show g < r.length by omega)]
      rw [e1] at h5
      rw [e2]
      omega
    refine ⟨by rw [h3 r hr, toSel_src _ _ hrl]; rfl, ?_, hbox⟩
    have : ∀ (s p : List Nat), p.length = s.length → (∀ g, g < s.length → p.getD g 0 < s.getD g 0) → InB p s := by
      intro s
      induction s with
      | nil => intro p hp _; rw [List.length_eq_zero_iff.1 hp]; trivial
      | cons n s ih =>
        intro p hp hg
        cases p with
        | nil => simp at hp
        | cons x p =>
          refine ⟨by simpa using hg 0 (by simp), ih p (by simpa using hp) fun g h => ?_⟩
          have := hg (g + 1) (by simpa using h)
          simpa using this
    apply this
    · rw [hsl, hf.1]
    · intro g hg
      have h5 := hbox.2 g (by rw [hf.1]; exact hg)
      have h6 := hf.2 g hg
      omega

theorem crop_slice {α : Type} (a : Arr α) (roi : List (Nat × Nat)) (sd i : Nat) (hsd : sd < a.shape.length)
    (hf : Fits roi a.shape) (hst : roi.getD sd (0, 0) = (0, a.shape.getD sd 0)) (hi : i < a.shape.getD sd 0) :
    ∃ b, cropSlice a (toInt roi) sd i = some b ∧ b.shape = (roi.map (fun ab => ab.2 - ab.1)).eraseIdx sd ∧
      ∀ r, InB r b.shape → b.get r = a.get (source roi (r.insertIdx sd i)) := by
  have hok := toSel_ok a.shape roi hf.1.symm (fun g hg => by
    have := hf.2 g (by rw [← hf.1]; exact hg); omega)
  obtain ⟨b, h1, h2, h3⟩ := npGet_sel a ((toSel roi).set sd (.pick i)) (set_ok _ _ _ _ hok hi)
  rw [List.map_set, toSel_item] at h1
  rw [toSel_set_shape _ _ _ _ hf.1.symm hsd] at h2
  refine ⟨b, h1, h2, fun r hr => ?_⟩
  rw [h3 r hr, toSel_set_src _ _ _ _ (by rw [hr.length, h2, List.length_eraseIdx_of_lt (by simpa [hf.1] using hsd)]; simp [hf.1]; omega)
    (by rw [hf.1]; exact hsd) (by rw [hst])]
  rfl

theorem cropSliced_loop {α : Type} (a : Arr α) (roi : List (Nat × Nat)) (sd : Nat) (hsd : sd < a.shape.length)
    (hf : Fits roi a.shape) (hst : roi.getD sd (0, 0) = (0, a.shape.getD sd 0)) :
    ∀ (is : List Nat) (out : Arr α), (∀ i ∈ is, i < a.shape.getD sd 0) → is.Nodup →
      ∃ b, cropSliced a (toInt roi) sd is out = some b ∧ b.shape = out.shape ∧
        ∀ r, InB r (roi.map fun ab => ab.2 - ab.1) →
          b.get r = if r.getD sd 0 ∈ is then a.get (source roi r) else out.get r
  | [], out, _, _ => ⟨out, rfl, rfl, fun r _ => by simp⟩
  | i :: is, out, h, hn => by
    obtain ⟨d, h1, h2, h3⟩ := crop_slice a roi sd i hsd hf hst (h i (by simp))
    have hn := List.nodup_cons.1 hn
    obtain ⟨b, hb, hs, hg⟩ := cropSliced_loop a roi sd hsd hf hst is (writeSlice out sd i d) (fun k hk => h k (by simp [hk])) hn.2
    refine ⟨b, by simp [cropSliced, h1, hb], hs, fun r hr => ?_⟩
    have hml : sd < (roi.map fun ab => ab.2 - ab.1).length := by simpa [hf.1] using hsd
    obtain ⟨k, r', hk, hr', rfl⟩ := inB_split (sd := sd) hml hr
    have hrl : sd ≤ r'.length := by rw [hr'.length, List.length_eraseIdx_of_lt hml]; omega
    rw [hg _ hr]
    simp only [writeSlice, insert_self _ _ _ hrl, List.mem_cons]
    by_cases hik : k = i
    · subst hik
      rw [if_neg hn.1, if_pos rfl, if_pos (Or.inl rfl), List.eraseIdx_insertIdx_self]
      exact h3 r' (by rw [h2]; exact hr')
    · by_cases hkm : k ∈ is
      · rw [if_pos hkm, if_pos (Or.inr hkm)]
      · rw [if_neg hkm, if_neg hik, if_neg (by simp [hik, hkm])]

/-- **Cropping slice by slice equals cropping at once**: for every ROI that fits and keeps the stack
dimension, whatever the output contained before. -/
theorem sliced_crop {α : Type} (a out : Arr α) (roi : List (Nat × Nat)) (sd : Nat) (hsd : sd < a.shape.length)
    (hf : Fits roi a.shape) (hst : roi.getD sd (0, 0) = (0, a.shape.getD sd 0))
    (ho : out.shape = roi.map fun ab => ab.2 - ab.1) :
    ∃ b c, cropSliced a (toInt roi) sd (List.range (a.shape.getD sd 0)) out = some b ∧ cropWhole a (toInt roi) = some c ∧
      b.shape = c.shape ∧ ∀ r, InB r c.shape → b.get r = c.get r := by
  obtain ⟨b, h1, h2, h3⟩ := cropSliced_loop a roi sd hsd hf hst (List.range (a.shape.getD sd 0)) out
    (fun i hi => List.mem_range.1 hi) List.nodup_range
  obtain ⟨c, c1, c2, _, c4⟩ := crop_whole a roi hf
  refine ⟨b, c, h1, c1, by rw [h2, ho, c2], fun r hr => ?_⟩
  rw [h3 r (c2 ▸ hr), (c4 r hr).1, if_pos]
  rw [List.mem_range]
  have := inB_lt hr (d := sd) (by rw [c2]; simpa [hf.1] using hsd)
  rw [c2] at this
  have e : (roi.map fun ab => ab.2 - ab.1).getD sd 0 = (roi.getD sd (0, 0)).2 - (roi.getD sd (0, 0)).1 := by
    simp [List.getD_eq_getElem?_getD, List.getElem?_eq_getElem (show sd < roi.length by rw [hf.1]; exact hsd)]
  rw [e, hst] at this
  simpa using this

/-- **The computed ROI can be applied**: whatever `nanfull`, the crop of the reference grid with its
ROI has the cropped shape. -/
theorem crop_applies (a : Arr Px) (sd : Nat) (nv : NanVal) (nf sl : Bool) (hsd : sd < a.shape.length)
    (h : ∃ p, Valid a nv sd p) :
    ∃ roi b, calccroproi a sd nv nf sl = some (some roi) ∧ cropWhole a (toInt roi) = some b ∧
      b.shape = roi.map (fun ab => ab.2 - ab.1) := by
  cases nf with
  | false =>
    obtain ⟨roi, h1, h2, _⟩ := bounding_box a sd nv sl hsd h
    obtain ⟨b, b1, b2, _⟩ := crop_whole a roi h2
    exact ⟨roi, b, h1, b1, b2⟩
  | true =>
    obtain ⟨roi, h1, h2, _⟩ := full_box a sd nv sl hsd h
    obtain ⟨b, b1, b2, _⟩ := crop_whole a roi h2
    exact ⟨roi, b, h1, b1, b2⟩

/-! ## The user's ROI -/

/-- **A user ROI in range** for the other dimensions becomes a ROI that fits and keeps the stack
dimension. -/
theorem user_roi (shape : List Nat) (sd : Nat) (hsd : sd < shape.length) (hn : 0 < shape.getD sd 0)
    (roi : List (Nat × Nat)) (hf : Fits roi (shape.eraseIdx sd)) :
    ∃ full, convertuserroi shape sd (toInt roi) = toInt full ∧ Fits full shape ∧
      full.getD sd (0, 0) = (0, shape.getD sd 0) ∧ full.eraseIdx sd = roi := by
  have hl : roi.length = shape.length - 1 := by rw [hf.1, List.length_eraseIdx_of_lt hsd]
  have hgd : ∀ g, g ≠ sd → (roi.insertIdx sd (0, shape.getD sd 0)).getD g (0, 0) = roi.getD (dm sd g) (0, 0) := by
    intro g hne
    unfold dm
    simp only [List.getD_eq_getElem?_getD, List.getElem?_insertIdx]
    split_ifs <;> first | rfl | omega
  have hself : (roi.insertIdx sd (0, shape.getD sd 0)).getD sd (0, 0) = (0, shape.getD sd 0) := by
    rw [List.getD_eq_getElem?_getD, List.getElem?_insertIdx_self, if_pos (by omega)]; rfl
  refine ⟨roi.insertIdx sd (0, shape.getD sd 0), ?_, ⟨?_, ?_⟩, hself, by rw [List.eraseIdx_insertIdx_self]⟩
  · unfold convertuserroi
    have : (toInt roi).length = roi.length := by simp [toInt]
    rw [if_pos (by omega)]
    unfold toInt
    rw [List.map_insertIdx]
    rfl
  · rw [List.length_insertIdx_of_le_length (by omega)]; omega
  · intro g hg
    by_cases he : g = sd
    · subst he; rw [hself]; exact ⟨hn, le_refl _⟩
    · rw [hgd g he]
      have := hf.2 (dm sd g) (by rw [List.length_eraseIdx_of_lt hsd]; exact dm_lt hsd hg he)
      rwa [erase_getD _ _ _ he] at this

/-! ## Deviations and concrete cases -/

/-- A stack of `n` equal images given by rows. -/
def stackOf (n : Nat) (rows : List (List Px)) : Arr Px :=
  ⟨[n, rows.length, (rows.headD []).length], fun r => ((rows[r.getD 1 0]?).bind fun row => row[r.getD 2 0]?).getD none⟩

/-- Valid pixels that do not form a box. -/
def cross : Arr Px := stackOf 2
  [[none, some 1, none, none],
   [some 1, some 1, some 1, none],
   [none, some 1, none, none]]

/-- Valid pixels that form a box. -/
def framed : Arr Px := stackOf 2
  [[none, none, none, none],
   [none, some 1, some 1, none],
   [none, none, none, none]]

-- concrete cases of the hypotheses of `bounding_box`, `full_exact`
example : calccroproi cross 0 .npnan false true = some (some [(0, 2), (0, 3), (0, 3)]) := by decide +kernel
example : calccroproi framed 0 .npnan true false = some (some [(0, 2), (1, 2), (1, 3)]) := by decide +kernel
example : Fits [(0, 2), (1, 2), (1, 3)] framed.shape := ⟨rfl, by decide⟩
example : calccroproi (stackOf 2 [[none, none]]) 0 .npnan true false = some none := by decide +kernel
/-- the middle pixel is valid -/
theorem cross_valid : Valid cross .npnan 0 [0, 0, 1] := by
  refine ⟨by simp [cross, stackOf, InB], ?_⟩
  intro k _
  simp [BadPx, cross, stackOf]

/-- **Deviation** (`nanfull=True`, the default): the ROI does not contain every valid pixel. -/
theorem full_drops : ∃ roi, calccroproi cross 0 .npnan true false = some (some roi) ∧
    Valid cross .npnan 0 [0, 0, 1] ∧ ¬ InBox roi [0, 0, 1] := by
  refine ⟨[(0, 2), (1, 2), (1, 2)], by decide +kernel, cross_valid, ?_⟩
  rintro ⟨_, h⟩
  have := h 1 (by decide)
  simp at this

/-- **Deviation**: with a NaN that is not the object `np.nan`, e.g. `float("nan")` of a configuration,
every pixel counts as valid and nothing is cropped. -/
theorem other_nan (a : Arr Px) (sd : Nat) (p : List Nat) (hp : InB p a.shape) : Valid a (.value none) sd p :=
  ⟨hp, fun k _ => by simp [BadPx]⟩

/-- **Deviation**: an image with an empty dimension raises with `nanfull=True` and gives `None` without. -/
theorem empty_raises : calccroproi (stackOf 2 []) 0 .npnan true false = none ∧
    calccroproi (stackOf 2 []) 0 .npnan false false = some none := by decide +kernel

/-- **Deviation**: a user ROI beyond the image gives data that have another shape than the declared
`cropped_shape`. -/
theorem user_beyond : ∃ b, cropWhole framed (convertuserroi framed.shape 0 [(0, 10), (0, 2)]) = some b ∧
    b.shape = [2, 3, 2] ∧ croppedShape (convertuserroi framed.shape 0 [(0, 10), (0, 2)]) = [2, 10, 2] := by
  refine ⟨_, rfl, ?_, ?_⟩ <;> decide +kernel

-- a case of `user_roi`
example : convertuserroi framed.shape 1 (toInt [(0, 1), (1, 3)]) = toInt [(0, 1), (0, 3), (1, 3)] := by decide
example : Fits [(0, 1), (1, 3)] (framed.shape.eraseIdx 1) := ⟨rfl, by decide⟩

end SC.Crop
