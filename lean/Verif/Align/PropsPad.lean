import Verif.Align.Props
/-! # C47: what padding and cropping promise

"pad: make sure nothing is transformed outside the field of view", "crop: make sure no missing data is
added" (docstring of `align`). -/
namespace SC.Align
open SC.Py

/-! ## the translations of a stack -/

theorem storeLoop_length (pw raw : Bool) (r : Int) (ks : Nat → Tr) (n : Nat) : (storeLoop pw raw r ks n).length = n := by
  induction n with
  | zero => rfl
  | succ n ih => simp [storeLoop, ih]

theorem storeLoop_prefix (pw raw : Bool) (r : Int) (ks : Nat → Tr) {j n : Nat} (h : j < n) :
    (storeLoop pw raw r ks n).getD j (0, 0) = (storeLoop pw raw r ks (j + 1)).getD j (0, 0) := by
  induction n with
  | zero => omega
  | succ n ih =>
    by_cases hj : j = n
    · subst hj; rfl
    · have e : (storeLoop pw raw r ks (n + 1)).getD j (0, 0) = (storeLoop pw raw r ks n).getD j (0, 0) := by
        simp only [storeLoop, List.getD_eq_getElem?_getD]
        rw [List.getElem?_append_left (by rw [storeLoop_length]; omega)]
      rw [e, ih (by omega)]

theorem storeLoop_last (pw raw : Bool) (r : Int) (ks : Nat → Tr) (j : Nat) :
    (storeLoop pw raw r ks (j + 1)).getD j (0, 0) =
      if (j : Int) = (if pw then ((j - 1 : Nat) : Int) else r) then (0, 0)
      else if pw && decide (j ≠ 0) && raw then
        (((storeLoop pw raw r ks j).getD (j - 1) (0, 0)).1 + (ks j).1, ((storeLoop pw raw r ks j).getD (j - 1) (0, 0)).2 + (ks j).2)
      else ks j := by
  rw [storeLoop, List.getD_eq_getElem?_getD, List.getElem?_append_right (by rw [storeLoop_length])]
  rw [storeLoop_length, Nat.sub_self]
  rfl

/-- **C47.**  The reference image keeps its place: the first image of a pairwise alignment, the image
with a valid non-negative reference index otherwise. -/
theorem reference_identity (k : Call) (hn : 0 < k.nimages)
    (hr : k.pairwise = true ∨ (0 ≤ k.refindex ∧ k.refindex < k.nimages)) :
    k.ts.length = k.nimages ∧
    k.ts.getD (if k.pairwise then 0 else k.refindex.toNat) (0, 0) = (0, 0) ∧ ((0, 0) : Tr) ∈ k.ts := by
  have hl : k.ts.length = k.nimages := storeLoop_length _ _ _ _ _
  have key : ∀ j < k.nimages, k.ts.getD j (0, 0) = (0, 0) → ((0, 0) : Tr) ∈ k.ts := by
    intro j hj h
    rw [List.getD_eq_getElem?_getD, List.getElem?_eq_getElem (by omega)] at h
    rw [← h]
    exact List.getElem_mem _
  cases hp : k.pairwise with
  | true =>
    have h0 : k.ts.getD 0 (0, 0) = (0, 0) := by
      rw [Call.ts, storeLoop_prefix _ _ _ _ hn, storeLoop_last, hp]; simp
    exact ⟨hl, by simpa using h0, key 0 hn h0⟩
  | false =>
    obtain ⟨a, b⟩ : 0 ≤ k.refindex ∧ k.refindex < k.nimages := by simpa [hp] using hr
    have h0 : k.ts.getD k.refindex.toNat (0, 0) = (0, 0) := by
      rw [Call.ts, storeLoop_prefix _ _ _ _ (by omega), storeLoop_last, hp]
      rw [if_pos]
      simp only [Bool.false_eq_true, if_false]; omega
    exact ⟨hl, by simpa using h0, key _ (by omega) h0⟩

/-- **C47.**  Pairwise alignment on raw images: the translation of image `j` is the sum of the
translations between consecutive images, so that all are relative to the first image. -/
theorem pairwise_sum (k : Call) (hp : k.pairwise = true) (hr : k.onraw = true) (j : Nat) (hj : j < k.nimages) :
    k.ts.getD j (0, 0) =
      (((List.range j).map fun (i : Nat) => (k.ks (i + 1)).1).sum, ((List.range j).map fun (i : Nat) => (k.ks (i + 1)).2).sum) := by
  rw [Call.ts, storeLoop_prefix _ _ _ _ hj, hp, hr]
  simp only [if_true]
  clear hj
  induction j with
  | zero => rw [storeLoop_last]; simp
  | succ j ih =>
    rw [storeLoop_last]
    rw [if_neg (by simp only [if_true]; omega), if_pos (by simp)]
    simp only [Nat.add_sub_cancel]
    rw [ih, List.range_succ, List.map_append, List.map_append, List.sum_append, List.sum_append]
    simp

/-- **C47.**  Otherwise the translations are those found by the kernel, relative to the reference. -/
theorem fixed_translation (k : Call) (hp : k.pairwise = false) (j : Nat) (hj : j < k.nimages) :
    k.ts.getD j (0, 0) = if (j : Int) = k.refindex then (0, 0) else k.ks j := by
  rw [Call.ts, storeLoop_prefix _ _ _ _ hj, storeLoop_last, hp]
  simp

/-- **C47, deviation.**  A negative reference index (the default of the align task is -1, the last
image) is never equal to an index of the loop: the reference image itself gets whatever translation
the kernel finds between it and itself. -/
theorem negative_reference_deviation (k : Call) (hp : k.pairwise = false) (hr : k.refindex < 0) (j : Nat)
    (hj : j < k.nimages) : k.ts.getD j (0, 0) = k.ks j := by
  rw [fixed_translation k hp j hj, if_neg (by omega)]

/-! ## padding -/

/-- The calls that extend by the bounds of the images. -/
theorem alignCall_box {s : St} {k : Call} (hm : bextendfrommask k.cropReq k.cvalIsNan k.pairwise = false)
    (hr : (k.padReq || k.cropReq) = true) {s' : St} {ts : List Tr} (h : alignCall s k = some (s', ts)) :
    ts = k.ts ∧ ((polygoncollectionbounds s.imgsize k.padReq k.ts = .nothing ∧ s'.pad = false ∧ s'.crop = false) ∨
      ∃ a b c d s0, polygoncollectionbounds s.imgsize k.padReq k.ts = .box a b c d ∧ s' = setextend s0 a b c d ∧
        s0.imgsize = s.imgsize) := by
  have hc : (k.other || k.padReq || k.cropReq) = true := by
    rw [Bool.or_assoc, hr, Bool.or_true]
  simp only [alignCall, hc, if_true, hm, Bool.false_eq_true, if_false, parseTransformation, hr, rawFrame_eq,
    extendfromtransformation] at h
  cases hb : polygoncollectionbounds s.imgsize k.padReq k.ts with
  | error => simp [hb] at h
  | nothing =>
    simp only [hb, Option.map_some, Option.some.injEq, Prod.mk.injEq] at h
    obtain ⟨rfl, rfl⟩ := h
    exact ⟨rfl, Or.inl ⟨rfl, rfl, rfl⟩⟩
  | box a b c d =>
    simp only [hb, Option.map_some, Option.some.injEq, Prod.mk.injEq] at h
    obtain ⟨rfl, rfl⟩ := h
    exact ⟨rfl, Or.inr ⟨a, b, c, d, _, rfl, rfl, rfl⟩⟩

/-- **C47.**  Padding: every point of every aligned image (any translations) lies between the first and
the last pixel of the destination, and on each side the destination could not be one pixel smaller. -/
theorem pad_covers (s : St) (h1 : 1 ≤ s.imgsize.1) (h2 : 1 ≤ s.imgsize.2) (k : Call) (hp : k.padReq = true)
    (hm : bextendfrommask k.cropReq k.cvalIsNan k.pairwise = false)
    (s' : St) (ts : List Tr) (h : alignCall s k = some (s', ts)) :
    (∀ t ∈ ts, ∀ y x : Rat, Inside s.imgsize t y x →
      0 ≤ y + (ext s').1.1 ∧ y + (ext s').1.1 ≤ (destImgsize s').1 - 1 ∧
      0 ≤ x + (ext s').2.1 ∧ x + (ext s').2.1 ≤ (destImgsize s').2 - 1) ∧
    (∃ t ∈ ts, ∃ y x : Rat, Inside s.imgsize t y x ∧ y + (ext s').1.1 < 1) ∧
    (∃ t ∈ ts, ∃ y x : Rat, Inside s.imgsize t y x ∧ (destImgsize s').1 - 2 < y + (ext s').1.1) ∧
    (∃ t ∈ ts, ∃ y x : Rat, Inside s.imgsize t y x ∧ x + (ext s').2.1 < 1) ∧
    (∃ t ∈ ts, ∃ y x : Rat, Inside s.imgsize t y x ∧ (destImgsize s').2 - 2 < x + (ext s').2.1) := by
  obtain ⟨rfl, ⟨hb, -, -⟩ | ⟨a, b, c, d, s0, hb, rfl, hs0⟩⟩ := alignCall_box hm (by rw [hp]; rfl) h
  · exfalso
    cases hts : k.ts with
    | nil => simp [hts, polygoncollectionbounds] at hb
    | cons t ts => simp [hts, hp, polygoncollectionbounds] at hb
  · obtain ⟨g1, g2⟩ := box_ordered h1 h2 hb
    rw [destImgsize_ext, extended_ext (extended_setextend _ _ _ _ _ g1 g2)]
    have c1 : (1 : Rat) ≤ s.imgsize.1 := by exact_mod_cast h1
    have c2 : (1 : Rat) ≤ s.imgsize.2 := by exact_mod_cast h2
    cases hts : k.ts with
    | nil => simp [hts, polygoncollectionbounds] at hb
    | cons t ts =>
      simp only [hts, hp, polygoncollectionbounds, Bool.not_true, Bool.false_and, Bool.false_eq_true, if_false,
        Bounds.box.injEq] at hb
      obtain ⟨rfl, rfl, rfl, rfl⟩ := hb
      obtain ⟨hu, ⟨u1, m1, v1⟩, ⟨u2, m2, v2⟩, ⟨u3, m3, v3⟩, ⟨u4, m4, v4⟩⟩ := rawBounds_union s.imgsize t ts
      simp only [setextend, hs0]
      generalize rawBounds s.imgsize true t ts = B at *
      have w1 := Int.floor_le B.1.1
      have w1' := Int.lt_floor_add_one B.1.1
      have w3 := Int.floor_le B.2.1
      have w3' := Int.lt_floor_add_one B.2.1
      have w2 := Int.le_ceil B.1.2
      have w2' := Int.ceil_lt_add_one B.1.2
      have w4 := Int.le_ceil B.2.2
      have w4' := Int.ceil_lt_add_one B.2.2
      push_cast
      refine ⟨?_, ?_, ?_, ?_, ?_⟩
      · intro t' ht' y x ⟨i1, i2, i3, i4⟩
        obtain ⟨q1, q2, q3, q4⟩ := hu t' ht'
        refine ⟨?_, ?_, ?_, ?_⟩ <;> linarith
      · refine ⟨u3, m3, -u3.2, -u3.1, ⟨?_, ?_, ?_, ?_⟩, ?_⟩ <;> linarith
      · refine ⟨u4, m4, (s.imgsize.1 : Rat) - 1 - u4.2, -u4.1, ⟨?_, ?_, ?_, ?_⟩, ?_⟩ <;> linarith
      · refine ⟨u1, m1, -u1.2, -u1.1, ⟨?_, ?_, ?_, ?_⟩, ?_⟩ <;> linarith
      · refine ⟨u2, m2, -u2.2, (s.imgsize.2 : Rat) - 1 - u2.1, ⟨?_, ?_, ?_, ?_⟩, ?_⟩ <;> linarith

/-- **C47.**  With padding no pixel is lost: for translations by whole pixels every pixel of every raw
image is a pixel of the transformed image. -/
theorem pad_keeps_pixels (s : St) (h1 : 1 ≤ s.imgsize.1) (h2 : 1 ≤ s.imgsize.2) (k : Call) (hk : k.Ok s.imgsize)
    (hp : k.padReq = true) (hm : bextendfrommask k.cropReq k.cvalIsNan k.pairwise = false)
    (s' : St) (ts : List Tr) (h : alignCall s k = some (s', ts)) (t : Tr) (ht : t ∈ ts) (n : Int × Int)
    (hn : IntTr t n) (interp : Img → Rat → Rat → Px) (cval : Px) (c : Tr) (img : Img)
    (hh : img.h = s.imgsize.1) (hw : img.w = s.imgsize.2) (p q : Int) (hp1 : 0 ≤ p ∧ p < img.h) (hq : 0 ≤ q ∧ q < img.w) :
    ∃ y x : Int, 0 ≤ y ∧ y < (transform interp cval s' c t img).h ∧ 0 ≤ x ∧ x < (transform interp cval s' c t img).w ∧
      (transform interp cval s' c t img).get y x = img.get p q := by
  obtain ⟨g1, g2⟩ := cons_alignCall h1 h2 hk h
  simp only [] at g1 g2
  obtain ⟨cov, -⟩ := pad_covers s h1 h2 k hp hm s' ts h
  have hin : Inside s.imgsize t ((p - n.2 : Int) : Rat) ((q - n.1 : Int) : Rat) := by
    have a1 : (0 : Rat) ≤ p := by exact_mod_cast hp1.1
    have a2 : (p : Rat) ≤ (s.imgsize.1 : Rat) - 1 := by
      have : p ≤ (s.imgsize.1 : Int) - 1 := by omega
      exact_mod_cast this
    have a3 : (0 : Rat) ≤ q := by exact_mod_cast hq.1
    have a4 : (q : Rat) ≤ (s.imgsize.2 : Rat) - 1 := by
      have : q ≤ (s.imgsize.2 : Int) - 1 := by omega
      exact_mod_cast this
    obtain ⟨e1, e2⟩ := hn
    refine ⟨?_, ?_, ?_, ?_⟩ <;> push_cast <;> linarith
  obtain ⟨b1, b2, b3, b4⟩ := cov t ht _ _ hin
  have d1 : 0 ≤ p - n.2 + (ext s').1.1 := by exact_mod_cast b1
  have d2 : p - n.2 + (ext s').1.1 ≤ (destImgsize s').1 - 1 := by exact_mod_cast b2
  have d3 : 0 ≤ q - n.1 + (ext s').2.1 := by exact_mod_cast b3
  have d4 : q - n.1 + (ext s').2.1 ≤ (destImgsize s').2 - 1 := by exact_mod_cast b4
  have hsz := transform_size g2 interp cval c t img (by rw [g1]; exact hh) (by rw [g1]; exact hw)
  have hsz1 := congrArg Prod.fst hsz
  have hsz2 := congrArg Prod.snd hsz
  simp only [] at hsz1 hsz2
  refine ⟨p - n.2 + (ext s').1.1, q - n.1 + (ext s').2.1, d1, by omega, d3, by omega, ?_⟩
  rw [transform_pixel g2 interp cval c t n hn img (by rw [g1]; exact hh) (by rw [g1]; exact hw) _ _
    ⟨d1, by omega⟩ ⟨d3, by omega⟩]
  rw [rawPixel, if_pos (by omega)]
  congr 1 <;> omega

/-! ## cropping -/

/-- **C47.**  Cropping translations by whole pixels: a position of the common pixel grid is in the
destination exactly when it is inside every image. -/
theorem crop_exact (s : St) (h1 : 1 ≤ s.imgsize.1) (h2 : 1 ≤ s.imgsize.2) (k : Call) (hp : k.padReq = false)
    (hc : k.cropReq = true) (hm : bextendfrommask k.cropReq k.cvalIsNan k.pairwise = false)
    (hint : ∀ t ∈ k.ts, ∃ n, IntTr t n)
    (s' : St) (ts : List Tr) (h : alignCall s k = some (s', ts)) (a b c d : Int)
    (hbox : polygoncollectionbounds s.imgsize false k.ts = .box a b c d) (y x : Int) :
    (∀ t ∈ ts, Inside s.imgsize t y x) ↔
      (0 ≤ y + (ext s').1.1 ∧ y + (ext s').1.1 < (destImgsize s').1 ∧
       0 ≤ x + (ext s').2.1 ∧ x + (ext s').2.1 < (destImgsize s').2) := by
  obtain ⟨rfl, ⟨hb, -, -⟩ | ⟨a', b', c', d', s0, hb, rfl, hs0⟩⟩ := alignCall_box hm (by rw [hc]; simp) h
  · rw [hp, hbox] at hb; simp at hb
  · obtain ⟨g1, g2⟩ := box_ordered h1 h2 hb
    rw [destImgsize_ext, extended_ext (extended_setextend _ _ _ _ _ g1 g2)]
    cases hts : k.ts with
    | nil => simp [hts, polygoncollectionbounds] at hb
    | cons t ts =>
      simp only [hts, hp, polygoncollectionbounds, Bool.not_false, Bool.true_and] at hb
      rw [hts] at hint
      split at hb
      · simp at hb
      · simp only [Bounds.box.injEq] at hb
        obtain ⟨rfl, rfl, rfl, rfl⟩ := hb
        obtain ⟨hu, ⟨u1, m1, v1⟩, ⟨u2, m2, v2⟩, ⟨u3, m3, v3⟩, ⟨u4, m4, v4⟩⟩ := rawBounds_inter s.imgsize t ts
        simp only [setextend, hs0]
        generalize rawBounds s.imgsize false t ts = B at *
        have f1 : (⌊B.1.1⌋ : Rat) = B.1.1 := by
          obtain ⟨n, hn, -⟩ := hint u1 m1
          rw [v1, hn]; rw [← Int.cast_neg, Int.floor_intCast]
        have f3 : (⌊B.2.1⌋ : Rat) = B.2.1 := by
          obtain ⟨n, -, hn⟩ := hint u3 m3
          rw [v3, hn]; rw [← Int.cast_neg, Int.floor_intCast]
        have f2 : (⌈B.1.2⌉ : Rat) = B.1.2 := by
          obtain ⟨n, hn, -⟩ := hint u2 m2
          have e : B.1.2 = (((s.imgsize.2 : Int) - 1 - n.1 : Int) : Rat) := by rw [v2, hn]; push_cast; rfl
          rw [e, Int.ceil_intCast]
        have f4 : (⌈B.2.2⌉ : Rat) = B.2.2 := by
          obtain ⟨n, -, hn⟩ := hint u4 m4
          have e : B.2.2 = (((s.imgsize.1 : Int) - 1 - n.2 : Int) : Rat) := by rw [v4, hn]; push_cast; rfl
          rw [e, Int.ceil_intCast]
        have key : (0 ≤ y + -⌊B.2.1⌋ ∧ y + -⌊B.2.1⌋ < (s.imgsize.1 : Int) + -⌊B.2.1⌋ + (⌈B.2.2⌉ - s.imgsize.1 + 1) ∧
            0 ≤ x + -⌊B.1.1⌋ ∧ x + -⌊B.1.1⌋ < (s.imgsize.2 : Int) + -⌊B.1.1⌋ + (⌈B.1.2⌉ - s.imgsize.2 + 1)) ↔
            (⌊B.2.1⌋ ≤ y ∧ y ≤ ⌈B.2.2⌉ ∧ ⌊B.1.1⌋ ≤ x ∧ x ≤ ⌈B.1.2⌉) := by omega
        rw [key]
        have tr : (⌊B.2.1⌋ ≤ y ∧ y ≤ ⌈B.2.2⌉ ∧ ⌊B.1.1⌋ ≤ x ∧ x ≤ ⌈B.1.2⌉) ↔
            (B.2.1 ≤ y ∧ (y : Rat) ≤ B.2.2 ∧ B.1.1 ≤ x ∧ (x : Rat) ≤ B.1.2) := by
          rw [← f1, ← f2, ← f3, ← f4]
          simp only [Int.floor_intCast, Int.ceil_intCast]
          norm_cast
        rw [tr]
        constructor
        · intro hall
          obtain ⟨-, -, p1, -⟩ := hall u1 m1
          obtain ⟨-, -, -, p2⟩ := hall u2 m2
          obtain ⟨p3, -, -, -⟩ := hall u3 m3
          obtain ⟨-, p4, -, -⟩ := hall u4 m4
          refine ⟨?_, ?_, ?_, ?_⟩ <;> linarith
        · rintro ⟨i1, i2, i3, i4⟩ t' ht'
          obtain ⟨q1, q2, q3, q4⟩ := hu t' ht'
          refine ⟨?_, ?_, ?_, ?_⟩ <;> linarith

/-- **C47.**  Cropping adds no missing data: for translations by whole pixels every pixel of every
transformed image is a pixel of the raw image (unless nothing is left, which is reported). -/
theorem crop_no_missing (s : St) (h1 : 1 ≤ s.imgsize.1) (h2 : 1 ≤ s.imgsize.2) (k : Call) (hk : k.Ok s.imgsize)
    (hp : k.padReq = false) (hc : k.cropReq = true) (hm : bextendfrommask k.cropReq k.cvalIsNan k.pairwise = false)
    (hint : ∀ t ∈ k.ts, ∃ n, IntTr t n)
    (s' : St) (ts : List Tr) (h : alignCall s k = some (s', ts)) (a b c d : Int)
    (hbox : polygoncollectionbounds s.imgsize false k.ts = .box a b c d)
    (t : Tr) (ht : t ∈ ts) (interp : Img → Rat → Rat → Px) (cval : Px) (fr : Tr) (img : Img)
    (hh : img.h = s.imgsize.1) (hw : img.w = s.imgsize.2) (y x : Int)
    (hy : 0 ≤ y ∧ y < (transform interp cval s' fr t img).h) (hx : 0 ≤ x ∧ x < (transform interp cval s' fr t img).w) :
    ∃ p q : Int, 0 ≤ p ∧ p < img.h ∧ 0 ≤ q ∧ q < img.w ∧
      (transform interp cval s' fr t img).get y x = img.get p q := by
  obtain ⟨g1, g2⟩ := cons_alignCall h1 h2 hk h
  simp only [] at g1 g2
  have hsz := transform_size g2 interp cval fr t img (by rw [g1]; exact hh) (by rw [g1]; exact hw)
  have hsz1 := congrArg Prod.fst hsz
  have hsz2 := congrArg Prod.snd hsz
  simp only [] at hsz1 hsz2
  rw [hsz1] at hy
  rw [hsz2] at hx
  have hts : ts = k.ts := (alignCall_box hm (by rw [hc]; simp) h).1
  obtain ⟨n, hn⟩ := hint t (by rw [← hts]; exact ht)
  rw [transform_pixel g2 interp cval fr t n hn img (by rw [g1]; exact hh) (by rw [g1]; exact hw) _ _ hy hx]
  have hex := (crop_exact s h1 h2 k hp hc hm hint s' ts h a b c d hbox (y - (ext s').1.1) (x - (ext s').2.1)).2
    (by omega) t ht
  obtain ⟨e1, e2⟩ := hn
  obtain ⟨i1, i2, i3, i4⟩ := hex
  rw [e2] at i1 i2
  rw [e1] at i3 i4
  have j1 : 0 ≤ y - (ext s').1.1 + n.2 := by exact_mod_cast i1
  have j2 : y - (ext s').1.1 + n.2 ≤ (s.imgsize.1 : Int) - 1 := by exact_mod_cast i2
  have j3 : 0 ≤ x - (ext s').2.1 + n.1 := by exact_mod_cast i3
  have j4 : x - (ext s').2.1 + n.1 ≤ (s.imgsize.2 : Int) - 1 := by exact_mod_cast i4
  refine ⟨_, _, j1, by omega, j3, by omega, ?_⟩
  rw [rawPixel, if_pos (by omega)]

/-- **C47.**  Cropping is skipped exactly when the images have no point or only one point in common. -/
theorem crop_skipped (size : Nat × Nat) (t : Tr) (ts : List Tr) :
    polygoncollectionbounds size false (t :: ts) = .nothing ↔
      ∀ y x y' x' : Rat, (∀ u ∈ t :: ts, Inside size u y x) → (∀ u ∈ t :: ts, Inside size u y' x') → y = y' ∧ x = x' := by
  obtain ⟨hu, ⟨u1, m1, v1⟩, ⟨u2, m2, v2⟩, ⟨u3, m3, v3⟩, ⟨u4, m4, v4⟩⟩ := rawBounds_inter size t ts
  simp only [polygoncollectionbounds, Bool.not_false, Bool.true_and]
  generalize rawBounds size false t ts = B at *
  have key : ∀ y x : Rat, (∀ u ∈ t :: ts, Inside size u y x) ↔ (B.2.1 ≤ y ∧ y ≤ B.2.2 ∧ B.1.1 ≤ x ∧ x ≤ B.1.2) := by
    intro y x
    constructor
    · intro hall
      obtain ⟨-, -, p1, -⟩ := hall u1 m1
      obtain ⟨-, -, -, p2⟩ := hall u2 m2
      obtain ⟨p3, -, -, -⟩ := hall u3 m3
      obtain ⟨-, p4, -, -⟩ := hall u4 m4
      refine ⟨?_, ?_, ?_, ?_⟩ <;> linarith
    · rintro ⟨i1, i2, i3, i4⟩ t' ht'
      obtain ⟨q1, q2, q3, q4⟩ := hu t' ht'
      refine ⟨?_, ?_, ?_, ?_⟩ <;> linarith
  simp only [key]
  constructor
  · intro h
    split at h
    · rename_i he
      simp only [rectEmpty, Bool.or_eq_true, Bool.and_eq_true, decide_eq_true_eq] at he
      rintro y x y' x' ⟨i1, i2, i3, i4⟩ ⟨j1, j2, j3, j4⟩
      rcases he with (he | he) | ⟨e1, e2⟩
      · linarith
      · linarith
      · constructor <;> linarith
    · simp at h
  · intro h
    rw [if_pos]
    simp only [rectEmpty, Bool.or_eq_true, Bool.and_eq_true, decide_eq_true_eq]
    by_contra hne
    simp only [not_or, not_lt, not_and] at hne
    obtain ⟨⟨n1, n2⟩, n3⟩ := hne
    have := h B.2.1 B.1.1 B.2.2 B.1.2 ⟨le_refl _, n2, le_refl _, n1⟩ ⟨n2, le_refl _, n1, le_refl _⟩
    exact n3 this.2 this.1

/-! ## the mask -/

/-- **C47.**  The mask of images without missing data, aligned by whole pixels with one image in
place: cropping by the mask is cropping by the translations. -/
theorem mask_agrees (s : St) (h1 : 1 ≤ s.imgsize.1) (h2 : 1 ≤ s.imgsize.2) (ts : List Tr) (h0 : ((0, 0) : Tr) ∈ ts)
    (hint : ∀ t ∈ ts, ∃ n, IntTr t n) (imgs : Tr → Img)
    (hi : ∀ t ∈ ts, (imgs t).h = s.imgsize.1 ∧ (imgs t).w = s.imgsize.2 ∧
      ∀ p q : Int, 0 ≤ p → p < (imgs t).h → 0 ≤ q → q < (imgs t).w → ((imgs t).get p q).isSome)
    (interp : Img → Rat → Rat → Px) (c : Tr) (xa ya xb yb : Int)
    (hbox : polygoncollectionbounds s.imgsize false ts = .box xa ya xb yb) :
    extendfrommask s s.imgsize.1 s.imgsize.2
      (maskOf (ts.map fun t => executeTransform interp none c t (imgs t))) = some (setextend s xa ya xb yb) := by
  obtain ⟨g1, g2⟩ := box_ordered h1 h2 hbox
  -- the mask
  have hmask : ∀ y x : Nat, y < s.imgsize.1 → x < s.imgsize.2 →
      (maskOf (ts.map fun t => executeTransform interp none c t (imgs t)) y x = true ↔
        ∀ t ∈ ts, Inside s.imgsize t y x) := by
    intro y x hy hx
    simp only [maskOf, List.all_eq_true, List.mem_map, forall_exists_index, and_imp, forall_apply_eq_imp_iff₂]
    refine forall₂_congr fun t ht => ?_
    obtain ⟨n, hn⟩ := hint t ht
    obtain ⟨i1, i2, i3⟩ := hi t ht
    rw [executeTransform_int interp none c t (imgs t) n hn y x (by rw [i1]; omega) (by rw [i2]; omega)]
    obtain ⟨e1, e2⟩ := hn
    have hinside : Inside s.imgsize t y x ↔ (0 ≤ (y : Int) + n.2 ∧ (y : Int) + n.2 < s.imgsize.1 ∧
        0 ≤ (x : Int) + n.1 ∧ (x : Int) + n.1 < s.imgsize.2) := by
      simp only [Inside, e1, e2]
      constructor
      · rintro ⟨a, b, d, e⟩
        have a' : 0 ≤ (y : Int) + n.2 := by exact_mod_cast a
        have b' : (y : Int) + n.2 ≤ (s.imgsize.1 : Int) - 1 := by exact_mod_cast b
        have d' : 0 ≤ (x : Int) + n.1 := by exact_mod_cast d
        have e' : (x : Int) + n.1 ≤ (s.imgsize.2 : Int) - 1 := by exact_mod_cast e
        omega
      · rintro ⟨a, b, d, e⟩
        have b' : (y : Int) + n.2 ≤ (s.imgsize.1 : Int) - 1 := by omega
        have e' : (x : Int) + n.1 ≤ (s.imgsize.2 : Int) - 1 := by omega
        exact ⟨by exact_mod_cast a, by exact_mod_cast b', by exact_mod_cast d, by exact_mod_cast e'⟩
    rw [hinside, rawPixel]
    by_cases hc : 0 ≤ (y : Int) + n.2 ∧ (y : Int) + n.2 < s.imgsize.1 ∧ 0 ≤ (x : Int) + n.1 ∧ (x : Int) + n.1 < s.imgsize.2
    · rw [if_pos (by rw [i1, i2]; exact hc)]
      have := i3 _ _ hc.1 (by rw [i1]; exact hc.2.1) hc.2.2.1 (by rw [i2]; exact hc.2.2.2)
      simp [this, hc]
    · rw [if_neg (by rw [i1, i2]; exact hc)]
      simp only [Option.isSome_none, Bool.false_eq_true, false_iff]
      exact hc
  -- the box
  have hbx : 0 ≤ xa ∧ 0 ≤ ya ∧ xb < s.imgsize.2 ∧ yb < s.imgsize.1 ∧
      ∀ y x : Nat, ((∀ t ∈ ts, Inside s.imgsize t y x) ↔ (ya ≤ y ∧ y ≤ yb ∧ xa ≤ x ∧ x ≤ xb)) := by
    cases hts : ts with
    | nil => simp [hts] at h0
    | cons t ts' =>
      rw [hts] at hbox h0 hint
      simp only [polygoncollectionbounds, Bool.not_false, Bool.true_and] at hbox
      split at hbox
      · simp at hbox
      · simp only [Bounds.box.injEq] at hbox
        obtain ⟨rfl, rfl, rfl, rfl⟩ := hbox
        obtain ⟨hu, ⟨u1, m1, v1⟩, ⟨u2, m2, v2⟩, ⟨u3, m3, v3⟩, ⟨u4, m4, v4⟩⟩ := rawBounds_inter s.imgsize t ts'
        generalize rawBounds s.imgsize false t ts' = B at *
        have f1 : (⌊B.1.1⌋ : Rat) = B.1.1 := by
          obtain ⟨n, hn, -⟩ := hint u1 m1
          rw [v1, hn]; rw [← Int.cast_neg, Int.floor_intCast]
        have f3 : (⌊B.2.1⌋ : Rat) = B.2.1 := by
          obtain ⟨n, -, hn⟩ := hint u3 m3
          rw [v3, hn]; rw [← Int.cast_neg, Int.floor_intCast]
        have f2 : (⌈B.1.2⌉ : Rat) = B.1.2 := by
          obtain ⟨n, hn, -⟩ := hint u2 m2
          have e : B.1.2 = (((s.imgsize.2 : Int) - 1 - n.1 : Int) : Rat) := by rw [v2, hn]; push_cast; rfl
          rw [e, Int.ceil_intCast]
        have f4 : (⌈B.2.2⌉ : Rat) = B.2.2 := by
          obtain ⟨n, -, hn⟩ := hint u4 m4
          have e : B.2.2 = (((s.imgsize.1 : Int) - 1 - n.2 : Int) : Rat) := by rw [v4, hn]; push_cast; rfl
          rw [e, Int.ceil_intCast]
        obtain ⟨w1, w2, w3, w4⟩ := hu _ h0
        simp only [neg_zero, sub_zero] at w1 w2 w3 w4
        have z1 : 0 ≤ ⌊B.1.1⌋ := Int.floor_nonneg.2 w1
        have z3 : 0 ≤ ⌊B.2.1⌋ := Int.floor_nonneg.2 w3
        have z2 : ⌈B.1.2⌉ ≤ (s.imgsize.2 : Int) - 1 := by
          rw [Int.ceil_le]; push_cast; exact w2
        have z4 : ⌈B.2.2⌉ ≤ (s.imgsize.1 : Int) - 1 := by
          rw [Int.ceil_le]; push_cast; exact w4
        refine ⟨z1, z3, by omega, by omega, fun y x => ?_⟩
        have tr : (⌊B.2.1⌋ ≤ (y : Int) ∧ (y : Int) ≤ ⌈B.2.2⌉ ∧ ⌊B.1.1⌋ ≤ (x : Int) ∧ (x : Int) ≤ ⌈B.1.2⌉) ↔
            (B.2.1 ≤ y ∧ (y : Rat) ≤ B.2.2 ∧ B.1.1 ≤ x ∧ (x : Rat) ≤ B.1.2) := by
          rw [← f1, ← f2, ← f3, ← f4]
          simp only [Int.floor_intCast, Int.ceil_intCast]
          norm_cast
        rw [tr]
        constructor
        · intro hall
          obtain ⟨-, -, p1, -⟩ := hall u1 m1
          obtain ⟨-, -, -, p2⟩ := hall u2 m2
          obtain ⟨p3, -, -, -⟩ := hall u3 m3
          obtain ⟨-, p4, -, -⟩ := hall u4 m4
          refine ⟨?_, ?_, ?_, ?_⟩ <;> linarith
        · rintro ⟨i1, i2, i3, i4⟩ t' ht'
          obtain ⟨q1, q2, q3, q4⟩ := hu t' ht'
          refine ⟨?_, ?_, ?_, ?_⟩ <;> linarith
  obtain ⟨b1, b2, b3, b4, b5⟩ := hbx
  generalize hM : maskOf (ts.map fun t => executeTransform interp none c t (imgs t)) = M at hmask
  -- first and last of an interval
  have rng : ∀ (n : Nat) (p : Nat → Bool) (a b : Int), 0 ≤ a → a ≤ b → b < n →
      (∀ j < n, (p j = true ↔ (a ≤ (j : Int) ∧ (j : Int) ≤ b))) →
      (validIdx n p).head? = some a.toNat ∧ (validIdx n p).getLast? = some b.toNat := by
    intro n p a b ha hab hb hp
    have hne : validIdx n p ≠ [] := by
      apply List.ne_nil_of_mem (a := a.toNat)
      simp only [validIdx, List.mem_filter, List.mem_range]
      exact ⟨by omega, (hp _ (by omega)).2 (by omega)⟩
    obtain ⟨u, hu⟩ : ∃ u, (validIdx n p).head? = some u := ⟨_, List.head?_eq_some_head hne⟩
    obtain ⟨v, hv⟩ : ∃ v, (validIdx n p).getLast? = some v := ⟨_, List.getLast?_eq_some_getLast hne⟩
    obtain ⟨o1, o2, o3, o4, o5⟩ := validIdx_le hu hv
    have q1 := (hp u (by omega)).1 o3
    have q2 := (hp v (by omega)).1 o4
    have q3 := o5 a.toNat (by omega) ((hp _ (by omega)).2 (by omega))
    have q4 := o5 b.toNat (by omega) ((hp _ (by omega)).2 (by omega))
    refine ⟨by rw [hu]; congr 1; omega, by rw [hv]; congr 1; omega⟩
  obtain ⟨r1, r2⟩ := rng s.imgsize.1 (fun y => (List.range s.imgsize.2).any fun x => M y x) ya yb b2 g2 b4 (by
    intro j hj
    simp only [List.any_eq_true, List.mem_range]
    constructor
    · rintro ⟨x, hx, hMx⟩
      have := (b5 j x).1 ((hmask j x hj hx).1 hMx)
      exact ⟨this.1, this.2.1⟩
    · intro hj2
      refine ⟨xa.toNat, by omega, (hmask j _ hj (by omega)).2 ((b5 j _).2 ⟨hj2.1, hj2.2, by omega, by omega⟩)⟩)
  obtain ⟨r3, r4⟩ := rng s.imgsize.2 (fun x => (List.range s.imgsize.1).any fun y => M y x) xa xb b1 g1 b3 (by
    intro j hj
    simp only [List.any_eq_true, List.mem_range]
    constructor
    · rintro ⟨y, hy, hMy⟩
      have := (b5 y j).1 ((hmask y j hy hj).1 hMy)
      exact ⟨this.2.2.1, this.2.2.2⟩
    · intro hj2
      refine ⟨ya.toNat, by omega, (hmask _ j (by omega) hj).2 ((b5 _ j).2 ⟨by omega, by omega, hj2.1, hj2.2⟩)⟩)
  simp only [extendfrommask, r1, r2, r3, r4]
  congr 1
  have q1 : ((xa.toNat : Nat) : Int) = xa := by omega
  have q2 : ((ya.toNat : Nat) : Int) = ya := by omega
  have q3 : ((xb.toNat : Nat) : Int) - s.imgsize.2 + s.imgsize.2 = xb := by omega
  have q4 : ((yb.toNat : Nat) : Int) - s.imgsize.1 + s.imgsize.1 = yb := by omega
  rw [q1, q2, q3, q4]

/-! ## neither padding nor cropping -/

/-- **C47.**  Without padding and cropping the translations are shifted together so that the extreme
ones are opposite: exactly for whole pixels, within one pixel otherwise.  Differences between
images are kept. -/
theorem minimal_centres (size : Nat × Nat) (ts ts' : List Tr) (h : minimaltransformation size ts ts = some ts') :
    ts'.length = ts.length ∧
    (∃ d : Tr, ts' = ts.map fun t => (t.1 + d.1, t.2 + d.2)) ∧
    (∃ a ∈ ts', ∃ b ∈ ts', (∀ t ∈ ts', a.1 ≤ t.1 ∧ t.1 ≤ b.1) ∧ |a.1 + b.1| < 1 ∧
      ((∀ t ∈ ts, ∃ n, IntTr t n) → a.1 + b.1 = 0)) ∧
    (∃ a ∈ ts', ∃ b ∈ ts', (∀ t ∈ ts', a.2 ≤ t.2 ∧ t.2 ≤ b.2) ∧ |a.2 + b.2| < 1 ∧
      ((∀ t ∈ ts, ∃ n, IntTr t n) → a.2 + b.2 = 0)) := by
  cases ts with
  | nil => simp [minimaltransformation, polygoncollectionbounds] at h
  | cons t ts =>
    simp only [minimaltransformation, polygoncollectionbounds, Bool.not_true, Bool.false_and, Bool.false_eq_true,
      if_false, Option.some.injEq] at h
    obtain ⟨hu, ⟨u1, m1, v1⟩, ⟨u2, m2, v2⟩, ⟨u3, m3, v3⟩, ⟨u4, m4, v4⟩⟩ := rawBounds_union size t ts
    generalize rawBounds size true t ts = B at *
    generalize hl : t :: ts = l at *
    generalize hdx : ((⌊B.1.1⌋ : Rat) + ⌈B.1.2⌉) / 2 - (0 + ((size.2 : Rat) - 1)) / 2 = dx at h
    generalize hdy : ((⌊B.2.1⌋ : Rat) + ⌈B.2.2⌉) / 2 - (0 + ((size.1 : Rat) - 1)) / 2 = dy at h
    subst h
    have w1 := Int.floor_le B.1.1
    have w1' := Int.lt_floor_add_one B.1.1
    have w3 := Int.floor_le B.2.1
    have w3' := Int.lt_floor_add_one B.2.1
    have w2 := Int.le_ceil B.1.2
    have w2' := Int.ceil_lt_add_one B.1.2
    have w4 := Int.le_ceil B.2.2
    have w4' := Int.ceil_lt_add_one B.2.2
    refine ⟨by simp, ⟨(dx, dy), rfl⟩, ?_, ?_⟩
    · refine ⟨_, List.mem_map_of_mem m2, _, List.mem_map_of_mem m1, ?_, ?_, ?_⟩
      · intro q hq
        obtain ⟨q', hq', rfl⟩ := List.mem_map.1 hq
        obtain ⟨e1, e2, -, -⟩ := hu q' hq'
        constructor <;> simp only [] <;> linarith
      · rw [abs_lt]; constructor <;> simp only [] <;> linarith
      · intro hint
        have f1 : (⌊B.1.1⌋ : Rat) = B.1.1 := by
          obtain ⟨n, hn, -⟩ := hint u1 m1
          rw [v1, hn]; rw [← Int.cast_neg, Int.floor_intCast]
        have f2 : (⌈B.1.2⌉ : Rat) = B.1.2 := by
          obtain ⟨n, hn, -⟩ := hint u2 m2
          have e : B.1.2 = (((size.2 : Int) - 1 - n.1 : Int) : Rat) := by rw [v2, hn]; push_cast; rfl
          rw [e, Int.ceil_intCast]
        simp only []
        rw [f1, f2] at hdx
        linarith
    · refine ⟨_, List.mem_map_of_mem m4, _, List.mem_map_of_mem m3, ?_, ?_, ?_⟩
      · intro q hq
        obtain ⟨q', hq', rfl⟩ := List.mem_map.1 hq
        obtain ⟨-, -, e1, e2⟩ := hu q' hq'
        constructor <;> simp only [] <;> linarith
      · rw [abs_lt]; constructor <;> simp only [] <;> linarith
      · intro hint
        have f1 : (⌊B.2.1⌋ : Rat) = B.2.1 := by
          obtain ⟨n, -, hn⟩ := hint u3 m3
          rw [v3, hn]; rw [← Int.cast_neg, Int.floor_intCast]
        have f2 : (⌈B.2.2⌉ : Rat) = B.2.2 := by
          obtain ⟨n, -, hn⟩ := hint u4 m4
          have e : B.2.2 = (((size.1 : Int) - 1 - n.2 : Int) : Rat) := by rw [v4, hn]; push_cast; rfl
          rw [e, Int.ceil_intCast]
        simp only []
        rw [f1, f2] at hdy
        linarith

end SC.Align
