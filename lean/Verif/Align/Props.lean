import Verif.Align.LemmasAxes
/-! # C27, C47: alignment bookkeeping -/
namespace SC.Align
open SC.Py

/-! ## reachable states -/

theorem cons_parse {s : St} (h1 : 1 ≤ s.imgsize.1) (h2 : 1 ≤ s.imgsize.2) {p q : Bool} (hs : (p || q) = false → s.pad = false ∧ s.crop = false)
    {c : Tr} {ts : List Tr} {r : St × List Tr} (h : parseTransformation s p q c ts = some r) :
    r.1.imgsize = s.imgsize ∧ Cons r.1 := by
  simp only [parseTransformation] at h
  split at h
  · rw [rawFrame_eq] at h
    simp only [extendfromtransformation] at h
    cases hb : polygoncollectionbounds s.imgsize p ts with
    | error => simp [hb] at h
    | nothing =>
      simp only [hb, Option.map_some, Option.some.injEq] at h
      subst h
      exact ⟨rfl, Or.inl ⟨rfl, rfl⟩⟩
    | box a b d e =>
      simp only [hb, Option.map_some, Option.some.injEq] at h
      subst h
      obtain ⟨g1, g2⟩ := box_ordered h1 h2 hb
      exact ⟨rfl, Or.inr (extended_setextend _ _ _ _ _ g1 g2)⟩
  · rename_i hn
    have hn : (p || q) = false := by simpa using hn
    cases hm : minimaltransformation s.imgsize (rawFrame c ts) ts with
    | none => simp [hm] at h
    | some l =>
      simp only [hm, Option.map_some, Option.some.injEq] at h
      subst h
      exact ⟨rfl, Or.inl (hs hn)⟩

theorem validIdx_le {n : Nat} {p : Nat → Bool} {a b : Nat} (ha : (validIdx n p).head? = some a)
    (hb : (validIdx n p).getLast? = some b) : a ≤ b ∧ b < n ∧ p a = true ∧ p b = true ∧
      ∀ k < n, p k = true → a ≤ k ∧ k ≤ b := by
  have hs : (validIdx n p).Pairwise (· < ·) := List.Pairwise.filter _ List.pairwise_lt_range
  have hma : a ∈ validIdx n p := List.mem_of_mem_head? (by rw [ha]; rfl)
  have hmb : b ∈ validIdx n p := List.mem_of_getLast? hb
  have key : ∀ k ∈ validIdx n p, a ≤ k ∧ k ≤ b := by
    intro k hk
    constructor
    · obtain ⟨l, hl⟩ : ∃ l, validIdx n p = a :: l := by
        cases hv : validIdx n p with
        | nil => simp [hv] at ha
        | cons x l => simp only [hv, List.head?_cons, Option.some.injEq] at ha; exact ⟨l, by rw [ha]⟩
      rw [hl] at hk hs
      rcases List.mem_cons.1 hk with rfl | hk
      · exact le_refl _
      · exact le_of_lt (List.rel_of_pairwise_cons hs hk)
    · obtain ⟨l, hl⟩ : ∃ l, validIdx n p = l ++ [b] := by
        exact ⟨(validIdx n p).dropLast, (List.dropLast_append_getLast? b hb).symm⟩
      rw [hl] at hk hs
      rcases List.mem_append.1 hk with hk | hk
      · exact le_of_lt ((List.pairwise_append.1 hs).2.2 k hk b (by simp))
      · simp only [List.mem_singleton] at hk; omega
  simp only [validIdx, List.mem_filter, List.mem_range] at hma hmb key
  exact ⟨(key b hmb).1, hmb.1, hma.2, hmb.2, fun k h1 h2 => key k ⟨h1, h2⟩⟩

/-- What `extendfrommask` computes. -/
theorem extendfrommask_inv {s : St} {mh mw : Nat} {mask : Nat → Nat → Bool} {s' : St}
    (h : extendfrommask s mh mw mask = some s') : ∃ r0 r1 c0 c1 : Nat,
      s' = setextend s c0 r0 ((c1 : Int) - mw + s.imgsize.2) ((r1 : Int) - mh + s.imgsize.1) ∧
      (validIdx mh fun y => (List.range mw).any fun x => mask y x).head? = some r0 ∧
      (validIdx mh fun y => (List.range mw).any fun x => mask y x).getLast? = some r1 ∧
      (validIdx mw fun x => (List.range mh).any fun y => mask y x).head? = some c0 ∧
      (validIdx mw fun x => (List.range mh).any fun y => mask y x).getLast? = some c1 := by
  simp only [extendfrommask] at h
  split at h
  · rename_i r0 r1 c0 c1 g1 g2 g3 g4
    simp only [Option.some.injEq] at h
    exact ⟨r0, r1, c0, c1, h.symm, g1, g2, g3, g4⟩
  · simp at h

/-- The state in which the images are transformed is consistent, whatever it was before. -/
theorem cons_alignCall {s : St} (h1 : 1 ≤ s.imgsize.1) (h2 : 1 ≤ s.imgsize.2) {k : Call} (hk : k.Ok s.imgsize)
    {r : St × List Tr} (h : alignCall s k = some r) : r.1.imgsize = s.imgsize ∧ Cons r.1 := by
  simp only [alignCall] at h
  split at h
  · split at h
    · cases hm : extendfrommask { s with pad := k.padReq, crop := k.cropReq } k.mh k.mw k.mask with
      | none => simp [hm] at h
      | some s' =>
        simp only [hm, Option.map_some, Option.some.injEq] at h
        subst h
        obtain ⟨r0, r1, c0, c1, rfl, g1, g2, g3, g4⟩ := extendfrommask_inv hm
        obtain ⟨a1, a2, -⟩ := validIdx_le g1 g2
        obtain ⟨b1, b2, -⟩ := validIdx_le g3 g4
        obtain ⟨m1, m2⟩ := hk
        refine ⟨rfl, Or.inr (extended_setextend _ _ _ _ _ ?_ ?_)⟩ <;> simp only [] <;> omega
    · refine cons_parse (s := { s with pad := k.padReq, crop := k.cropReq }) h1 h2 (fun hh => ?_) h
      simpa [Bool.or_eq_false_iff] using hh
  · rename_i hn
    simp only [Bool.or_eq_true, not_or, Bool.not_eq_true] at hn
    simp only [Option.some.injEq] at h
    subst h
    exact ⟨rfl, Or.inl ⟨hn.1.2, hn.2⟩⟩

theorem cons_alignCalls {ks : List Call} {s : St} (h1 : 1 ≤ s.imgsize.1) (h2 : 1 ≤ s.imgsize.2)
    (hk : ∀ k ∈ ks, k.Ok s.imgsize) {r : St × List Tr} (h : alignCalls s ks = some r) :
    r.1.imgsize = s.imgsize ∧ Cons r.1 := by
  induction ks generalizing s with
  | nil => simp [alignCalls] at h
  | cons k ks ih =>
    cases ks with
    | nil =>
      simp only [alignCalls] at h
      exact cons_alignCall h1 h2 (hk k (by simp)) h
    | cons k' ks =>
      simp only [alignCalls] at h ih
      cases hc : alignCall s k with
      | none => simp [hc] at h
      | some r' =>
        simp only [hc, Option.bind_some] at h
        obtain ⟨g1, -⟩ := cons_alignCall h1 h2 (hk k (by simp)) hc
        obtain ⟨g3, g4⟩ := ih (s := r'.1) (by rw [g1]; exact h1) (by rw [g1]; exact h2)
          (fun q hq => by rw [g1]; exact hk q (List.mem_cons_of_mem _ hq)) h
        exact ⟨g3.trans g1, g4⟩

/-! ## sizes and pixels -/

theorem destImgsize_ext (s : St) : destImgsize s =
    ((s.imgsize.1 : Int) + (ext s).1.1 + (ext s).1.2, (s.imgsize.2 : Int) + (ext s).2.1 + (ext s).2.2) := by
  simp only [destImgsize, ext]
  split <;> simp

theorem pure_ext {s : St} (hs : Cons s) {t : Tr} (h : pureidentity s t = true) : ext s = ((0, 0), (0, 0)) ∧ t = (0, 0) := by
  simp only [pureidentity, nopreTransform, Bool.and_eq_true, decide_eq_true_eq, Bool.not_eq_true'] at h
  obtain ⟨⟨⟨⟨⟨a1, a2⟩, a3⟩, a4⟩, hc⟩, ht⟩ := h
  refine ⟨?_, ht⟩
  rcases hs with ⟨p, c⟩ | ⟨p, c, -, -⟩
  · simp [ext, p, c]
  · have : s.pad = false := by
      rw [p]; simp only [Bool.or_eq_false_iff, decide_eq_false_iff_not]; omega
    simp [ext, this, hc]

theorem extended_ext {s : St} (hs : Extended s) : ext s = (s.e1, s.e2) := by
  simp only [ext]
  split
  · rfl
  · rename_i h
    obtain ⟨p, c, -, -⟩ := hs
    simp only [Bool.or_eq_true, not_or, Bool.not_eq_true] at h
    rw [h.1] at p; rw [h.2] at c
    have p := p.symm; have c := c.symm
    simp only [Bool.or_eq_false_iff, decide_eq_false_iff_not] at p c
    have q1 : s.e1 = (0, 0) := by ext <;> simp only [] <;> omega
    have q2 : s.e2 = (0, 0) := by ext <;> simp only [] <;> omega
    rw [q1, q2]

theorem transform_size {s : St} (hs : Cons s) (interp : Img → Rat → Rat → Px) (cval : Px) (c t : Tr) (img : Img)
    (hh : img.h = s.imgsize.1) (hw : img.w = s.imgsize.2) :
    (((transform interp cval s c t img).h : Int), ((transform interp cval s c t img).w : Int)) = destImgsize s := by
  rw [destImgsize_ext]
  by_cases hp : pureidentity s t = true
  · rw [(pure_ext hs hp).1]
    simp [transform, hp, hh, hw]
  · rcases hs with ⟨p, q⟩ | hs
    · simp only [transform, hp, p, q, ext, Bool.false_eq_true, if_false, Bool.or_self]
      rw [(executeTransform_size _ _ _ _ _).1, (executeTransform_size _ _ _ _ _).2, hh, hw]
      simp
    · rw [extended_ext hs]
      obtain ⟨p1, p2, -⟩ := pad_spec cval s hs img
      simp only [transform, hp, Bool.false_eq_true, if_false]
      generalize (if s.pad then pad cval s img else img) = q at p1 p2 ⊢
      obtain ⟨q1, q2⟩ := executeTransform_size interp cval c t q
      rw [hh, ← q1] at p1
      rw [hw, ← q2] at p2
      obtain ⟨c1, c2, -⟩ := crop_spec s hs _ p1 p2
      rw [c1, c2]

/-- **C27.**  For all image sizes and all sequences of alignments (padding, cropping, both or
neither, pairwise or to a reference, any translations): the predicted destination size is the size of
every transformed image. -/
theorem dest_size (size : Nat × Nat) (h1 : 1 ≤ size.1) (h2 : 1 ≤ size.2) (ks : List Call)
    (hk : ∀ k ∈ ks, k.Ok size) (s : St) (ts : List Tr) (h : alignCalls (init size) ks = some (s, ts))
    (interp : Img → Rat → Rat → Px) (cval : Px) (c t : Tr) (img : Img) (hh : img.h = size.1) (hw : img.w = size.2) :
    (((transform interp cval s c t img).h : Int), ((transform interp cval s c t img).w : Int)) = destImgsize s ∧
    0 < (destImgsize s).1 ∧ 0 < (destImgsize s).2 := by
  obtain ⟨g1, g2⟩ := cons_alignCalls (s := init size) h1 h2 hk h
  simp only [] at g1 g2
  have e1 : s.imgsize = size := g1
  refine ⟨transform_size g2 interp cval c t img (by rw [e1]; exact hh) (by rw [e1]; exact hw), ?_⟩
  rw [destImgsize_ext, e1]
  rcases g2 with ⟨p, q⟩ | hs
  · simp only [ext, p, q, Bool.or_self, Bool.false_eq_true, if_false]; omega
  · rw [extended_ext hs]
    obtain ⟨-, -, a, b⟩ := hs
    rw [e1] at a b
    simp only []; omega

/-- **C27.**  Pixels of the transformed image, for translations by whole pixels: output pixel
`(y, x)` is the raw pixel at `(y - e, x - e') + t`, and `cval` outside the raw image, where `e`, `e'`
are the numbers of rows and columns added at the start. -/
theorem transform_pixel {s : St} (hs : Cons s) (interp : Img → Rat → Rat → Px) (cval : Px) (c t : Tr)
    (n : Int × Int) (ht : IntTr t n) (img : Img) (hh : img.h = s.imgsize.1) (hw : img.w = s.imgsize.2)
    (y x : Int) (hy : 0 ≤ y ∧ y < (destImgsize s).1) (hx : 0 ≤ x ∧ x < (destImgsize s).2) :
    (transform interp cval s c t img).get y x =
      rawPixel cval img (y - (ext s).1.1 + n.2) (x - (ext s).2.1 + n.1) := by
  rw [destImgsize_ext] at hy hx
  simp only [] at hy hx
  by_cases hp : pureidentity s t = true
  · obtain ⟨a, b⟩ := pure_ext hs hp
    rw [a] at hy hx ⊢
    simp only [add_zero] at hy hx
    obtain ⟨h1, h2⟩ := ht
    have e1 : n.1 = 0 := by
      have : (n.1 : Rat) = 0 := by rw [← h1, b]
      exact_mod_cast this
    have e2 : n.2 = 0 := by
      have : (n.2 : Rat) = 0 := by rw [← h2, b]
      exact_mod_cast this
    simp only [transform, hp, if_true, e1, e2, sub_zero, add_zero]
    rw [rawPixel, if_pos (by rw [hh, hw]; exact ⟨hy.1, hy.2, hx.1, hx.2⟩)]
  · rcases hs with ⟨p, q⟩ | hs
    · simp only [ext, p, q, Bool.or_self, Bool.false_eq_true, if_false, add_zero, sub_zero] at hy hx ⊢
      simp only [transform, hp, p, q, Bool.false_eq_true, if_false]
      exact executeTransform_int interp cval c t img n ht y x (by rw [hh]; exact hy) (by rw [hw]; exact hx)
    · rw [extended_ext hs] at hy hx ⊢
      simp only [] at hy hx
      obtain ⟨p1, p2, p3⟩ := pad_spec cval s hs img
      simp only [transform, hp, Bool.false_eq_true, if_false]
      generalize hq : (if s.pad then pad cval s img else img) = q at p1 p2 p3 ⊢
      obtain ⟨q1, q2⟩ := executeTransform_size interp cval c t q
      obtain ⟨-, -, c3⟩ := crop_spec s hs (executeTransform interp cval c t q) (by rw [q1, p1, hh]) (by rw [q2, p2, hw])
      rw [c3]
      rw [executeTransform_int interp cval c t q n ht _ _ (by omega) (by omega)]
      simp only [rawPixel] at p3 ⊢
      by_cases hin : 0 ≤ y + max (-s.e1.1) 0 + n.2 ∧ y + max (-s.e1.1) 0 + n.2 < q.h ∧
          0 ≤ x + max (-s.e2.1) 0 + n.1 ∧ x + max (-s.e2.1) 0 + n.1 < q.w
      · rw [if_pos hin, p3 _ _ hin.1 hin.2.1 hin.2.2.1 hin.2.2.2]
        have i1 : y + max (-s.e1.1) 0 + n.2 - max s.e1.1 0 = y - s.e1.1 + n.2 := by omega
        have i2 : x + max (-s.e2.1) 0 + n.1 - max s.e2.1 0 = x - s.e2.1 + n.1 := by omega
        rw [i1, i2]
      · rw [if_neg hin, if_neg (by omega)]

/-! ## axes -/

/-- The extension when one image has the identity: padding only adds, cropping only removes. -/
theorem alignCall_fits {s : St} (h1 : 1 ≤ s.imgsize.1) (h2 : 1 ≤ s.imgsize.2) {k : Call} (hk : k.Ok s.imgsize)
    (h0 : ((0, 0) : Tr) ∈ k.ts) {r : St × List Tr} (h : alignCall s k = some r) :
    0 ≤ (s.imgsize.1 : Int) + (ext r.1).1.1 ∧ 0 ≤ (s.imgsize.1 : Int) + (ext r.1).1.2 ∧
    0 ≤ (s.imgsize.2 : Int) + (ext r.1).2.1 ∧ 0 ≤ (s.imgsize.2 : Int) + (ext r.1).2.2 := by
  have triv : ∀ r' : St × List Tr, r'.1.pad = false → r'.1.crop = false →
      0 ≤ (s.imgsize.1 : Int) + (ext r'.1).1.1 ∧ 0 ≤ (s.imgsize.1 : Int) + (ext r'.1).1.2 ∧
      0 ≤ (s.imgsize.2 : Int) + (ext r'.1).2.1 ∧ 0 ≤ (s.imgsize.2 : Int) + (ext r'.1).2.2 := by
    intro r' p q
    simp only [ext, p, q, Bool.or_self, Bool.false_eq_true, if_false]; omega
  simp only [alignCall] at h
  split at h
  · split at h
    · cases hm : extendfrommask { s with pad := k.padReq, crop := k.cropReq } k.mh k.mw k.mask with
      | none => simp [hm] at h
      | some s' =>
        simp only [hm, Option.map_some, Option.some.injEq] at h
        subst h
        obtain ⟨r0, r1, c0, c1, rfl, g1, g2, g3, g4⟩ := extendfrommask_inv hm
        obtain ⟨a1, a2, -⟩ := validIdx_le g1 g2
        obtain ⟨b1, b2, -⟩ := validIdx_le g3 g4
        obtain ⟨m1, m2⟩ := hk
        rw [extended_ext (extended_setextend _ _ _ _ _ (by simp only []; omega) (by simp only []; omega))]
        simp only [setextend]
        omega
    · simp only [parseTransformation] at h
      split at h
      · rw [rawFrame_eq] at h
        simp only [extendfromtransformation] at h
        cases hb : polygoncollectionbounds s.imgsize k.padReq k.ts with
        | error => simp [hb] at h
        | nothing =>
          simp only [hb, Option.map_some, Option.some.injEq] at h
          subst h
          exact triv _ rfl rfl
        | box a b d e =>
          simp only [hb, Option.map_some, Option.some.injEq] at h
          subst h
          obtain ⟨g1, g2⟩ := box_ordered h1 h2 hb
          rw [extended_ext (extended_setextend _ _ _ _ _ g1 g2)]
          simp only [setextend]
          cases hts : k.ts with
          | nil => simp [hts] at h0
          | cons t ts =>
            rw [hts] at hb h0
            cases hp : k.padReq with
            | true =>
              simp only [hp, polygoncollectionbounds, Bool.not_true, Bool.false_and, Bool.false_eq_true, if_false,
                Bounds.box.injEq] at hb
              obtain ⟨rfl, rfl, rfl, rfl⟩ := hb
              obtain ⟨hu, -⟩ := rawBounds_union s.imgsize t ts
              obtain ⟨u1, u2, u3, u4⟩ := hu _ h0
              simp only [neg_zero, sub_zero] at u1 u2 u3 u4
              have w1 := Int.floor_le (rawBounds s.imgsize true t ts).1.1
              have w3 := Int.floor_le (rawBounds s.imgsize true t ts).2.1
              have w2 := Int.le_ceil (rawBounds s.imgsize true t ts).1.2
              have w4 := Int.le_ceil (rawBounds s.imgsize true t ts).2.2
              have z1 : ⌊(rawBounds s.imgsize true t ts).1.1⌋ ≤ 0 := by exact_mod_cast le_trans w1 u1
              have z3 : ⌊(rawBounds s.imgsize true t ts).2.1⌋ ≤ 0 := by exact_mod_cast le_trans w3 u3
              have z2 : (s.imgsize.2 : Int) - 1 ≤ ⌈(rawBounds s.imgsize true t ts).1.2⌉ := by exact_mod_cast le_trans u2 w2
              have z4 : (s.imgsize.1 : Int) - 1 ≤ ⌈(rawBounds s.imgsize true t ts).2.2⌉ := by exact_mod_cast le_trans u4 w4
              omega
            | false =>
              simp only [hp, polygoncollectionbounds, Bool.not_false, Bool.true_and] at hb
              split at hb
              · simp at hb
              · simp only [Bounds.box.injEq] at hb
                obtain ⟨rfl, rfl, rfl, rfl⟩ := hb
                obtain ⟨hu, -⟩ := rawBounds_inter s.imgsize t ts
                obtain ⟨u1, u2, u3, u4⟩ := hu _ h0
                simp only [neg_zero, sub_zero] at u1 u2 u3 u4
                have z1 : 0 ≤ ⌊(rawBounds s.imgsize false t ts).1.1⌋ := Int.floor_nonneg.2 u1
                have z3 : 0 ≤ ⌊(rawBounds s.imgsize false t ts).2.1⌋ := Int.floor_nonneg.2 u3
                have z2 : ⌈(rawBounds s.imgsize false t ts).1.2⌉ ≤ (s.imgsize.2 : Int) - 1 := by
                  rw [Int.ceil_le]; push_cast; exact u2
                have z4 : ⌈(rawBounds s.imgsize false t ts).2.2⌉ ≤ (s.imgsize.1 : Int) - 1 := by
                  rw [Int.ceil_le]; push_cast; exact u4
                omega
      · rename_i hn
        have hn : (k.padReq || k.cropReq) = false := by simpa using hn
        cases hm : minimaltransformation s.imgsize (rawFrame k.c k.ts) k.ts with
        | none => simp [hm] at h
        | some l =>
          simp only [hm, Option.map_some, Option.some.injEq] at h
          subst h
          rw [Bool.or_eq_false_iff] at hn
          exact triv _ hn.1 hn.2
  · rename_i hn
    simp only [Bool.or_eq_true, not_or, Bool.not_eq_true] at hn
    simp only [Option.some.injEq] at h
    subst h
    exact triv _ hn.1.2 hn.2

/-- One transformed axis. -/
theorem axis_ok (ax : List Rat) (e : Int × Int) (N : Int) (hN : N = (ax.length : Int) + e.1 + e.2)
    (hpos : 0 ≤ N) (f1 : 0 ≤ (ax.length : Int) + e.1) (f2 : 0 ≤ (ax.length : Int) + e.2)
    (h2 : 0 < e.1 ∨ 0 < e.2 → 2 ≤ ax.length) :
    ∃ r, newAxis ax e.1 e.2 = some r ∧ (r.length : Int) = N ∧
      ∀ k : Nat, k < r.length → r.getD k none = some (axisAt ax ((k : Int) - e.1)) := by
  obtain ⟨r, a, b, c⟩ := newAxis_spec ax e.1 e.2 (by omega) f1 f2 h2
  exact ⟨r, a, by omega, c⟩

/-- **C27.**  The axes after an alignment in which one image keeps its place (`reference_identity`
below): when every axis that is padded has at least two values, `transform_axes` succeeds, leaves the
stack axis alone, and gives the two image axes the length of the destination image; entry `k` is the
value of the original axis at the raw position `k - e`, of the straight continuation outside. -/
theorem axes_partial (s : St) (h1 : 1 ≤ s.imgsize.1) (h2 : 1 ≤ s.imgsize.2) (k : Call) (hk : k.Ok s.imgsize)
    (h0 : ((0, 0) : Tr) ∈ k.ts) (s' : St) (ts : List Tr) (h : alignCall s k = some (s', ts))
    (sd : Nat) (hsd : sd < 3) (axes : List (List Rat)) (h3 : axes.length = 3)
    (hl1 : (axes.getD (imageDims sd).1 []).length = s.imgsize.1)
    (hl2 : (axes.getD (imageDims sd).2 []).length = s.imgsize.2)
    (p1 : 0 < (ext s').1.1 ∨ 0 < (ext s').1.2 → 2 ≤ s.imgsize.1)
    (p2 : 0 < (ext s').2.1 ∨ 0 < (ext s').2.2 → 2 ≤ s.imgsize.2) :
    ∃ out, transformAxes s' sd axes = some out ∧ out.length = 3 ∧
      out.getD sd [] = (axes.getD sd []).map some ∧
      ((out.getD (imageDims sd).1 []).length : Int) = (destImgsize s').1 ∧
      ((out.getD (imageDims sd).2 []).length : Int) = (destImgsize s').2 ∧
      (∀ i : Nat, i < (out.getD (imageDims sd).1 []).length → (out.getD (imageDims sd).1 []).getD i none =
        some (axisAt (axes.getD (imageDims sd).1 []) ((i : Int) - (ext s').1.1))) ∧
      (∀ i : Nat, i < (out.getD (imageDims sd).2 []).length → (out.getD (imageDims sd).2 []).getD i none =
        some (axisAt (axes.getD (imageDims sd).2 []) ((i : Int) - (ext s').2.1))) := by
  obtain ⟨g1, g2⟩ := cons_alignCall h1 h2 hk h
  obtain ⟨f1, f2, f3, f4⟩ := alignCall_fits h1 h2 hk h0 h
  simp only [] at g1 g2 f1 f2 f3 f4
  have hdims : (imageDims sd).1 < 3 ∧ (imageDims sd).2 < 3 ∧ (imageDims sd).1 ≠ (imageDims sd).2 ∧
      (imageDims sd).1 ≠ sd ∧ (imageDims sd).2 ≠ sd := by
    simp only [imageDims]; repeat' split
    all_goals (refine ⟨?_, ?_, ?_, ?_, ?_⟩ <;> simp only [] <;> omega)
  obtain ⟨d1, d2, d3, d4, d5⟩ := hdims
  have hdi : destImgsize s' = ((s.imgsize.1 : Int) + (ext s').1.1 + (ext s').1.2, (s.imgsize.2 : Int) + (ext s').2.1 + (ext s').2.2) := by
    rw [destImgsize_ext, g1]
  have hmap : ∀ j : Nat, (axes.map fun (a : List Rat) => a.map some).getD j [] = (axes.getD j []).map some := by
    intro j
    rw [List.getD_eq_getElem?_getD, List.getD_eq_getElem?_getD, List.getElem?_map]
    cases axes[j]? <;> rfl
  by_cases hf : (!s'.pad && !s'.crop) = true
  · have he : ext s' = ((0, 0), (0, 0)) := by
      simp only [Bool.and_eq_true, Bool.not_eq_true'] at hf
      simp [ext, hf.1, hf.2]
    have hval : ∀ (ax : List Rat) (i : Nat), i < (ax.map some).length →
        (ax.map some).getD i none = some (axisAt ax ((i : Int) - 0)) := by
      intro ax i hi
      rw [List.length_map] at hi
      rw [List.getD_eq_getElem?_getD, List.getElem?_map, List.getElem?_eq_getElem hi]
      simp only [axisAt, sub_zero]
      rw [if_neg (by omega), if_pos (by omega), Int.toNat_natCast, List.getD_eq_getElem?_getD, List.getElem?_eq_getElem hi]
      rfl
    refine ⟨_, by simp only [transformAxes, hf, if_true], by simp [h3], hmap sd, ?_, ?_, ?_, ?_⟩
    · rw [hmap, List.length_map, hl1, hdi, he]; simp
    · rw [hmap, List.length_map, hl2, hdi, he]; simp
    · rw [hmap, he]; exact hval _
    · rw [hmap, he]; exact hval _
  · have he : ext s' = (s'.e1, s'.e2) := by
      simp only [Bool.and_eq_true, Bool.not_eq_true', not_and, Bool.not_eq_false] at hf
      simp only [ext]
      rw [if_pos]
      cases hp : s'.pad
      · simp [hf hp]
      · rfl
    have hex : Extended s' := by
      rcases g2 with ⟨p, q⟩ | g2
      · simp [p, q] at hf
      · exact g2
    obtain ⟨-, -, n1, n2⟩ := hex
    rw [g1] at n1 n2
    rw [he] at f1 f2 f3 f4 p1 p2 hdi ⊢
    simp only [] at f1 f2 f3 f4 p1 p2
    obtain ⟨r1, a1, b1, c1⟩ := axis_ok (axes.getD (imageDims sd).1 []) s'.e1 (s.imgsize.1 + s'.e1.1 + s'.e1.2)
      (by rw [hl1]) (by omega) (by rw [hl1]; exact f1) (by rw [hl1]; exact f2) (by rw [hl1]; exact p1)
    obtain ⟨r2, a2, b2, c2⟩ := axis_ok (axes.getD (imageDims sd).2 []) s'.e2 (s.imgsize.2 + s'.e2.1 + s'.e2.2)
      (by rw [hl2]) (by omega) (by rw [hl2]; exact f3) (by rw [hl2]; exact f4) (by rw [hl2]; exact p2)
    have x1 : axes[(imageDims sd).1]? = some (axes.getD (imageDims sd).1 []) := by
      rw [List.getD_eq_getElem?_getD, List.getElem?_eq_getElem (by omega)]; rfl
    have x2 : axes[(imageDims sd).2]? = some (axes.getD (imageDims sd).2 []) := by
      rw [List.getD_eq_getElem?_getD, List.getElem?_eq_getElem (by omega)]; rfl
    refine ⟨(((axes.map fun (a : List Rat) => a.map some).set (imageDims sd).1 r1).set (imageDims sd).2 r2), ?_, by simp [h3], ?_, ?_⟩
    · simp only [transformAxes, hf, x1, x2, a1, a2, Option.bind_some, Bool.false_eq_true, if_false]
    · rw [← hmap sd]
      simp only [List.getD_eq_getElem?_getD]
      rw [List.getElem?_set_ne d5, List.getElem?_set_ne d4]
    · have y1 : (((axes.map fun (a : List Rat) => a.map some).set (imageDims sd).1 r1).set (imageDims sd).2 r2).getD (imageDims sd).1 [] = r1 := by
        rw [List.getD_eq_getElem?_getD, List.getElem?_set_ne d3.symm, List.getElem?_set_self (by simp only [List.length_map]; omega)]
        rfl
      have y2 : (((axes.map fun (a : List Rat) => a.map some).set (imageDims sd).1 r1).set (imageDims sd).2 r2).getD (imageDims sd).2 [] = r2 := by
        rw [List.getD_eq_getElem?_getD, List.getElem?_set_self (by simp only [List.length_set, List.length_map]; omega)]
        rfl
      rw [y1, y2, hdi]
      exact ⟨b1, b2, c1, c2⟩

end SC.Align
