import Verif.Resample.GridProps
/-! # Interpolation in one dimension -/
namespace SC.Resample

open SC.Axis

/-! ## Lines -/

theorem line_left (a b : ℚ × ℚ) : line a b a.1 = a.2 := by simp [line]

theorem line_right (a b : ℚ × ℚ) (h : a.1 ≠ b.1) : line a b b.1 = b.2 := by
  unfold line
  have : b.1 - a.1 ≠ 0 := sub_ne_zero.2 (Ne.symm h)
  field_simp
  ring

theorem line_affine (a b : ℚ × ℚ) (h : a.1 ≠ b.1) (α β : ℚ) (ha : a.2 = α * a.1 + β) (hb : b.2 = α * b.1 + β) (x : ℚ) :
    line a b x = α * x + β := by
  unfold line
  have : b.1 - a.1 ≠ 0 := sub_ne_zero.2 (Ne.symm h)
  rw [ha, hb]
  field_simp
  ring

theorem line_between (a b : ℚ × ℚ) (h : a.1 < b.1) (x lo hi : ℚ) (h1 : a.1 ≤ x) (h2 : x ≤ b.1) (ha : lo ≤ a.2 ∧ a.2 ≤ hi)
    (hb : lo ≤ b.2 ∧ b.2 ≤ hi) : lo ≤ line a b x ∧ line a b x ≤ hi := by
  obtain ⟨t, ht⟩ : ∃ t, t = (x - a.1) / (b.1 - a.1) := ⟨_, rfl⟩
  have hd : 0 < b.1 - a.1 := sub_pos.2 h
  have t0 : 0 ≤ t := by rw [ht]; exact div_nonneg (sub_nonneg.2 h1) hd.le
  have t1 : t ≤ 1 := by rw [ht, div_le_one hd]; linarith
  have hl : line a b x = (1 - t) * a.2 + t * b.2 := by
    unfold line
    rw [ht]
    field_simp
    ring
  rw [hl]
  constructor
  · nlinarith [mul_le_mul_of_nonneg_left ha.1 (sub_nonneg.2 t1), mul_le_mul_of_nonneg_left hb.1 t0]
  · nlinarith [mul_le_mul_of_nonneg_left ha.2 (sub_nonneg.2 t1), mul_le_mul_of_nonneg_left hb.2 t0]

/-! ## Sorted points -/

/-- Two neighbours around a position, or a single point. -/
theorem linearSeg_cases (l : List (ℚ × ℚ)) (x : ℚ) (hs : l.Pairwise (fun a b => a.1 < b.1)) (hne : l ≠ [])
    (h0 : ∀ p, l.head? = some p → p.1 ≤ x) (h1 : ∀ p, l.getLast? = some p → x ≤ p.1) :
    (∃ a b, a ∈ l ∧ b ∈ l ∧ a.1 < b.1 ∧ a.1 ≤ x ∧ x ≤ b.1 ∧ (∀ c ∈ l, c.1 ≤ a.1 ∨ b.1 ≤ c.1) ∧ linearSeg l x = line a b x) ∨ ∃ a, l = [a] ∧ a.1 = x ∧ linearSeg l x = a.2 := by
  induction l with
  | nil => exact absurd rfl hne
  | cons a r ih =>
    match r, ih, hs, h0, h1 with
    | [], _, _, h0, h1 =>
      right
      exact ⟨a, rfl, le_antisymm (h0 a rfl) (h1 a rfl), rfl⟩
    | [b], _, hs, h0, h1 =>
      left
      exact ⟨a, b, by simp, by simp, (List.pairwise_cons.1 hs).1 b (by simp), h0 a rfl, h1 b rfl, by simp, rfl⟩
    | b :: c :: t, ih, hs, h0, h1 =>
      left
      unfold linearSeg
      by_cases hx : x ≤ b.1
      · rw [if_pos hx]
        refine ⟨a, b, by simp, by simp, (List.pairwise_cons.1 hs).1 b (by simp), h0 a rfl, hx, fun d hd => ?_, rfl⟩
        rcases List.mem_cons.1 hd with rfl | hd
        · exact Or.inl (le_refl _)
        · rcases List.mem_cons.1 hd with rfl | hd
          · exact Or.inr (le_refl _)
          · exact Or.inr ((List.pairwise_cons.1 (List.pairwise_cons.1 hs).2).1 d hd).le
      · rw [if_neg hx]
        rcases ih (List.pairwise_cons.1 hs).2 (by simp) (fun p hp => by
          simp only [List.head?_cons, Option.some.injEq] at hp; subst hp; exact (not_le.1 hx).le) (fun p hp => h1 p (by
          rw [List.getLast?_cons_cons]; exact hp)) with ⟨u, v, hu, hv, r1, r2, r3, r4, r5⟩ | ⟨u, hu, -⟩
        · refine ⟨u, v, List.mem_cons_of_mem _ hu, List.mem_cons_of_mem _ hv, r1, r2, r3, fun d hd => ?_, r5⟩
          rcases List.mem_cons.1 hd with rfl | hd
          · exact Or.inl ((List.pairwise_cons.1 hs).1 u hu).le
          · exact r4 d hd
        · simp at hu

/-- The points have different positions. -/
def Distinct (pts : List (ℚ × ℚ)) : Prop := pts.Pairwise (fun a b => a.1 ≠ b.1)

theorem sorted_strict (pts : List (ℚ × ℚ)) (h : Distinct pts) :
    (SC.Common.stableSort Prod.fst pts).Pairwise (fun a b => a.1 < b.1) := by
  have h1 := SC.Common.stableSort_sorted (key := (Prod.fst : ℚ × ℚ → ℚ)) pts
  have h2 : Distinct (SC.Common.stableSort Prod.fst pts) :=
    ((SC.Common.stableSort_perm (key := (Prod.fst : ℚ × ℚ → ℚ)) pts).pairwise_iff (fun {a b} hab => Ne.symm hab)).2 h
  exact h1.imp₂ (fun a b ha hb => lt_of_le_of_ne ha hb) h2

theorem ends_sorted (l : List (ℚ × ℚ)) (hs : l.Pairwise (fun a b => a.1 < b.1)) (lo hi : ℚ) (h1 : minOf (l.map Prod.fst) = some lo)
    (h2 : maxOf (l.map Prod.fst) = some hi) : (∀ p, l.head? = some p → p.1 = lo) ∧ ∀ p, l.getLast? = some p → p.1 = hi := by
  obtain ⟨m1, m2⟩ := (minOf_iff _ _).1 h1
  obtain ⟨x1, x2⟩ := (maxOf_iff _ _).1 h2
  constructor
  · intro p hp
    cases l with
    | nil => cases hp
    | cons a r =>
      simp only [List.head?_cons, Option.some.injEq] at hp
      subst hp
      apply le_antisymm _ (m2 _ (by simp))
      obtain ⟨q, hq, rfl⟩ := List.mem_map.1 m1
      rcases List.mem_cons.1 hq with rfl | hq
      · exact le_refl _
      · exact ((List.pairwise_cons.1 hs).1 q hq).le
  · intro p hp
    obtain ⟨r, hr⟩ := List.getLast?_eq_some_iff.1 hp
    subst hr
    apply le_antisymm (x2 _ (by simp))
    obtain ⟨q, hq, rfl⟩ := List.mem_map.1 x1
    rcases List.mem_append.1 hq with hq | hq
    · exact ((List.pairwise_append.1 hs).2.2 q hq p (by simp)).le
    · simp at hq; subst hq; exact le_refl _

theorem minOf_perm {l l' : List ℚ} (h : l.Perm l') : minOf l = minOf l' := by
  cases hm : minOf l with
  | none =>
    cases l with
    | nil => rw [List.nil_perm.1 h]; rfl
    | cons => cases hm
  | some a =>
    obtain ⟨h1, h2⟩ := (minOf_iff _ _).1 hm
    exact ((minOf_iff _ _).2 ⟨h.mem_iff.1 h1, fun x hx => h2 x (h.mem_iff.2 hx)⟩).symm

theorem maxOf_perm {l l' : List ℚ} (h : l.Perm l') : maxOf l = maxOf l' := by
  cases hm : maxOf l with
  | none =>
    cases l with
    | nil => rw [List.nil_perm.1 h]; rfl
    | cons => cases hm
  | some a =>
    obtain ⟨h1, h2⟩ := (maxOf_iff _ _).1 hm
    exact ((maxOf_iff _ _).2 ⟨h.mem_iff.1 h1, fun x hx => h2 x (h.mem_iff.2 hx)⟩).symm

/-! ## interp1d -/

/-- Inside: on a line between two of the points that are on both sides, or the only point. -/
theorem linear_cases (cval : Option ℚ) (pts : List (ℚ × ℚ)) (hd : Distinct pts) (x : ℚ) (p q : ℚ × ℚ) (hp : p ∈ pts) (hq : q ∈ pts)
    (h1 : p.1 ≤ x) (h2 : x ≤ q.1) : ∃ v, interp1d linearSeg cval pts x = some v ∧
      ((∃ a b, a ∈ pts ∧ b ∈ pts ∧ a.1 < b.1 ∧ a.1 ≤ x ∧ x ≤ b.1 ∧ (∀ c ∈ pts, c.1 ≤ a.1 ∨ b.1 ≤ c.1) ∧ v = line a b x) ∨ ∃ a, pts = [a] ∧ a.1 = x ∧ v = a.2) := by
  have hperm := SC.Common.stableSort_perm (key := (Prod.fst : ℚ × ℚ → ℚ)) pts
  have hmin : ∃ lo, minOf (pts.map Prod.fst) = some lo := by
    cases pts with
    | nil => cases hp
    | cons => exact ⟨_, rfl⟩
  have hmax : ∃ hi, maxOf (pts.map Prod.fst) = some hi := by
    cases pts with
    | nil => cases hp
    | cons => exact ⟨_, rfl⟩
  obtain ⟨lo, hlo⟩ := hmin
  obtain ⟨hi, hhi⟩ := hmax
  have hin : ¬ (x < lo ∨ hi < x) := by
    rintro (hx | hx)
    · have := ((minOf_iff _ _).1 hlo).2 p.1 (List.mem_map_of_mem hp); linarith
    · have := ((maxOf_iff _ _).1 hhi).2 q.1 (List.mem_map_of_mem hq); linarith
  have hs := sorted_strict pts hd
  obtain ⟨e1, e2⟩ := ends_sorted _ hs lo hi ((minOf_perm (hperm.map _)).trans hlo) ((maxOf_perm (hperm.map _)).trans hhi)
  simp only [not_or, not_lt] at hin
  refine ⟨linearSeg (SC.Common.stableSort Prod.fst pts) x, ?_, ?_⟩
  · unfold interp1d
    rw [hlo, hhi]
    simp only
    rw [if_neg (by simp only [not_or, not_lt]; exact hin)]
  · rcases linearSeg_cases _ x hs (by
      intro hc; rw [hc] at hperm; rw [List.nil_perm.1 hperm] at hp; cases hp) (fun r hr => by rw [e1 r hr]; exact hin.1)
      (fun r hr => by rw [e2 r hr]; exact hin.2) with ⟨a, b, ha, hb, r1, r2, r3, r4, r5⟩ | ⟨a, ha, r⟩
    · exact Or.inl ⟨a, b, hperm.mem_iff.1 ha, hperm.mem_iff.1 hb, r1, r2, r3, fun c hc => r4 c (hperm.mem_iff.2 hc), r5⟩
    · right
      rw [ha] at hperm
      exact ⟨a, (List.singleton_perm.1 hperm).symm ▸ rfl, r⟩

/-- **C65.**  Data that are linear in the position are reproduced everywhere between the first and the last position. -/
theorem linear_exact (cval : Option ℚ) (pts : List (ℚ × ℚ)) (hd : Distinct pts) (α β : ℚ) (hl : ∀ p ∈ pts, p.2 = α * p.1 + β) (x : ℚ)
    (p q : ℚ × ℚ) (hp : p ∈ pts) (hq : q ∈ pts) (h1 : p.1 ≤ x) (h2 : x ≤ q.1) :
    interp1d linearSeg cval pts x = some (α * x + β) := by
  obtain ⟨v, hv, ⟨a, b, ha, hb, hab, -, -, -, rfl⟩ | ⟨a, ha, hx, rfl⟩⟩ := linear_cases cval pts hd x p q hp hq h1 h2
  · rw [hv, line_affine a b hab.ne α β (hl a ha) (hl b hb)]
  · rw [hv, hl a (by rw [ha]; simp), hx]

theorem distinct_eq {pts : List (ℚ × ℚ)} (hd : Distinct pts) {a b : ℚ × ℚ} (ha : a ∈ pts) (hb : b ∈ pts) (h : a.1 = b.1) : a = b := by
  induction pts with
  | nil => cases ha
  | cons c r ih =>
    obtain ⟨h1, h2⟩ := List.pairwise_cons.1 hd
    rcases List.mem_cons.1 ha with rfl | ha'
    · rcases List.mem_cons.1 hb with rfl | hb'
      · rfl
      · exact absurd h (h1 b hb')
    · rcases List.mem_cons.1 hb with rfl | hb'
      · exact absurd h.symm (h1 a ha')
      · exact ih h2 ha' hb'

/-- **C65.**  At a measured position the measured value. -/
theorem linear_node (cval : Option ℚ) (pts : List (ℚ × ℚ)) (hd : Distinct pts) (p : ℚ × ℚ) (hp : p ∈ pts) :
    interp1d linearSeg cval pts p.1 = some p.2 := by
  obtain ⟨v, hv, ⟨a, b, ha, hb, hab, h1, h2, hno, rfl⟩ | ⟨a, ha, hx, rfl⟩⟩ := linear_cases cval pts hd p.1 p p hp hp (le_refl _) (le_refl _)
  · rw [hv]
    congr 1
    rcases hno p hp with h | h
    · have e : a.1 = p.1 := le_antisymm h1 h
      rw [← e, line_left]
      exact congrArg Prod.snd (distinct_eq hd ha hp e)
    · have e : b.1 = p.1 := le_antisymm h h2
      rw [← e, line_right a b hab.ne]
      exact congrArg Prod.snd (distinct_eq hd hb hp e)
  · rw [hv]
    rw [ha] at hp
    simp at hp
    rw [hp]

/-- **C65.**  Between two neighbours on their line, so nothing beyond their values. -/
theorem linear_between (cval : Option ℚ) (pts : List (ℚ × ℚ)) (hd : Distinct pts) (a b : ℚ × ℚ) (ha : a ∈ pts) (hb : b ∈ pts)
    (hab : a.1 < b.1) (hno : ∀ c ∈ pts, c.1 ≤ a.1 ∨ b.1 ≤ c.1) (x : ℚ) (h1 : a.1 ≤ x) (h2 : x ≤ b.1) :
    interp1d linearSeg cval pts x = some (line a b x) ∧ min a.2 b.2 ≤ line a b x ∧ line a b x ≤ max a.2 b.2 := by
  refine ⟨?_, line_between a b hab x _ _ h1 h2 ⟨min_le_left _ _, le_max_left _ _⟩ ⟨min_le_right _ _, le_max_right _ _⟩⟩
  rcases eq_or_lt_of_le h1 with e | h1'
  · rw [← e, line_left, linear_node cval pts hd a ha]
  rcases eq_or_lt_of_le h2 with e | h2'
  · rw [e, line_right a b hab.ne, linear_node cval pts hd b hb]
  obtain ⟨v, hv, ⟨c, d, hc, hd', hcd, r1, r2, hno', rfl⟩ | ⟨c, hc, hx, rfl⟩⟩ := linear_cases cval pts hd x a b ha hb h1 h2
  · rw [hv]
    congr 1
    have e1 : a = c := by
      apply distinct_eq hd ha hc
      rcases hno c hc with h | h
      · rcases hno' a ha with h' | h'
        · exact le_antisymm h' h
        · linarith
      · linarith
    have e2 : b = d := by
      apply distinct_eq hd hb hd'
      rcases hno d hd' with h | h
      · linarith
      · rcases hno' b hb with h' | h'
        · linarith
        · exact le_antisymm h h'
    rw [e1, e2]
  · rw [hc] at ha hb
    simp at ha hb
    rw [ha, hb] at hab
    exact absurd hab (lt_irrefl _)

/-- **C65.**  Outside the value that is asked for, whatever the method. -/
theorem interp_outside (seg : List (ℚ × ℚ) → ℚ → ℚ) (cval : Option ℚ) (pts : List (ℚ × ℚ)) (x : ℚ)
    (h : (∀ p ∈ pts, x < p.1) ∨ ∀ p ∈ pts, p.1 < x) : interp1d seg cval pts x = cval := by
  unfold interp1d
  cases hlo : minOf (pts.map Prod.fst) with
  | none => rfl
  | some lo =>
    cases hhi : maxOf (pts.map Prod.fst) with
    | none => rfl
    | some hi =>
      simp only
      rw [if_pos]
      rcases h with h | h
      · left
        obtain ⟨p, hp, rfl⟩ := List.mem_map.1 ((minOf_iff _ _).1 hlo).1
        exact h p hp
      · right
        obtain ⟨p, hp, rfl⟩ := List.mem_map.1 ((maxOf_iff _ _).1 hhi).1
        exact h p hp

theorem strict_perm {l l' : List (ℚ × ℚ)} (h : l.Perm l') (hs : l.Pairwise (fun a b => a.1 < b.1)) (hs' : l'.Pairwise (fun a b => a.1 < b.1)) :
    l = l' := h.eq_of_pairwise (fun a b _ _ h1 h2 => absurd h1 (not_lt.2 h2.le)) hs hs'

/-- **C65.**  The order of the points does not matter. -/
theorem interp_perm (seg : List (ℚ × ℚ) → ℚ → ℚ) (cval : Option ℚ) (pts pts' : List (ℚ × ℚ)) (hd : Distinct pts) (h : pts.Perm pts') (x : ℚ) :
    interp1d seg cval pts x = interp1d seg cval pts' x := by
  have hd' : Distinct pts' := (h.pairwise_iff (fun {a b} hab => Ne.symm hab)).1 hd
  have hsort : SC.Common.stableSort Prod.fst pts = SC.Common.stableSort Prod.fst pts' := by
    apply strict_perm _ (sorted_strict pts hd) (sorted_strict pts' hd')
    exact (SC.Common.stableSort_perm (key := (Prod.fst : ℚ × ℚ → ℚ)) pts).trans
      (h.trans (SC.Common.stableSort_perm (key := (Prod.fst : ℚ × ℚ → ℚ)) pts').symm)
  unfold interp1d
  rw [minOf_perm (h.map _), maxOf_perm (h.map _), hsort]

/-! ## The nearest point -/

theorem nearestSeg_spec (l : List (ℚ × ℚ)) (x : ℚ) (hs : l.Pairwise (fun a b => a.1 < b.1)) (hne : l ≠ []) :
    ∃ a ∈ l, nearestSeg l x = a.2 ∧ (∀ c ∈ l, |x - a.1| ≤ |x - c.1|) := by
  have key : ∀ (l : List (ℚ × ℚ)) (a : ℚ × ℚ), (a :: l).Pairwise (fun a b => a.1 < b.1) →
      ∃ b ∈ a :: l, nearestSeg (a :: l) x = b.2 ∧ ∀ c ∈ a :: l, |x - b.1| ≤ |x - c.1| := by
    intro l
    induction l with
    | nil => intro a _; exact ⟨a, by simp, rfl, by simp⟩
    | cons b r ih =>
      intro a hs
      obtain ⟨h1, h2⟩ := List.pairwise_cons.1 hs
      have hab := h1 b (by simp)
      unfold nearestSeg
      by_cases hx : x ≤ (a.1 + b.1) / 2
      · rw [if_pos hx]
        refine ⟨a, by simp, rfl, fun c hc => ?_⟩
        rcases List.mem_cons.1 hc with rfl | hc
        · exact le_refl _
        · have hbc : b.1 ≤ c.1 := by
            rcases List.mem_cons.1 hc with rfl | hc
            · exact le_refl _
            · exact ((List.pairwise_cons.1 h2).1 c hc).le
          have e : x - c.1 ≤ 0 := by linarith
          rw [abs_of_nonpos e, abs_le]
          constructor <;> linarith
      · rw [if_neg hx]
        obtain ⟨d, hd, r1, r2⟩ := ih b h2
        refine ⟨d, List.mem_cons_of_mem _ hd, r1, fun c hc => ?_⟩
        rcases List.mem_cons.1 hc with rfl | hc
        · apply (r2 b (by simp)).trans
          push Not at hx
          have e : 0 ≤ x - c.1 := by linarith
          rw [abs_of_nonneg e, abs_le]
          constructor <;> linarith
        · exact r2 c hc
  cases l with
  | nil => exact absurd rfl hne
  | cons a r => exact key r a hs

/-- **C65.**  With degree zero: the value at one of the positions that are closest. -/
theorem nearest_spec (cval : Option ℚ) (pts : List (ℚ × ℚ)) (hd : Distinct pts) (x : ℚ) (p q : ℚ × ℚ) (hp : p ∈ pts) (hq : q ∈ pts)
    (h1 : p.1 ≤ x) (h2 : x ≤ q.1) : ∃ a ∈ pts, interp1d nearestSeg cval pts x = some a.2 ∧ ∀ c ∈ pts, |x - a.1| ≤ |x - c.1| := by
  have hperm := SC.Common.stableSort_perm (key := (Prod.fst : ℚ × ℚ → ℚ)) pts
  obtain ⟨a, ha, r1, r2⟩ := nearestSeg_spec _ x (sorted_strict pts hd) (by
    intro hc; rw [hc] at hperm; rw [List.nil_perm.1 hperm] at hp; cases hp)
  refine ⟨a, hperm.mem_iff.1 ha, ?_, fun c hc => r2 c (hperm.mem_iff.2 hc)⟩
  unfold interp1d
  cases hlo : minOf (pts.map Prod.fst) with
  | none => cases pts with
    | nil => cases hp
    | cons => cases hlo
  | some lo =>
    cases hhi : maxOf (pts.map Prod.fst) with
    | none => cases pts with
      | nil => cases hp
      | cons => cases hhi
    | some hi =>
      simp only
      rw [if_neg, r1]
      rintro (hx | hx)
      · have := ((minOf_iff _ _).1 hlo).2 p.1 (List.mem_map_of_mem hp); linarith
      · have := ((maxOf_iff _ _).1 hhi).2 q.1 (List.mem_map_of_mem hq); linarith

/-! ## Steps -/

/-- **C65.**  The value of the largest position that is not larger, for increasing positions. -/
theorem floor_spec (pts : List (ℚ × ℚ)) (hs : pts.Pairwise (fun a b => a.1 < b.1)) (x : ℚ) :
    ((∀ p ∈ pts, x < p.1) → floorAt pts x = none) ∧
    ∀ p ∈ pts, p.1 ≤ x → (∀ q ∈ pts, q.1 ≤ x → q.1 ≤ p.1) → floorAt pts x = some p.2 := by
  constructor
  · intro h
    unfold floorAt
    rw [List.filter_eq_nil_iff.2 (fun p hp => by simpa using h p hp)]
    rfl
  · intro p hp hpx hmax
    unfold floorAt
    have hf : (pts.filter fun p => decide (p.1 ≤ x)).Pairwise (fun a b => a.1 < b.1) := hs.filter _
    have hpf : p ∈ pts.filter fun p => decide (p.1 ≤ x) := List.mem_filter.2 ⟨hp, by simpa using hpx⟩
    obtain ⟨e, he⟩ := Option.ne_none_iff_exists'.1 (mt List.getLast?_eq_none_iff.1 (List.ne_nil_of_mem hpf))
    rw [he]
    obtain ⟨r, hr⟩ := List.getLast?_eq_some_iff.1 he
    have hef : e ∈ pts.filter fun p => decide (p.1 ≤ x) := by rw [hr]; simp
    obtain ⟨he1, he2⟩ := List.mem_filter.1 hef
    have h1 := hmax e he1 (by simpa using he2)
    rw [hr] at hf hpf
    rcases List.mem_append.1 hpf with h | h
    · have := (List.pairwise_append.1 hf).2.2 p h e (by simp)
      linarith
    · simp at h; rw [h]; rfl

/-- **C65.**  The value of the smallest position that is not smaller. -/
theorem ceil_spec (pts : List (ℚ × ℚ)) (hs : pts.Pairwise (fun a b => a.1 < b.1)) (x : ℚ) :
    ((∀ p ∈ pts, p.1 < x) → ceilAt pts x = none) ∧
    ∀ p ∈ pts, x ≤ p.1 → (∀ q ∈ pts, x ≤ q.1 → p.1 ≤ q.1) → ceilAt pts x = some p.2 := by
  constructor
  · intro h
    unfold ceilAt
    rw [List.filter_eq_nil_iff.2 (fun p hp => by simpa using h p hp)]
    rfl
  · intro p hp hpx hmin
    unfold ceilAt
    have hf : (pts.filter fun p => decide (x ≤ p.1)).Pairwise (fun a b => a.1 < b.1) := hs.filter _
    have hpf : p ∈ pts.filter fun p => decide (x ≤ p.1) := List.mem_filter.2 ⟨hp, by simpa using hpx⟩
    cases hl : pts.filter fun p => decide (x ≤ p.1) with
    | nil => rw [hl] at hpf; cases hpf
    | cons e r =>
      have hef : e ∈ pts.filter fun p => decide (x ≤ p.1) := by rw [hl]; simp
      obtain ⟨he1, he2⟩ := List.mem_filter.1 hef
      have h1 := hmin e he1 (by simpa using he2)
      rw [hl] at hf hpf
      rcases List.mem_cons.1 hpf with h | h
      · simp [h]
      · have := (List.pairwise_cons.1 hf).1 p h
        linarith

/-- Arrays never give numbers, and outside extrapolation never gives one. -/
theorem arrays_fail (f : ℚ → Option ℚ) (l : List ℚ) : stepCall f (.array l) = .mapObject ∧
    ∀ a q, extrapCall a ≠ .ok (.number q) := by
  refine ⟨rfl, fun a q h => ?_⟩
  cases a <;> cases h

/-- **C65.**  Outside: the line through the first or the last two points, so linear data are continued. -/
theorem extrap_spec (interp : ℚ → ℚ) (a b c d : ℚ × ℚ) (m : List (ℚ × ℚ)) (x α β : ℚ) (h1 : a.1 < b.1) (h2 : c.1 < d.1)
    (ha : a.2 = α * a.1 + β) (hb : b.2 = α * b.1 + β) (hc : c.2 = α * c.1 + β) (hd : d.2 = α * d.1 + β)
    (hi : a.1 ≤ x → x ≤ d.1 → interp x = α * x + β) :
    extrapAt interp (a :: b :: (m ++ [c, d])) x = some (α * x + β) := by
  unfold extrapAt
  simp only [List.reverse_cons, List.reverse_append, List.reverse_nil, List.nil_append, List.cons_append]
  have e1 : b.1 - a.1 ≠ 0 := by linarith
  have e2 : d.1 - c.1 ≠ 0 := by linarith
  by_cases hx : x < a.1
  · rw [if_pos hx, ha, hb]
    congr 1
    field_simp
    ring
  · rw [if_neg hx]
    by_cases hx' : d.1 < x
    · rw [if_pos hx', hc, hd]
      congr 1
      field_simp
      ring
    · rw [if_neg hx', hi (not_lt.1 hx) (not_lt.1 hx')]

/-! ## Methods -/

/-- **C65.**  The degree is that of the polynomials, at most three in one dimension; in two dimensions two means three, and
there is nothing above one in more. -/
theorem kinds (d : Int) (h : 0 ≤ d) :
    (kind1d d = if d = 0 then some .nearest else if d = 1 then some .linear else if d = 2 then some .quadratic else some .cubic) ∧
    (kindnd 2 d = if d = 0 then some .nearest else if d = 1 then some .linear else some .cubic) ∧
    ∀ n, 2 < n → kindnd n d = if d = 0 then some .nearest else some .linear := by
  have hd : d = 0 ∨ d = 1 ∨ d = 2 ∨ 3 ≤ d := by omega
  refine ⟨?_, ?_, fun n hn => ?_⟩
  · rcases hd with rfl | rfl | rfl | hd
    · rfl
    · rfl
    · rfl
    · unfold kind1d
      rw [min_eq_right hd, if_neg (by omega), if_neg (by omega), if_neg (by omega)]
      rfl
  · rcases hd with rfl | rfl | rfl | hd
    · rfl
    · rfl
    · rfl
    · unfold kindnd
      have h0 : ¬ d = 0 := by omega
      have h1 : ¬ d = 1 := by omega
      rw [min_eq_right hd, if_pos rfl]
      simp only [if_neg h0, if_neg h1]
      rfl
  · unfold kindnd
    rw [if_neg (by omega)]

example : interp1d linearSeg none [(3, 30), (1, 10), (2, 40)] (3/2) = some 25 := by decide +kernel
example : interp1d linearSeg none [(3, 30), (1, 10), (2, 40)] (7/2) = none := by decide +kernel
example : interp1d nearestSeg none [(3, 30), (1, 10), (2, 40)] (8/5) = some 40 := by decide +kernel
example : Distinct [(3, 30), (1, 10), (2, 40)] := by unfold Distinct; decide +kernel
example : floorAt [(1, 10), (2, 40), (3, 30)] (5/2) = some 40 ∧ ceilAt [(1, 10), (2, 40), (3, 30)] (5/2) = some 30 := by decide +kernel

end SC.Resample
