import Verif.Linop.FLemmas
import Mathlib.Order.MinMax
/-! # Clipping: closed forms, commutation and combination -/
namespace SC.Linop
open F

variable {K : Type} [Field K] [LinearOrder K]

/-- A limit is absent, NaN, or a proper limit. -/
theorem limit_cases (c : Option (F K)) :
    validLimit c = false ∨ ∃ v, c = some v ∧ v ≠ nan ∧ validLimit c = true := by
  cases c with
  | none => exact Or.inl rfl
  | some v => cases v <;> simp [validLimit]

theorem valid_some {v : F K} (h : v ≠ nan) : validLimit (some v) = true := by
  cases v <;> simp_all [validLimit]

theorem evalClip_nan (lo hi : Option (F K)) : evalClip lo hi nan = nan := by
  unfold evalClip
  split
  · simp only
    have h1 : (if validLimit lo = true then below lo (lo.getD nan) nan else nan) = (nan : F K) := by
      split
      · cases lo <;> simp [below]
      · rfl
    rw [h1]
    split
    · cases hi <;> simp [above]
    · rfl
  · rfl

theorem evalNclip_nan (lo hi : Option (F K)) : evalNclip lo hi nan = nan := by
  unfold evalNclip
  simp only
  have h1 : (if validLimit lo = true then below lo nan nan else nan) = (nan : F K) := by
    split
    · cases lo <;> simp [below]
    · rfl
  rw [h1]
  split
  · cases hi <;> simp [above]
  · rfl

/-! closed forms -/

theorem clip_00 {lo hi : Option (F K)} (h1 : validLimit lo = false) (h2 : validLimit hi = false) (x : F K) :
    evalClip lo hi x = x := by simp [evalClip, validLimits, h1, h2]

theorem clip_10 {a : F K} {hi : Option (F K)} (h1 : validLimit (some a) = true) (h2 : validLimit hi = false) (x : F K) :
    evalClip (some a) hi x = if lt x a then a else x := by
  simp [evalClip, validLimits, h1, h2, below]

theorem clip_01 {b : F K} {lo : Option (F K)} (h1 : validLimit lo = false) (h2 : validLimit (some b) = true) (x : F K) :
    evalClip lo (some b) x = if lt b x then b else x := by
  simp [evalClip, validLimits, h1, h2, above]

theorem clip_11 {a b : F K} (h1 : validLimit (some a) = true) (h2 : validLimit (some b) = true) (x : F K) :
    evalClip (some a) (some b) x =
      if le a b then (if lt b (if lt x a then a else x) then b else (if lt x a then a else x)) else nan := by
  simp [evalClip, validLimits, h1, h2, below, above]

theorem clip_11' {a b : F K} (ha : a ≠ nan) (hb : b ≠ nan) (hle : le a b = true) (x : F K) :
    evalClip (some a) (some b) x = if lt x a then a else if lt b x then b else x := by
  have hva : validLimit (some a) = true := by cases a <;> simp_all [validLimit]
  have hvb : validLimit (some b) = true := by cases b <;> simp_all [validLimit]
  rw [clip_11 hva hvb, if_pos hle]
  by_cases h : lt x a = true
  · have : lt b a = false := by
      rw [← Bool.not_eq_true, lt_val hb ha, not_lt]
      exact (le_val ha hb).mp hle
    simp [h, this]
  · simp [h]

theorem clip_11_swap {a b : F K} (ha : a ≠ nan) (hb : b ≠ nan) (hle : le a b = true) (x : F K) :
    evalClip (some a) (some b) x = if lt b x then b else if lt x a then a else x := by
  rw [clip_11' ha hb hle]
  by_cases hx : x = nan
  · subst hx; simp
  · by_cases h : lt x a = true
    · have : lt b x = false := by
        rw [← Bool.not_eq_true, lt_val hb hx, not_lt]
        have h1 := (le_val ha hb).mp hle
        have h2 := (lt_val hx ha).mp h
        order
      simp [h, this]
    · simp [h]

theorem clip_11_invalid {a b : F K} (ha : a ≠ nan) (hb : b ≠ nan) (hle : le a b = false) (x : F K) :
    evalClip (some a) (some b) x = nan := by
  have hva : validLimit (some a) = true := by cases a <;> simp_all [validLimit]
  have hvb : validLimit (some b) = true := by cases b <;> simp_all [validLimit]
  rw [clip_11 hva hvb, hle]; rfl

theorem nclip_00 {lo hi : Option (F K)} (h1 : validLimit lo = false) (h2 : validLimit hi = false) (x : F K) :
    evalNclip lo hi x = x := by simp [evalNclip, h1, h2]

theorem nclip_10 {a : F K} {hi : Option (F K)} (h1 : validLimit (some a) = true) (h2 : validLimit hi = false) (x : F K) :
    evalNclip (some a) hi x = if lt x a then nan else x := by
  simp [evalNclip, h1, h2, below]

theorem nclip_01 {b : F K} {lo : Option (F K)} (h1 : validLimit lo = false) (h2 : validLimit (some b) = true) (x : F K) :
    evalNclip lo (some b) x = if lt b x then nan else x := by
  simp [evalNclip, h1, h2, above]

theorem nclip_11 {a b : F K} (h1 : validLimit (some a) = true) (h2 : validLimit (some b) = true) (x : F K) :
    evalNclip (some a) (some b) x = if lt x a || lt b x then nan else x := by
  simp only [evalNclip, h1, h2, below, above, if_true]
  by_cases h : lt x a = true
  · simp [h]
  · simp [h]

/-! commutation -/

section commute
variable [IsStrictOrderedRing K] {m b : K}

theorem movedLimit_invalid {c : Option (F K)} (h : validLimit c = false) :
    movedLimit (fin m) (fin b) c = none := by simp [movedLimit, h]

theorem movedLimit_valid {v : F K} (h : v ≠ nan) :
    movedLimit (fin m) (fin b) (some v) = some (linv m b v) := by
  simp [movedLimit, valid_some h, linv]

theorem ltm_pos (hm : 0 < m) : F.lt (fin m) (fin 0) = false := by simp [F.lt, le_of_lt hm]
theorem ltm_neg (hm : m < 0) : F.lt (fin m) (fin 0) = true := by simp [F.lt, hm]

theorem linv_le_pos (hm : 0 < m) {a c : F K} (ha : a ≠ nan) (hc : c ≠ nan) :
    F.le (linv m b a) (linv m b c) = F.le a c := by
  have h1 : F.le (linv m b a) (linv m b c) = !(F.lt (linv m b c) (linv m b a)) := by
    have := linv_ne (b := b) hm.ne' ha; have := linv_ne (b := b) hm.ne' hc
    generalize linv m b a = u at *
    generalize linv m b c = v at *
    cases u <;> cases v <;> simp_all [F.le]
  have h2 : F.le a c = !(F.lt c a) := by cases a <;> cases c <;> simp_all [F.le]
  rw [h1, h2, ← lin_lt_pos hm, lin_linv hm.ne' hc]

theorem linv_le_neg (hm : m < 0) {a c : F K} (ha : a ≠ nan) (hc : c ≠ nan) :
    F.le (linv m b c) (linv m b a) = F.le a c := by
  have h1 : F.le (linv m b c) (linv m b a) = !(F.lt (linv m b a) (linv m b c)) := by
    have := linv_ne (b := b) hm.ne ha; have := linv_ne (b := b) hm.ne hc
    generalize linv m b a = u at *
    generalize linv m b c = v at *
    cases u <;> cases v <;> simp_all [F.le]
  have h2 : F.le a c = !(F.lt c a) := by cases a <;> cases c <;> simp_all [F.le]
  rw [h1, h2, ← lt_lin_neg hm, lin_linv hm.ne ha]

theorem lin_ite {c : Prop} [Decidable c] (u v : F K) :
    lin m b (if c then u else v) = if c then lin m b u else lin m b v := by split <;> rfl

/-- Clipping after a linear map with non-zero slope is the map after clipping with the moved
limits. -/
theorem clip_commute (hm : m ≠ 0) (lo hi : Option (F K)) (x : F K) :
    lin m b (evalClip (commuteLimits (fin m) (fin b) lo hi).1 (commuteLimits (fin m) (fin b) lo hi).2 x) =
      evalClip lo hi (lin m b x) := by
  rcases lt_or_gt_of_ne hm with h | h
  · simp only [commuteLimits, ltm_neg h, if_true]
    rcases limit_cases lo with hl | ⟨a, rfl, ha, hva⟩ <;> rcases limit_cases hi with hh | ⟨c, rfl, hc, hvc⟩
    · rw [movedLimit_invalid hl, movedLimit_invalid hh, clip_00 rfl rfl, clip_00 hl hh]
    · rw [movedLimit_invalid hl, movedLimit_valid hc, clip_10 (valid_some (linv_ne hm hc)) rfl, clip_01 hl hvc,
        lin_ite, lin_linv hm hc, lt_lin_neg h]
    · rw [movedLimit_invalid hh, movedLimit_valid ha, clip_01 rfl (valid_some (linv_ne hm ha)), clip_10 hva hh,
        lin_ite, lin_linv hm ha, lin_lt_neg h]
    · rw [movedLimit_valid ha, movedLimit_valid hc]
      have hl := linv_le_neg (b := b) h ha hc
      cases hle : F.le a c with
      | true =>
        rw [hle] at hl
        rw [clip_11' (linv_ne hm hc) (linv_ne hm ha) hl, clip_11_swap ha hc hle, lin_ite, lin_ite,
          lin_linv hm hc, lin_linv hm ha, lt_lin_neg h, lin_lt_neg h]
      | false =>
        rw [hle] at hl
        rw [clip_11_invalid (linv_ne hm hc) (linv_ne hm ha) hl, clip_11_invalid ha hc hle, lin_nan]
  · simp only [commuteLimits, ltm_pos h, Bool.false_eq_true, if_false]
    rcases limit_cases lo with hl | ⟨a, rfl, ha, hva⟩ <;> rcases limit_cases hi with hh | ⟨c, rfl, hc, hvc⟩
    · rw [movedLimit_invalid hl, movedLimit_invalid hh, clip_00 rfl rfl, clip_00 hl hh]
    · rw [movedLimit_invalid hl, movedLimit_valid hc, clip_01 rfl (valid_some (linv_ne hm hc)), clip_01 hl hvc,
        lin_ite, lin_linv hm hc, lt_lin_pos h]
    · rw [movedLimit_invalid hh, movedLimit_valid ha, clip_10 (valid_some (linv_ne hm ha)) rfl, clip_10 hva hh,
        lin_ite, lin_linv hm ha, lin_lt_pos h]
    · rw [movedLimit_valid ha, movedLimit_valid hc]
      have hl := linv_le_pos (b := b) h ha hc
      cases hle : F.le a c with
      | true =>
        rw [hle] at hl
        rw [clip_11' (linv_ne hm ha) (linv_ne hm hc) hl, clip_11' ha hc hle, lin_ite, lin_ite,
          lin_linv hm hc, lin_linv hm ha, lt_lin_pos h, lin_lt_pos h]
      | false =>
        rw [hle] at hl
        rw [clip_11_invalid (linv_ne hm ha) (linv_ne hm hc) hl, clip_11_invalid ha hc hle, lin_nan]

/-- The same for clipping to NaN. -/
theorem nclip_commute (hm : m ≠ 0) (lo hi : Option (F K)) (x : F K) :
    lin m b (evalNclip (commuteLimits (fin m) (fin b) lo hi).1 (commuteLimits (fin m) (fin b) lo hi).2 x) =
      evalNclip lo hi (lin m b x) := by
  rcases lt_or_gt_of_ne hm with h | h
  · simp only [commuteLimits, ltm_neg h, if_true]
    rcases limit_cases lo with hl | ⟨a, rfl, ha, hva⟩ <;> rcases limit_cases hi with hh | ⟨c, rfl, hc, hvc⟩
    · rw [movedLimit_invalid hl, movedLimit_invalid hh, nclip_00 rfl rfl, nclip_00 hl hh]
    · rw [movedLimit_invalid hl, movedLimit_valid hc, nclip_10 (valid_some (linv_ne hm hc)) rfl, nclip_01 hl hvc,
        lin_ite, lin_nan, lt_lin_neg h]
    · rw [movedLimit_invalid hh, movedLimit_valid ha, nclip_01 rfl (valid_some (linv_ne hm ha)), nclip_10 hva hh,
        lin_ite, lin_nan, lin_lt_neg h]
    · rw [movedLimit_valid ha, movedLimit_valid hc,
        nclip_11 (valid_some (linv_ne hm hc)) (valid_some (linv_ne hm ha)), nclip_11 hva hvc, lin_ite, lin_nan,
        lin_lt_neg h, lt_lin_neg h, Bool.or_comm]
  · simp only [commuteLimits, ltm_pos h, Bool.false_eq_true, if_false]
    rcases limit_cases lo with hl | ⟨a, rfl, ha, hva⟩ <;> rcases limit_cases hi with hh | ⟨c, rfl, hc, hvc⟩
    · rw [movedLimit_invalid hl, movedLimit_invalid hh, nclip_00 rfl rfl, nclip_00 hl hh]
    · rw [movedLimit_invalid hl, movedLimit_valid hc, nclip_01 rfl (valid_some (linv_ne hm hc)), nclip_01 hl hvc,
        lin_ite, lin_nan, lt_lin_pos h]
    · rw [movedLimit_invalid hh, movedLimit_valid ha, nclip_10 (valid_some (linv_ne hm ha)) rfl, nclip_10 hva hh,
        lin_ite, lin_nan, lin_lt_pos h]
    · rw [movedLimit_valid ha, movedLimit_valid hc,
        nclip_11 (valid_some (linv_ne hm ha)) (valid_some (linv_ne hm hc)), nclip_11 hva hvc, lin_ite, lin_nan,
        lin_lt_pos h, lt_lin_pos h]
end commute

/-! combination -/

/-- Lower end of the interval of a limit. -/
def lower (c : Option (F K)) : WithBot (WithTop K) := if validLimit c then (c.getD nan).val else ⊥
/-- Upper end of the interval of a limit. -/
def upper (c : Option (F K)) : WithBot (WithTop K) := if validLimit c then (c.getD nan).val else ⊤

theorem lower_invalid {c : Option (F K)} (h : validLimit c = false) : lower c = ⊥ := by simp [lower, h]
theorem upper_invalid {c : Option (F K)} (h : validLimit c = false) : upper c = ⊤ := by simp [upper, h]
theorem lower_some {v : F K} (h : v ≠ nan) : lower (some v) = v.val := by simp [lower, valid_some h]
theorem upper_some {v : F K} (h : v ≠ nan) : upper (some v) = v.val := by simp [upper, valid_some h]

theorem clip_val {lo hi : Option (F K)} (hle : lower lo ≤ upper hi) {x : F K} (hx : x ≠ nan) :
    evalClip lo hi x ≠ nan ∧ (evalClip lo hi x).val = min (upper hi) (max (lower lo) x.val) := by
  rcases limit_cases lo with hl | ⟨a, rfl, ha, hva⟩ <;> rcases limit_cases hi with hh | ⟨c, rfl, hc, hvc⟩
  · rw [clip_00 hl hh, lower_invalid hl, upper_invalid hh]; exact ⟨hx, by simp⟩
  · rw [clip_01 hl hvc, lower_invalid hl, upper_some hc]
    by_cases h : lt c x = true
    · rw [if_pos h]; rw [lt_val hc hx] at h; refine ⟨hc, ?_⟩; simp [le_of_lt h]
    · rw [if_neg h]; rw [lt_val hc hx, not_lt] at h; refine ⟨hx, ?_⟩; simp [h]
  · rw [clip_10 hva hh, upper_invalid hh, lower_some ha]
    by_cases h : lt x a = true
    · rw [if_pos h]; rw [lt_val hx ha] at h; refine ⟨ha, ?_⟩; simp [le_of_lt h]
    · rw [if_neg h]; rw [lt_val hx ha, not_lt] at h; refine ⟨hx, ?_⟩; simp [h]
  · rw [lower_some ha, upper_some hc] at hle ⊢
    rw [clip_11' ha hc ((le_val ha hc).mpr hle)]
    by_cases h : lt x a = true
    · rw [if_pos h]; rw [lt_val hx ha] at h; refine ⟨ha, ?_⟩
      rw [max_eq_left (le_of_lt h), min_eq_right hle]
    · rw [if_neg h]; rw [lt_val hx ha, not_lt] at h
      rw [max_eq_right h]
      by_cases h' : lt c x = true
      · rw [if_pos h']; rw [lt_val hc hx] at h'; exact ⟨hc, by rw [min_eq_left (le_of_lt h')]⟩
      · rw [if_neg h']; rw [lt_val hc hx, not_lt] at h'; exact ⟨hx, by rw [min_eq_right h']⟩

theorem clip_invalid {lo hi : Option (F K)} (hle : ¬ lower lo ≤ upper hi) (x : F K) :
    evalClip lo hi x = nan := by
  rcases limit_cases lo with hl | ⟨a, rfl, ha, hva⟩ <;> rcases limit_cases hi with hh | ⟨c, rfl, hc, hvc⟩
  · rw [lower_invalid hl] at hle; simp at hle
  · rw [lower_invalid hl] at hle; simp at hle
  · rw [upper_invalid hh] at hle; simp at hle
  · rw [lower_some ha, upper_some hc, ← le_val ha hc, Bool.not_eq_true] at hle
    exact clip_11_invalid ha hc hle x

theorem nclip_val (lo hi : Option (F K)) {x : F K} (hx : x ≠ nan) :
    evalNclip lo hi x = if lower lo ≤ x.val ∧ x.val ≤ upper hi then x else nan := by
  rcases limit_cases lo with hl | ⟨a, rfl, ha, hva⟩ <;> rcases limit_cases hi with hh | ⟨c, rfl, hc, hvc⟩
  · rw [nclip_00 hl hh, lower_invalid hl, upper_invalid hh]; simp
  · rw [nclip_01 hl hvc, lower_invalid hl, upper_some hc]
    by_cases h : lt c x = true
    · rw [if_pos h]; rw [lt_val hc hx] at h; simp [not_le_of_gt h]
    · rw [if_neg h]; rw [lt_val hc hx, not_lt] at h; simp [h]
  · rw [nclip_10 hva hh, upper_invalid hh, lower_some ha]
    by_cases h : lt x a = true
    · rw [if_pos h]; rw [lt_val hx ha] at h; simp [not_le_of_gt h]
    · rw [if_neg h]; rw [lt_val hx ha, not_lt] at h; simp [h]
  · rw [nclip_11 hva hvc, lower_some ha, upper_some hc]
    by_cases h : lt x a = true
    · have h' := h; rw [lt_val hx ha] at h'; simp [h, not_le_of_gt h']
    · have h' := h; rw [lt_val hx ha, not_lt] at h'
      by_cases g : lt c x = true
      · have g' := g; rw [lt_val hc hx] at g'; simp [g, not_le_of_gt g']
      · have g' := g; rw [lt_val hc hx, not_lt] at g'; simp [h, g, h', g']

/-- What a combined pair of limits satisfies. -/
theorem combine_spec {smin smax rmin rmax : Option (F K)} {c : Option (F K) × Option (F K)}
    (h : combine smin smax rmin rmax = some c) :
    lower c.1 = max (lower smin) (lower rmin) ∧ upper c.2 = min (upper smax) (upper rmax) ∧
    lower smin ≤ upper smax ∧ lower rmin ≤ upper smax ∧ lower smin ≤ upper rmax := by
  simp only [combine] at h
  split at h
  · simp at h
  · next hn =>
    simp only [Bool.or_eq_true, not_or, Bool.not_eq_true, Bool.not_eq_false', Bool.and_eq_true] at hn
    obtain ⟨⟨⟨h1, h2⟩, h3⟩, h4⟩ := hn
    simp only [Option.some.injEq] at h
    subst h
    refine ⟨?_, ?_, ?_, ?_, ?_⟩
    · rcases limit_cases smin with hl | ⟨a, rfl, ha, hva⟩ <;> rcases limit_cases rmin with hr | ⟨b, rfl, hb, hvb⟩
      · simp [hl, hr, lower_invalid]
      · simp [hl, hvb, lower_invalid]
      · simp [hva, hr, lower_invalid]
      · simp only [hva, hvb, if_true, Option.getD_some, pmax]
        by_cases h : lt a b = true
        · rw [if_pos h]; rw [lt_val ha hb] at h
          rw [lower_some ha, lower_some hb, max_eq_right (le_of_lt h)]
        · rw [if_neg h]; rw [lt_val ha hb, not_lt] at h
          rw [lower_some ha, lower_some hb, max_eq_left h]
    · rcases limit_cases smax with hl | ⟨a, rfl, ha, hva⟩ <;> rcases limit_cases rmax with hr | ⟨b, rfl, hb, hvb⟩
      · simp [hl, hr, upper_invalid]
      · simp [hl, hvb, upper_invalid]
      · simp [hva, hr, upper_invalid]
      · simp only [hva, hvb, if_true, Option.getD_some, pmin]
        by_cases h : lt b a = true
        · rw [if_pos h]; rw [lt_val hb ha] at h
          rw [upper_some ha, upper_some hb, min_eq_right (le_of_lt h)]
        · rw [if_neg h]; rw [lt_val hb ha, not_lt] at h
          rw [upper_some ha, upper_some hb, min_eq_left h]
    · rcases limit_cases smin with hl | ⟨a, rfl, ha, hva⟩
      · rw [lower_invalid hl]; exact bot_le
      · rcases limit_cases smax with hr | ⟨b, rfl, hb, hvb⟩
        · rw [upper_invalid hr]; exact le_top
        · simp only [validLimits, hva, hvb, Bool.and_true, if_true] at h1
          rw [lower_some ha, upper_some hb]; exact (le_val ha hb).mp h1
    · rcases limit_cases rmin with hl | ⟨a, rfl, ha, hva⟩
      · rw [lower_invalid hl]; exact bot_le
      · rcases limit_cases smax with hr | ⟨b, rfl, hb, hvb⟩
        · rw [upper_invalid hr]; exact le_top
        · rw [lower_some ha, upper_some hb, ← not_lt, ← lt_val hb ha]
          intro hlt
          exact h3 ⟨⟨hvb, hva⟩, hlt⟩
    · rcases limit_cases smin with hl | ⟨a, rfl, ha, hva⟩
      · rw [lower_invalid hl]; exact bot_le
      · rcases limit_cases rmax with hr | ⟨b, rfl, hb, hvb⟩
        · rw [upper_invalid hr]; exact le_top
        · rw [lower_some ha, upper_some hb, ← not_lt, ← lt_val hb ha]
          intro hlt
          exact h4 ⟨⟨hvb, hva⟩, hlt⟩

/-- `NaNClip` limits combine by intersection. -/
theorem nclip_combine {smin smax rmin rmax : Option (F K)} {c : Option (F K) × Option (F K)}
    (h : combine smin smax rmin rmax = some c) (x : F K) :
    evalNclip c.1 c.2 x = evalNclip smin smax (evalNclip rmin rmax x) := by
  obtain ⟨h1, h2, h3, h4, h5⟩ := combine_spec h
  by_cases hx : x = nan
  · subst hx; simp [evalNclip_nan]
  · rw [nclip_val _ _ hx, nclip_val _ _ hx, h1, h2]
    by_cases hr : lower rmin ≤ x.val ∧ x.val ≤ upper rmax
    · rw [if_pos hr, nclip_val _ _ hx]
      simp [hr.1, hr.2]
    · rw [if_neg hr, evalNclip_nan, if_neg]
      intro hc
      apply hr
      rw [max_le_iff, le_min_iff] at hc
      exact ⟨hc.1.2, hc.2.2⟩

/-- `Clip` limits combine by intersection. -/
theorem clip_combine {smin smax rmin rmax : Option (F K)} {c : Option (F K) × Option (F K)}
    (h : combine smin smax rmin rmax = some c) (x : F K) :
    evalClip c.1 c.2 x = evalClip smin smax (evalClip rmin rmax x) := by
  obtain ⟨h1, h2, h3, h4, h5⟩ := combine_spec h
  by_cases hx : x = nan
  · subst hx; simp [evalClip_nan]
  · by_cases hr : lower rmin ≤ upper rmax
    · obtain ⟨e1, e2⟩ := clip_val hr hx
      obtain ⟨e3, e4⟩ := clip_val h3 e1
      have hcv : lower c.1 ≤ upper c.2 := by rw [h1, h2]; simp [*]
      obtain ⟨e5, e6⟩ := clip_val hcv hx
      apply val_inj e5 e3
      rw [e6, e4, e2, h1, h2, max_min_distrib_left, max_eq_right h5, max_assoc, min_assoc]
    · rw [clip_invalid hr, evalClip_nan, clip_invalid]
      rw [h1, h2]
      intro hc
      apply hr
      rw [max_le_iff, le_min_iff, le_min_iff] at hc
      exact hc.2.2

end SC.Linop
