import Verif.Scene.Props
import Mathlib.Tactic.FinCases
import Mathlib.Data.Fintype.Basic
/-! # Origins, transposition and the axes of a new scene -/
namespace SC.Scene

/-! ## Origins -/

/-- The origin of a scene that was not moved: the coordinate that was at `off` is at zero. -/
theorem origin_first (s : Scene) (a : Fin 2) (off : ℚ) (h : s.offset a = 0) (v : ℚ) :
    datatransform (origin s a off) a v = datatransform s a v - off := by
  simp [datatransform, origin, h]

/-- In general twice the former offset comes on top: the coordinate that was at `off` is at zero only in a scene that
was not moved before. -/
theorem origin_again (s : Scene) (a : Fin 2) (off : ℚ) (v : ℚ) :
    datatransform (origin s a off) a v = datatransform s a v - off + 2 * s.offset a ∧
    (datatransform s a v = off → (datatransform (origin s a off) a v = 0 ↔ s.offset a = 0)) := by
  have h : datatransform (origin s a off) a v = datatransform s a v - off + 2 * s.offset a := by
    simp [datatransform, origin]; ring
  refine ⟨h, fun hv => ?_⟩
  rw [h, hv]
  constructor
  · intro h; linarith
  · intro h; rw [h]; ring

/-- Resetting the origin reverses the offset: nothing is reset unless there was no offset. -/
theorem originreset_spec (s : Scene) (a : Fin 2) : (originreset s).offset a = - s.offset a ∧
    ((originreset s).offset a = 0 ↔ s.offset a = 0) := by
  have : (originreset s).offset a = - s.offset a := by
    unfold originreset origin
    fin_cases a <;> simp [Function.update]
  rw [this]
  exact ⟨rfl, neg_eq_zero⟩

/-- Resetting the range shifts the second axis by one unit. -/
theorem resetdatarange_spec (s : Scene) (v : ℚ) :
    datatransform (resetdatarange s) 0 v = v ∧ datatransform (resetdatarange s) 1 v = v - s.units 1 := by
  constructor <;> simp [datatransform, resetdatarange]

theorem originzero_fields (s : Scene) (r : Fin 2 → ℚ × ℚ) (h : ∀ a, datarange s a = .ok (r a)) :
    ∃ s', originzero s = .ok s' ∧ s'.items = s.items ∧ s'.increasing = s.increasing ∧ s'.transposed = s.transposed ∧
      s'.units = s.units ∧ s'.scale = s.scale ∧ ∀ a, s'.offset a = (r a).1 - s.offset a := by
  have h1 : datarange (origin s 0 (r 0).1) 1 = .ok (r 1) := by
    rw [← h 1]
    unfold datarange
    have ht : datatransform (origin s 0 (r 0).1) 1 = datatransform s 1 := by
      funext v
      simp [datatransform, origin, Function.update]
    have : itemRange (origin s 0 (r 0).1) 1 = itemRange s 1 := by
      funext i
      cases i <;> simp only [itemRange, ht]
    rw [this]
    rfl
  unfold originzero
  rw [h 0]
  simp only
  rw [h1]
  refine ⟨_, rfl, rfl, rfl, rfl, rfl, rfl, ?_⟩
  intro a
  fin_cases a <;> simp [origin, Function.update]

/-- A scene that was not moved: the smallest coordinates are at zero and everything is shown as it was. -/
theorem originzero_spec (s : Scene) (h0 : ∀ a, s.offset a = 0) (hs : ∀ a, Shows s a) :
    ∃ s', originzero s = .ok s' ∧ (∀ a r, datarange s a = .ok r → datarange s' a = .ok (0, r.2 - r.1)) ∧
      (∀ a v, place s' a v = place s a v) ∧ s'.items = s.items ∧ s'.increasing = s.increasing ∧
      s'.transposed = s.transposed ∧ s'.scale = s.scale := by
  obtain ⟨r0, e0, hr0⟩ := datarange_spec s 0 (hs 0)
  obtain ⟨r1, e1, hr1⟩ := datarange_spec s 1 (hs 1)
  have hr : ∃ r : Fin 2 → ℚ × ℚ, ∀ a, datarange s a = .ok (r a) ∧ IsRange ((coords s a).map (datatransform s a)) (r a) := by
    refine ⟨fun a => if a = 0 then r0 else r1, fun a => ?_⟩
    fin_cases a
    · exact ⟨e0, hr0⟩
    · exact ⟨e1, hr1⟩
  obtain ⟨r, hr⟩ := hr
  obtain ⟨s', h1, h2, h3, h4, h5, h6, h7⟩ := originzero_fields s r fun a => (hr a).1
  have ht : ∀ a v, datatransform s' a v = datatransform s a v - (r a).1 := by
    intro a v
    simp only [datatransform, h6, h7, h0]
    ring
  refine ⟨s', h1, fun a p hp => ?_, fun a v => ?_, h2, h3, h4, h6⟩
  · rw [(hr a).1] at hp
    cases hp
    apply datarange_eq
    · have hc : coords s' a = coords s a := by unfold coords; rw [h2]
      have hm : (coords s' a).map (datatransform s' a) = ((coords s a).map (datatransform s a)).map fun x => x - (r a).1 := by
        rw [hc, List.map_map]
        congr 1
        funext v
        exact ht a v
      rw [hm]
      have := range_shift (r a).1 (hr a).2
      rwa [sub_self] at this
    · unfold Shows; rw [h2]; exact hs a
  · have hsa : Shows s' a := by unfold Shows; rw [h2]; exact hs a
    obtain ⟨p, hp, hl⟩ := axisLim_spec s a (hs a)
    obtain ⟨q, hq, hl'⟩ := axisLim_spec s' a hsa
    have ho : outer s' a = (outer s a).map fun x => x - (r a).1 := by
      unfold outer
      rw [h2, List.map_flatMap]
      congr 1
      funext i
      cases i with
      | image lim n =>
        simp only [Item.outer, ht, List.map_cons, List.map_nil, List.cons.injEq, and_true]
        constructor <;> ring
      | points c =>
        simp only [Item.outer, List.map_map]
        congr 1
        funext x
        exact ht a x
    rw [ho] at hq
    have hqp := range_unique hq (range_shift (r a).1 hp)
    unfold place
    rw [hl, hl', h3, hqp, ht]
    cases s.increasing a <;> simp

/-- A second time moves the smallest coordinate to twice where it was at first. -/
theorem originzero_twice (s s' : Scene) (h0 : ∀ a, s.offset a = 0) (hs : ∀ a, Shows s a) (h : originzero s = .ok s') (a : Fin 2)
    (r : ℚ × ℚ) (hr : datarange s a = .ok r) :
    ∃ s'', originzero s' = .ok s'' ∧ datarange s'' a = .ok (2 * r.1, r.1 + r.2) := by
  obtain ⟨s1, e1, h1, -, h2, h3, h4, h5⟩ := originzero_spec s h0 hs
  rw [h] at e1
  cases e1
  have hs' : ∀ a, Shows s' a := fun a => by unfold Shows; rw [h2]; exact hs a
  obtain ⟨q0, f0, -⟩ := datarange_spec s 0 (hs 0)
  obtain ⟨q1, f1, -⟩ := datarange_spec s 1 (hs 1)
  obtain ⟨q, hq⟩ : ∃ q : Fin 2 → ℚ × ℚ, ∀ a, datarange s a = .ok (q a) := by
    refine ⟨fun a => if a = 0 then q0 else q1, fun a => ?_⟩
    fin_cases a
    · exact f0
    · exact f1
  obtain ⟨t, g1, -, -, -, -, -, g7⟩ := originzero_fields s q hq
  rw [h] at g1
  cases g1
  obtain ⟨s'', k1, k2, -, -, -, k6, k7⟩ := originzero_fields s' (fun a => (0, (q a).2 - (q a).1)) fun a => h1 a _ (hq a)
  refine ⟨s'', k1, ?_⟩
  have hra : r = q a := by rw [hq a] at hr; cases hr; rfl
  subst hra
  obtain ⟨p, hp, hpr⟩ := datarange_spec s a (hs a)
  rw [hq a] at hp
  cases hp
  apply datarange_eq
  · have hm : (coords s'' a).map (datatransform s'' a) = ((coords s a).map (datatransform s a)).map fun x => x - (-(q a).1) := by
      unfold coords
      rw [k2, h2, List.map_map]
      congr 1
      funext v
      simp only [datatransform, Function.comp, k6, k7, h5, g7, h0]
      ring
    rw [hm]
    have := range_shift (-(q a).1) hpr
    have e : ((q a).1 - -(q a).1, (q a).2 - -(q a).1) = (2 * (q a).1, (q a).1 + (q a).2) :=
      Prod.ext (by ring) (by simp only; ring)
    rwa [e] at this
  · unfold Shows; rw [k2]; exact hs' a

/-! ## Transposition -/

/-- The two display axes show the two data axes, transposition exchanges them. -/
theorem dataaxis_spec (t x : Bool) : dataaxis t true ≠ dataaxis t false ∧ dataaxis (!t) x = dataaxis t (!x) ∧
    dataaxis false true = 1 ∧ ∀ a, ∃ y, dataaxis t y = a := by
  refine ⟨by cases t <;> decide, by cases t <;> cases x <;> decide, by decide, ?_⟩
  intro a
  fin_cases a <;> cases t <;> first | exact ⟨true, by decide⟩ | exact ⟨false, by decide⟩

/-- Limits, units and labels go with the data when a scene is transposed. -/
theorem transpose_spec (s : Scene) (text : ℚ → Str) (x : Bool) :
    sceneLim (transpose s (!s.transposed)) x = sceneLim s (!x) ∧ unit (transpose s (!s.transposed)) x = unit s (!x) ∧
    label text (transpose s (!s.transposed)) x = label text s (!x) ∧
    ∀ v, magnitude (transpose s (!s.transposed)) x v = magnitude s (!x) v := by
  have h := (dataaxis_spec s.transposed x).2.1
  refine ⟨?_, ?_, ?_, fun v => ?_⟩
  · rw [sceneLim_axis, sceneLim_axis]
    simp only [transpose]
    rw [h]
    exact axisLim_congr _ _ _ rfl (fun _ => rfl) rfl
  · simp only [unit, transpose, h]
  · simp only [label, transpose, h]
  · simp only [magnitude, transpose, h]

/-- A unit is that of the axis it was set for, the other axis keeps its unit, and numbers times the unit are the
coordinates. -/
theorem setUnit_spec (s : Scene) (x : Bool) (u v : ℚ) (hu : u ≠ 0) : unit (setUnit s x u) x = u ∧
    unit (setUnit s x u) (!x) = unit s (!x) ∧ magnitude (setUnit s x u) x v * u = v := by
  have hn : dataaxis s.transposed (!x) ≠ dataaxis s.transposed x := by cases s.transposed <;> cases x <;> decide
  refine ⟨by simp [unit, setUnit], by simp [unit, setUnit, Function.update_of_ne hn], ?_⟩
  simp only [magnitude, setUnit, Function.update_self]
  field_simp

/-- The text for the unit of the Y-axis is that of the X-axis. -/
theorem strunit_wrong (text : ℚ → Str) (s : Scene) (h : text (unit s false) ≠ text (unit s true)) :
    strunit text s false ≠ text (unit s false) := fun he => h (by rw [← he]; rfl)

/-- The correction turns the aspect of the data into the one asked for. -/
theorem aspect_spec (s : Scene) (d r : ℚ) (hd : s.aspect = some d) (hr : aspectData s = .ok r) (h0 : r ≠ 0) :
    ∃ c, aspectcorrect s = .ok (some c) ∧ c * r = d := by
  refine ⟨d / r, by unfold aspectcorrect; rw [hd, hr], by field_simp⟩

/-- The aspect of the data does not depend on directions, and transposition inverts it. -/
theorem aspect_data (s : Scene) (r : ℚ) (hr : aspectData s = .ok r) :
    aspectData (transpose s (!s.transposed)) = .ok (1 / r) := by
  unfold aspectData at hr ⊢
  rw [(transpose_spec s (fun _ => []) false).1, (transpose_spec s (fun _ => []) true).1]
  simp only [Bool.not_false, Bool.not_true]
  cases hx : sceneLim s true with
  | error e => rw [hx] at hr; cases hy : sceneLim s false <;> rw [hy] at hr <;> cases hr
  | ok x =>
    cases hy : sceneLim s false with
    | error e => rw [hx, hy] at hr; cases hr
    | ok y =>
      rw [hx, hy] at hr
      cases hr
      simp only [one_div_div]

theorem sceneLim_direction (s : Scene) (x x' b : Bool) : (∃ e, sceneLim s x' = .error e ∧ sceneLim (setIncreasing s x b) x' = .error e) ∨
    ∃ l l', sceneLim s x' = .ok l ∧ sceneLim (setIncreasing s x b) x' = .ok l' ∧ |l'.2 - l'.1| = |l.2 - l.1| := by
  have hi : collect (itemLim (setIncreasing s x b) (dataaxis s.transposed x')) (setIncreasing s x b).items = collect (itemLim s (dataaxis s.transposed x')) s.items := rfl
  unfold sceneLim
  simp only
  rw [show (setIncreasing s x b).transposed = s.transposed from rfl, hi]
  cases collect (itemLim s (dataaxis s.transposed x')) s.items with
  | error e => exact .inl ⟨e, rfl, rfl⟩
  | ok l =>
    simp only [displaylim]
    cases minmax l with
    | error e => exact .inl ⟨e, rfl, rfl⟩
    | ok m =>
      refine .inr ⟨_, _, rfl, rfl, ?_⟩
      split <;> split <;> simp [abs_sub_comm]

/-- The aspect of the data does not depend on the directions of the axes. -/
theorem aspect_direction (s : Scene) (x b : Bool) : aspectData (setIncreasing s x b) = aspectData s := by
  unfold aspectData
  rcases sceneLim_direction s x false b with ⟨e, h1, h2⟩ | ⟨y, y', h1, h2, h3⟩ <;>
    rcases sceneLim_direction s x true b with ⟨e', k1, k2⟩ | ⟨z, z', k1, k2, k3⟩ <;> simp only [h1, h2, k1, k2]
  rw [h3, k3]

/-! ## The axes of a new scene -/

/-- What one display axis of a new scene looks like. -/
structure Looks (s s0 : Scene) (a : Fin 2) (flip : Bool) (inc : Option Bool) : Prop where
  direction : s.increasing a = (if flip then inc.getD false else true)
  places : ∀ v, ∃ t, place s0 a v = .ok t ∧ place s a v = .ok (if flip then 1 - t else t)

/-- The axes of a new scene after all its parameters: transposed as asked for; an axis that is flipped is shown mirrored,
in the direction that is asked for (decreasing when none is); one that is not is shown as it is, increasing. -/
theorem modifyaxes_spec (units : Fin 2 → ℚ) (items : List Item) (p : Axes)
    (hs : ∀ a, Shows (fresh units items) a)
    (hlt : ∀ a r, IsRange (coords (fresh units items) a) r → r.1 < r.2)
    (hne : ∀ a r, IsRange (outer (fresh units items) a) r → r.1 ≠ r.2) :
    ∃ s, modifyaxes (fresh units items) p = .ok s ∧ s.transposed = p.transpose ∧
      Looks s (fresh units items) (dataaxis p.transpose true) p.flipx p.incx ∧
      Looks s (fresh units items) (dataaxis p.transpose false) p.flipy p.incy := by
  set s0 := fresh units items with hs0
  -- the origin
  have h1 : ∃ s1, (if p.originzero then originzero s0 else .ok s0) = .ok s1 ∧ (∀ a v, place s1 a v = place s0 a v) ∧
      s1.items = items ∧ s1.increasing = (fun _ => true) ∧ s1.transposed = false ∧ s1.scale = fun _ => 1 := by
    cases p.originzero with
    | false => exact ⟨s0, rfl, fun _ _ => rfl, rfl, rfl, rfl, rfl⟩
    | true =>
      obtain ⟨s1, a1, -, a3, a4, a5, a6, a7⟩ := originzero_spec s0 (fun _ => rfl) hs
      exact ⟨s1, a1, a3, a4, a5, a6, a7⟩
  obtain ⟨s1, e1, hp1, hi1, hd1, ht1, hc1⟩ := h1
  -- transposition
  obtain ⟨s2, e2, hp2, hi2, hd2, ht2, hc2⟩ : ∃ s2, (if p.transpose then transpose s1 true else s1) = s2 ∧
      (∀ a v, place s2 a v = place s0 a v) ∧ s2.items = items ∧ s2.increasing = (fun _ => true) ∧
      s2.transposed = p.transpose ∧ s2.scale = fun _ => 1 := by
    cases p.transpose with
    | false => exact ⟨s1, rfl, hp1, hi1, hd1, ht1, hc1⟩
    | true =>
      refine ⟨transpose s1 true, rfl, fun a v => ?_, hi1, hd1, rfl, hc1⟩
      rw [← hp1]
      exact place_congr s1 (transpose s1 true) a rfl (fun _ => rfl) rfl v
  -- one axis
  have axis : ∀ (s : Scene) (x flip' : Bool) (inc : Option Bool), s.items = items → s.transposed = p.transpose →
      s.increasing (dataaxis p.transpose x) = true → 0 < s.scale (dataaxis p.transpose x) →
      (∀ v, place s (dataaxis p.transpose x) v = place s0 (dataaxis p.transpose x) v) →
      ∃ s', modifyAxis s x flip' inc = .ok s' ∧ Looks s' s0 (dataaxis p.transpose x) flip' inc ∧ s'.items = items ∧
        s'.transposed = p.transpose ∧ (∀ b, b ≠ dataaxis p.transpose x → (∀ v, place s' b v = place s b v) ∧
          s'.increasing b = s.increasing b ∧ s'.scale b = s.scale b) := by
    intro s x flip' inc hi ht hd hc hp
    have hplace : ∀ v, ∃ t, place s (dataaxis p.transpose x) v = .ok t := by
      intro v
      have hsx : Shows s (dataaxis p.transpose x) := by
        have := hs (dataaxis p.transpose x)
        unfold Shows at this ⊢
        rw [hi]; exact this
      obtain ⟨q, -, hl⟩ := axisLim_spec s _ hsx
      unfold place
      rw [hl]
      exact ⟨_, rfl⟩
    cases flip' with
    | false =>
      have hsame : ∃ s', modifyAxis s x false inc = .ok s' ∧ s'.items = s.items ∧ s'.transposed = s.transposed ∧
          s'.scale = s.scale ∧ s'.offset = s.offset ∧ s'.increasing = s.increasing := by
        unfold modifyAxis
        simp only [Bool.false_eq_true, if_false]
        split
        · refine ⟨_, rfl, rfl, rfl, rfl, rfl, ?_⟩
          simp only [setIncreasing, ht]
          rw [← hd]
          exact Function.update_eq_self _ _
        · exact ⟨s, rfl, rfl, rfl, rfl, rfl, rfl⟩
      obtain ⟨s', b1, b2, b3, b4, b5, b6⟩ := hsame
      have hpl : ∀ a v, place s' a v = place s a v := fun a v =>
        place_congr s s' a b2 (fun v => by simp [datatransform, b4, b5]) (by rw [b6]) v
      refine ⟨s', b1, ⟨by rw [b6, hd]; rfl, fun v => ?_⟩, b2.trans hi, b3.trans ht, fun b hb => ⟨hpl b, by rw [b6], by rw [b4]⟩⟩
      obtain ⟨t, ht'⟩ := hplace v
      exact ⟨t, by rw [← hp, ht'], by rw [hpl, ht']; rfl⟩
    | true =>
      unfold modifyAxis flip
      simp only [if_true]
      rw [ht]
      have hco : coords s (dataaxis p.transpose x) = coords s0 (dataaxis p.transpose x) := by unfold coords; rw [hi]; rfl
      have hsx : Shows s (dataaxis p.transpose x) := by
        have := hs (dataaxis p.transpose x)
        unfold Shows at this ⊢
        rw [hi]; exact this
      have hlt' : ∀ r, IsRange (coords s (dataaxis p.transpose x)) r → r.1 < r.2 := fun r hr => hlt _ r (hco ▸ hr)
      have hout : ∀ q, IsRange (outer s (dataaxis p.transpose x)) q → q.1 ≠ q.2 := by
        intro q hq heq
        -- the limits contain the coordinates with half a pixel around, the transformation is increasing
        have hz : ∀ y ∈ outer s (dataaxis p.transpose x), y = q.1 := fun y hy => by
          have := hq.2.2 y hy
          rw [← heq] at this
          exact le_antisymm this.2 this.1
        have hz0 : ∀ y ∈ outer s0 (dataaxis p.transpose x), ∃ z ∈ outer s (dataaxis p.transpose x),
            z = y * s.scale (dataaxis p.transpose x) - s.offset (dataaxis p.transpose x) := by
          intro y hy
          unfold outer at hy ⊢
          rw [hi]
          obtain ⟨i, hi', hy⟩ := List.mem_flatMap.1 hy
          refine ⟨_, List.mem_flatMap.2 ⟨i, hi', ?_⟩, rfl⟩
          cases i with
          | image lim n =>
            simp only [Item.outer, datatransform, hs0, fresh, List.mem_cons, List.not_mem_nil, or_false] at hy ⊢
            rcases hy with rfl | rfl
            · left; ring
            · right; ring
          | points c =>
            simp only [Item.outer, List.mem_map] at hy ⊢
            obtain ⟨v, hv, rfl⟩ := hy
            exact ⟨v, hv, by simp [datatransform, hs0, fresh]⟩
        obtain ⟨q0, hq0, -⟩ := axisLim_spec s0 _ (hs (dataaxis p.transpose x))
        apply hne _ q0 hq0
        obtain ⟨z1, hm1, e1⟩ := hz0 _ hq0.1
        obtain ⟨z2, hm2, e2⟩ := hz0 _ hq0.2.1
        have := (hz z1 hm1).trans (hz z2 hm2).symm
        rw [e1, e2] at this
        have h3 : q0.1 * s.scale (dataaxis p.transpose x) = q0.2 * s.scale (dataaxis p.transpose x) := by linarith
        exact mul_right_cancel₀ hc.ne' h3
      obtain ⟨org, horg⟩ : ∃ org, IsRange (coords s (dataaxis p.transpose x)) org := by
        have hcn : coords s (dataaxis p.transpose x) ≠ [] := by
          obtain ⟨h1, h2⟩ := hsx
          cases hit : s.items with
          | nil => exact absurd hit h1
          | cons i l =>
            have := h2 i (by rw [hit]; exact List.mem_cons_self ..)
            unfold coords
            rw [hit, List.flatMap_cons]
            intro hcon
            exact this (List.append_eq_nil_iff.1 hcon).1
        obtain ⟨o, -, ho⟩ := minmax_range _ hcn
        exact ⟨o, ho⟩
      obtain ⟨s', g1, g2, g3, g4, g5, g6, g7⟩ := flip_mirrors s _ inc org horg (hlt' org horg) hsx hout (fun _ => hc)
      refine ⟨s', g1, ⟨?_, fun v => ?_⟩, g6.trans hi, g5.trans ht, fun b hb => ⟨g4 b hb, ?_, ?_⟩⟩
      · rw [g2, hd]; rfl
      · obtain ⟨t, k1, k2⟩ := g3 v
        exact ⟨t, by rw [← hp, k1], by rw [k2]; rfl⟩
      · unfold flipaxis at g1
        cases inc with
        | none => cases g1; simp [Function.update_of_ne hb]
        | some c =>
          simp only at g1
          split at g1
          · obtain ⟨r, hr, -⟩ := datarange_spec s _ hsx
            rw [hr] at g1
            simp only at g1
            obtain ⟨s'', m1, m2, m3, -⟩ := setdatarange_fields s _ (r.2, r.1) org horg hsx
            rw [m1] at g1
            cases g1
            rw [m3]
          · cases g1; simp [Function.update_of_ne hb]
      · unfold flipaxis at g1
        cases inc with
        | none => cases g1; rfl
        | some c =>
          simp only at g1
          split at g1
          · obtain ⟨r, hr, -⟩ := datarange_spec s _ hsx
            rw [hr] at g1
            simp only at g1
            obtain ⟨s'', m1, m2, m3, m4, m5, m6, m7⟩ := setdatarange_fields s _ (r.2, r.1) org horg hsx
            rw [m1] at g1
            cases g1
            rw [m7]
            simp [Function.update_of_ne hb]
          · cases g1; rfl
  have hxy : dataaxis p.transpose false ≠ dataaxis p.transpose true := by cases p.transpose <;> decide
  obtain ⟨s3, e3, l3, hi3, ht3, hb3⟩ := axis s2 true p.flipx p.incx hi2 ht2 (by rw [hd2]) (by rw [hc2]; norm_num)
    (fun v => hp2 _ v)
  obtain ⟨o1, o2, o3⟩ := hb3 _ hxy
  obtain ⟨s4, e4, l4, hi4, ht4, hb4⟩ := axis s3 false p.flipy p.incy hi3 ht3 (by rw [o2, hd2]) (by rw [o3, hc2]; norm_num)
    (fun v => by rw [o1, hp2])
  obtain ⟨u1, u2, u3⟩ := hb4 _ hxy.symm
  refine ⟨s4, ?_, ht4, ⟨by rw [u2]; exact l3.direction, fun v => ?_⟩, l4⟩
  · unfold modifyaxes
    rw [e1]
    simp only
    rw [e2, e3]
    exact e4
  · obtain ⟨t, k1, k2⟩ := l3.places v
    exact ⟨t, k1, by rw [u1, k2]⟩

/-- An image and a point. -/
def exampleItems : List Item := [.image (fun a => if a = 0 then (2, 6) else (1, 3)) (fun a => if a = 0 then 5 else 3),
  .points fun a => if a = 0 then [7] else [0]]

example : ((modifyaxes (fresh (fun _ => 1) exampleItems) ⟨true, true, true, some true, true, none⟩).toOption.map
    fun s => [s.scale 0, s.offset 0, s.scale 1, s.offset 1]) = some [-1, -7, 1, 0] := by decide +kernel

end SC.Scene
