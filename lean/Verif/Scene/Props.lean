import Verif.Scene.Spec
import Mathlib.Tactic.Ring
import Mathlib.Tactic.FieldSimp
import Mathlib.Tactic.Linarith
/-! # Coordinates of a scene: ranges, flipping, origins -/
namespace SC.Scene

/-! ## Ranges -/

theorem foldl_min_mem (l : List ℚ) (x : ℚ) : l.foldl min x ∈ x :: l := by
  induction l generalizing x with
  | nil => simp
  | cons y l ih =>
    rw [List.foldl_cons]
    rcases List.mem_cons.1 (ih (min x y)) with h | h
    · rw [h]; rcases min_choice x y with h | h <;> simp [h]
    · simp [h]

theorem foldl_min_le (l : List ℚ) (x : ℚ) : ∀ y ∈ x :: l, l.foldl min x ≤ y := by
  induction l generalizing x with
  | nil => intro y hy; simp at hy; simp [hy]
  | cons z l ih =>
    intro y hy
    rw [List.foldl_cons]
    rcases List.mem_cons.1 hy with rfl | hy
    · exact (ih _ _ (List.mem_cons_self ..)).trans (min_le_left _ _)
    · rcases List.mem_cons.1 hy with rfl | hy
      · exact (ih _ _ (List.mem_cons_self ..)).trans (min_le_right _ _)
      · exact ih _ _ (List.mem_cons_of_mem _ hy)

theorem foldl_max_mem (l : List ℚ) (x : ℚ) : l.foldl max x ∈ x :: l := by
  induction l generalizing x with
  | nil => simp
  | cons y l ih =>
    rw [List.foldl_cons]
    rcases List.mem_cons.1 (ih (max x y)) with h | h
    · rw [h]; rcases max_choice x y with h | h <;> simp [h]
    · simp [h]

theorem foldl_max_le (l : List ℚ) (x : ℚ) : ∀ y ∈ x :: l, y ≤ l.foldl max x := by
  induction l generalizing x with
  | nil => intro y hy; simp at hy; simp [hy]
  | cons z l ih =>
    intro y hy
    rw [List.foldl_cons]
    rcases List.mem_cons.1 hy with rfl | hy
    · exact (le_max_left _ _).trans (ih _ _ (List.mem_cons_self ..))
    · rcases List.mem_cons.1 hy with rfl | hy
      · exact (le_max_right _ _).trans (ih _ _ (List.mem_cons_self ..))
      · exact ih _ _ (List.mem_cons_of_mem _ hy)

theorem minmax_range (l : List ℚ) (h : l ≠ []) : ∃ p, minmax l = .ok p ∧ IsRange l p := by
  cases l with
  | nil => exact absurd rfl h
  | cons x l => exact ⟨_, rfl, foldl_min_mem l x, foldl_max_mem l x, fun y hy => ⟨foldl_min_le l x y hy, foldl_max_le l x y hy⟩⟩

theorem range_unique {l : List ℚ} {p q : ℚ × ℚ} (hp : IsRange l p) (hq : IsRange l q) : p = q := by
  have h1 := hp.2.2 _ hq.1
  have h2 := hp.2.2 _ hq.2.1
  have h3 := hq.2.2 _ hp.1
  have h4 := hq.2.2 _ hp.2.1
  exact Prod.ext (le_antisymm h1.1 h3.1) (le_antisymm h4.2 h2.2)

theorem minmax_iff (l : List ℚ) (p : ℚ × ℚ) : minmax l = .ok p ↔ IsRange l p := by
  constructor
  · intro h
    have hl : l ≠ [] := by rintro rfl; cases h
    obtain ⟨q, hq, hr⟩ := minmax_range l hl
    rw [hq] at h
    cases h
    exact hr
  · intro h
    have hl : l ≠ [] := by rintro rfl; exact absurd h.1 (by simp)
    obtain ⟨q, hq, hr⟩ := minmax_range l hl
    rw [hq, range_unique hr h]

theorem range_le {l : List ℚ} {p : ℚ × ℚ} (h : IsRange l p) : p.1 ≤ p.2 := (h.2.2 _ h.1).2

/-- A range under a map that reverses the order. -/
theorem range_mirror {l : List ℚ} {p : ℚ × ℚ} (c : ℚ) (h : IsRange l p) :
    IsRange (l.map fun x => c - x) (c - p.2, c - p.1) := by
  refine ⟨List.mem_map.2 ⟨_, h.2.1, rfl⟩, List.mem_map.2 ⟨_, h.1, rfl⟩, ?_⟩
  rintro x hx
  obtain ⟨y, hy, rfl⟩ := List.mem_map.1 hx
  have := h.2.2 y hy
  exact ⟨by linarith [this.2], by linarith [this.1]⟩

theorem range_shift {l : List ℚ} {p : ℚ × ℚ} (c : ℚ) (h : IsRange l p) :
    IsRange (l.map fun x => x - c) (p.1 - c, p.2 - c) := by
  refine ⟨List.mem_map.2 ⟨_, h.1, rfl⟩, List.mem_map.2 ⟨_, h.2.1, rfl⟩, ?_⟩
  rintro x hx
  obtain ⟨y, hy, rfl⟩ := List.mem_map.1 hx
  have := h.2.2 y hy
  exact ⟨by linarith [this.1], by linarith [this.2]⟩

/-- What is collected has the range of all coordinates. -/
theorem collect_range (f : Item → Except Err (ℚ × ℚ)) (g : Item → List ℚ)
    (hok : ∀ i, g i ≠ [] → ∃ p, f i = .ok p ∧ p.1 ∈ g i ∧ p.2 ∈ g i ∧ ∀ x ∈ g i, min p.1 p.2 ≤ x ∧ x ≤ max p.1 p.2)
    (items : List Item) (hi : items ≠ []) (hg : ∀ i ∈ items, g i ≠ []) :
    ∃ l p, collect f items = .ok l ∧ minmax l = .ok p ∧ IsRange (items.flatMap g) p := by
  have key : ∀ items : List Item, (∀ i ∈ items, g i ≠ []) → ∃ l, collect f items = .ok l ∧ l.length = 2 * items.length ∧
      (∀ x ∈ l, x ∈ items.flatMap g) ∧ ∀ x ∈ items.flatMap g, (∃ y ∈ l, y ≤ x) ∧ ∃ y ∈ l, x ≤ y := by
    intro items
    induction items with
    | nil => intro _; exact ⟨[], rfl, rfl, by simp, by simp⟩
    | cons i items ih =>
      intro hg
      obtain ⟨l, hl, hlen, h1, h2⟩ := ih fun j hj => hg j (List.mem_cons_of_mem _ hj)
      obtain ⟨p, hp, hp1, hp2, hp3⟩ := hok i (hg i (List.mem_cons_self ..))
      refine ⟨p.1 :: p.2 :: l, by unfold collect; rw [hp, hl], by simp [hlen]; omega, ?_, ?_⟩
      · intro x hx
        rw [List.flatMap_cons, List.mem_append]
        rcases List.mem_cons.1 hx with rfl | hx
        · exact Or.inl hp1
        · rcases List.mem_cons.1 hx with rfl | hx
          · exact Or.inl hp2
          · exact Or.inr (h1 x hx)
      · intro x hx
        rw [List.flatMap_cons, List.mem_append] at hx
        rcases hx with hx | hx
        · have := hp3 x hx
          constructor
          · rcases min_choice p.1 p.2 with h | h
            · exact ⟨p.1, by simp, h ▸ this.1⟩
            · exact ⟨p.2, by simp, h ▸ this.1⟩
          · rcases max_choice p.1 p.2 with h | h
            · exact ⟨p.1, by simp, h ▸ this.2⟩
            · exact ⟨p.2, by simp, h ▸ this.2⟩
        · obtain ⟨⟨y, hy, hyx⟩, z, hz, hxz⟩ := h2 x hx
          exact ⟨⟨y, by simp [hy], hyx⟩, z, by simp [hz], hxz⟩
  obtain ⟨l, hl, hlen, h1, h2⟩ := key items hg
  have hne : l ≠ [] := by
    rintro rfl
    cases items with
    | nil => exact hi rfl
    | cons => simp at hlen
  obtain ⟨p, hp, hr⟩ := minmax_range l hne
  refine ⟨l, p, hl, hp, h1 _ hr.1, h1 _ hr.2.1, fun x hx => ?_⟩
  obtain ⟨⟨y, hy, hyx⟩, z, hz, hxz⟩ := h2 x hx
  exact ⟨(hr.2.2 y hy).1.trans hyx, hxz.trans (hr.2.2 z hz).2⟩

theorem collect_error (f : Item → Except Err (ℚ × ℚ)) (items : List Item) (i : Item) (hi : i ∈ items) (e : Err)
    (h : f i = .error e) : ∃ e', collect f items = .error e' := by
  induction items with
  | nil => cases hi
  | cons j items ih =>
    unfold collect
    rcases List.mem_cons.1 hi with rfl | hi
    · rw [h]; exact ⟨e, rfl⟩
    · obtain ⟨e', he⟩ := ih hi
      rw [he]
      cases f j with
      | ok p => exact ⟨e', rfl⟩
      | error e2 => exact ⟨e2, rfl⟩

theorem two_mem (a b : ℚ) : ∀ x ∈ [a, b], min a b ≤ x ∧ x ≤ max a b := by
  intro x hx
  simp only [List.mem_cons, List.not_mem_nil, or_false] at hx
  rcases hx with rfl | rfl <;> simp

theorem points_ok (l : List ℚ) (h : l ≠ []) :
    ∃ p, minmax l = .ok p ∧ p.1 ∈ l ∧ p.2 ∈ l ∧ ∀ x ∈ l, min p.1 p.2 ≤ x ∧ x ≤ max p.1 p.2 := by
  obtain ⟨p, hp, hr⟩ := minmax_range l h
  exact ⟨p, hp, hr.1, hr.2.1, fun x hx => ⟨(min_le_left _ _).trans (hr.2.2 x hx).1, (hr.2.2 x hx).2.trans (le_max_right _ _)⟩⟩

/-- The range of a scene is that of all its coordinates. -/
theorem datarange_spec (s : Scene) (a : Fin 2) (h : Shows s a) :
    ∃ r, datarange s a = .ok r ∧ IsRange ((coords s a).map (datatransform s a)) r := by
  obtain ⟨l, p, hl, hp, hr⟩ := collect_range (itemRange s a) (fun i => (i.coords a).map (datatransform s a)) (by
    intro i hi
    cases i with
    | image lim n => exact ⟨_, rfl, by simp [Item.coords], by simp [Item.coords], by simpa [Item.coords] using two_mem _ _⟩
    | points c => exact points_ok _ hi) s.items h.1 (fun i hi => by simpa using h.2 i hi)
  refine ⟨p, by unfold datarange; rw [hl]; exact hp, ?_⟩
  rw [coords, List.map_flatMap]
  exact hr

/-- A scene without items, or with an item without coordinates, has no range. -/
theorem datarange_error (s : Scene) (a : Fin 2) (h : ¬ Shows s a) : ∃ e, datarange s a = .error e := by
  unfold datarange
  by_cases hi : s.items = []
  · rw [hi]; exact ⟨_, rfl⟩
  · have : ∃ i ∈ s.items, i.coords a = [] := by
      by_contra hn
      exact h ⟨hi, fun i hi' hc => hn ⟨i, hi', hc⟩⟩
    obtain ⟨i, hi', hc⟩ := this
    have : itemRange s a i = .error .valueError := by
      cases i with
      | image lim n => simp [Item.coords] at hc
      | points c => simp only [Item.coords] at hc; simp [itemRange, hc, minmax]
    obtain ⟨e, he⟩ := collect_error (itemRange s a) s.items i hi' _ this
    rw [he]
    exact ⟨e, rfl⟩

theorem datarange_eq (s : Scene) (a : Fin 2) (r : ℚ × ℚ) (h : IsRange ((coords s a).map (datatransform s a)) r)
    (hs : Shows s a) : datarange s a = .ok r := by
  obtain ⟨q, hq, hr⟩ := datarange_spec s a hs
  rw [hq, range_unique hr h]

theorem outer_ok (s : Scene) (a : Fin 2) (i : Item) (hi : i.outer s a ≠ []) : ∃ p, itemLim s a i = .ok p ∧
    p.1 ∈ i.outer s a ∧ p.2 ∈ i.outer s a ∧ ∀ x ∈ i.outer s a, min p.1 p.2 ≤ x ∧ x ≤ max p.1 p.2 := by
  cases i with
  | image lim n => exact ⟨_, rfl, by simp [Item.outer], by simp [Item.outer], by simpa [Item.outer] using two_mem _ _⟩
  | points c => exact points_ok _ hi

theorem outer_ne (s : Scene) (a : Fin 2) (i : Item) : i.outer s a ≠ [] ↔ i.coords a ≠ [] := by
  cases i <;> simp [Item.outer, Item.coords]

/-- The limits of an axis are those of everything that must be visible, in the direction of the axis. -/
theorem axisLim_spec (s : Scene) (a : Fin 2) (h : Shows s a) :
    ∃ p, IsRange (outer s a) p ∧ axisLim s a = .ok (if s.increasing a then p else (p.2, p.1)) := by
  obtain ⟨l, p, hl, hp, hr⟩ := collect_range (itemLim s a) (Item.outer s a) (outer_ok s a) s.items h.1
    (fun i hi => (outer_ne s a i).2 (h.2 i hi))
  refine ⟨p, hr, ?_⟩
  unfold axisLim displaylim
  rw [hl]
  simp only
  rw [hp]

/-- The limits that are shown are those of the data axis of the display axis. -/
theorem sceneLim_axis (s : Scene) (x : Bool) : sceneLim s x = axisLim s (dataaxis s.transposed x) := rfl

/-- Everything is within the limits, which are in the direction of the axis. -/
theorem visible (s : Scene) (x : Bool) (h : Shows s (dataaxis s.transposed x)) :
    ∃ lim, sceneLim s x = .ok lim ∧ (∀ v ∈ outer s (dataaxis s.transposed x), min lim.1 lim.2 ≤ v ∧ v ≤ max lim.1 lim.2) ∧
      (s.increasing (dataaxis s.transposed x) = true → lim.1 ≤ lim.2) ∧
      (s.increasing (dataaxis s.transposed x) = false → lim.2 ≤ lim.1) ∧
      lim.1 ∈ outer s (dataaxis s.transposed x) ∧ lim.2 ∈ outer s (dataaxis s.transposed x) := by
  obtain ⟨p, hr, hl⟩ := axisLim_spec s _ h
  have hle := range_le hr
  rw [sceneLim_axis, hl]
  cases hi : s.increasing (dataaxis s.transposed x) with
  | true =>
    refine ⟨p, rfl, fun v hv => ?_, fun _ => hle, by simp, hr.1, hr.2.1⟩
    rw [min_eq_left hle, max_eq_right hle]; exact hr.2.2 v hv
  | false =>
    refine ⟨(p.2, p.1), rfl, fun v hv => ?_, by simp, fun _ => hle, hr.2.1, hr.1⟩
    simp only
    rw [min_eq_right hle, max_eq_left hle]; exact hr.2.2 v hv

/-! ## Setting the range -/

theorem setdatarange_scene (s : Scene) (a : Fin 2) (ran org : ℚ × ℚ) (h : IsRange (coords s a) org) (hs : Shows s a) :
    setdatarange s a ran = .ok { s with
      offset := Function.update s.offset a ((ran.2 - ran.1) / (org.2 - org.1) * org.1 - ran.1),
      scale := Function.update s.scale a ((ran.2 - ran.1) / (org.2 - org.1)) } := by
  unfold setdatarange
  simp only
  rw [datarange_eq _ a org]
  · simp
  · have : (datatransform { s with offset := Function.update s.offset a 0, scale := Function.update s.scale a 1 } a) = id := by
      funext v; simp [datatransform]
    rw [this, List.map_id]
    exact h
  · exact hs

theorem setdatarange_fields (s : Scene) (a : Fin 2) (ran org : ℚ × ℚ) (h : IsRange (coords s a) org) (hs : Shows s a) :
    ∃ s', setdatarange s a ran = .ok s' ∧ s'.items = s.items ∧ s'.increasing = s.increasing ∧
      s'.transposed = s.transposed ∧ s'.units = s.units ∧
      s'.offset = Function.update s.offset a ((ran.2 - ran.1) / (org.2 - org.1) * org.1 - ran.1) ∧
      s'.scale = Function.update s.scale a ((ran.2 - ran.1) / (org.2 - org.1)) :=
  ⟨_, setdatarange_scene s a ran org h hs, rfl, rfl, rfl, rfl, rfl, rfl⟩

/-- The smallest coordinate is at the first limit and the largest at the second one, the range is the one asked for, and
the other axis is as it was. -/
theorem setdatarange_spec (s : Scene) (a : Fin 2) (ran org : ℚ × ℚ) (h : IsRange (coords s a) org) (hs : Shows s a)
    (hlt : org.1 < org.2) : ∃ s', setdatarange s a ran = .ok s' ∧ datatransform s' a org.1 = ran.1 ∧
      datatransform s' a org.2 = ran.2 ∧ datarange s' a = .ok (min ran.1 ran.2, max ran.1 ran.2) ∧
      ∀ b, b ≠ a → datatransform s' b = datatransform s b := by
  refine ⟨_, setdatarange_scene s a ran org h hs, ?_⟩
  have hd : org.2 - org.1 ≠ 0 := by linarith [hlt] |> fun h : 0 < org.2 - org.1 => h.ne'
  set s' : Scene := { s with
      offset := Function.update s.offset a ((ran.2 - ran.1) / (org.2 - org.1) * org.1 - ran.1),
      scale := Function.update s.scale a ((ran.2 - ran.1) / (org.2 - org.1)) } with hs'
  have ht : ∀ v, datatransform s' a v = ran.1 + (ran.2 - ran.1) * ((v - org.1) / (org.2 - org.1)) := by
    intro v
    simp only [datatransform, hs', Function.update_self]
    field_simp
    ring
  have h1 : datatransform s' a org.1 = ran.1 := by rw [ht]; simp
  have h2 : datatransform s' a org.2 = ran.2 := by rw [ht, div_self hd]; ring
  refine ⟨h1, h2, ?_, ?_⟩
  · refine datarange_eq s' a _ ?_ hs
    have hc : coords s' a = coords s a := rfl
    rw [hc]
    refine ⟨?_, ?_, ?_⟩
    · rcases min_choice ran.1 ran.2 with hm | hm
      · exact List.mem_map.2 ⟨_, h.1, h1.trans hm.symm⟩
      · exact List.mem_map.2 ⟨_, h.2.1, h2.trans hm.symm⟩
    · rcases max_choice ran.1 ran.2 with hm | hm
      · exact List.mem_map.2 ⟨_, h.1, h1.trans hm.symm⟩
      · exact List.mem_map.2 ⟨_, h.2.1, h2.trans hm.symm⟩
    · intro x hx
      obtain ⟨v, hv, rfl⟩ := List.mem_map.1 hx
      have hvr := h.2.2 v hv
      rw [ht]
      have hd0 : 0 < org.2 - org.1 := by linarith
      have t0 : 0 ≤ (v - org.1) / (org.2 - org.1) := div_nonneg (by linarith [hvr.1]) hd0.le
      have t1 : (v - org.1) / (org.2 - org.1) ≤ 1 := (div_le_one hd0).2 (by linarith [hvr.2])
      rcases le_total ran.1 ran.2 with hle | hle
      · simp only [min_eq_left hle, max_eq_right hle]
        constructor <;> nlinarith
      · simp only [min_eq_right hle, max_eq_left hle]
        constructor <;> nlinarith
  · intro b hb
    funext v
    simp [datatransform, hs', Function.update_of_ne hb]

/-! ## Flipping -/

/-- The limits depend on the items and on what is known about the axis only. -/
theorem axisLim_congr (s s' : Scene) (a : Fin 2) (hi : s'.items = s.items) (ht : ∀ v, datatransform s' a v = datatransform s a v)
    (hd : s'.increasing a = s.increasing a) : axisLim s' a = axisLim s a := by
  have h1 : itemLim s' a = itemLim s a := by
    funext i
    cases i with
    | image lim n => simp only [itemLim, ht]
    | points c => simp only [itemLim]; rw [show datatransform s' a = datatransform s a from funext ht]
  unfold axisLim displaylim
  rw [h1, hi, hd]

theorem place_congr (s s' : Scene) (a : Fin 2) (hi : s'.items = s.items) (ht : ∀ v, datatransform s' a v = datatransform s a v)
    (hd : s'.increasing a = s.increasing a) (v : ℚ) : place s' a v = place s a v := by
  unfold place
  rw [axisLim_congr s s' a hi ht hd, ht]

/-- Mirrored coordinates on an axis of the same direction are shown mirrored. -/
theorem place_mirror (s s' : Scene) (a : Fin 2) (c : ℚ) (hs : Shows s a) (hi : s'.items = s.items)
    (ht : ∀ v, datatransform s' a v = c - datatransform s a v) (hd : s'.increasing a = s.increasing a)
    (hne : ∀ p, IsRange (outer s a) p → p.1 ≠ p.2) (v : ℚ) :
    ∃ t, place s a v = .ok t ∧ place s' a v = .ok (1 - t) := by
  have hs' : Shows s' a := by unfold Shows; rw [hi]; exact hs
  obtain ⟨p, hp, hl⟩ := axisLim_spec s a hs
  obtain ⟨q, hq, hl'⟩ := axisLim_spec s' a hs'
  have ho : outer s' a = (outer s a).map fun x => c - x := by
    unfold outer
    rw [hi, List.map_flatMap]
    congr 1
    funext i
    cases i with
    | image lim n =>
      simp only [Item.outer, ht, List.map_cons, List.map_nil, List.cons.injEq, and_true]
      constructor <;> ring
    | points c' =>
      simp only [Item.outer, List.map_map]
      congr 1
      funext x
      exact ht x
  rw [ho] at hq
  have hqp := range_unique hq (range_mirror c hp)
  have hpd : p.2 - p.1 ≠ 0 := fun h => hne p hp (by linarith)
  have hpd' : p.1 - p.2 ≠ 0 := fun h => hne p hp (by linarith)
  unfold place
  rw [hl, hl', hd, hqp]
  cases s.increasing a with
  | true =>
    refine ⟨_, rfl, ?_⟩
    simp only [if_true, ht]
    congr 1
    rw [show c - p.1 - (c - p.2) = p.2 - p.1 by ring]
    field_simp
    ring
  | false =>
    refine ⟨_, rfl, ?_⟩
    simp only [Bool.false_eq_true, if_false, ht]
    congr 1
    rw [show c - p.2 - (c - p.1) = p.1 - p.2 by ring]
    field_simp
    ring

/-- The other direction of an axis shows the same mirrored. -/
theorem place_toggle (s s' : Scene) (a : Fin 2) (hs : Shows s a) (hi : s'.items = s.items)
    (ht : ∀ v, datatransform s' a v = datatransform s a v) (hd : s'.increasing a = !s.increasing a)
    (hne : ∀ p, IsRange (outer s a) p → p.1 ≠ p.2) (v : ℚ) :
    ∃ t, place s a v = .ok t ∧ place s' a v = .ok (1 - t) := by
  have hs' : Shows s' a := by unfold Shows; rw [hi]; exact hs
  obtain ⟨p, hp, hl⟩ := axisLim_spec s a hs
  obtain ⟨q, hq, hl'⟩ := axisLim_spec s' a hs'
  have ho : outer s' a = outer s a := by
    unfold outer
    rw [hi]
    congr 1
    funext i
    cases i with
    | image lim n => simp only [Item.outer, ht]
    | points c => simp only [Item.outer]; rw [show datatransform s' a = datatransform s a from funext ht]
  rw [ho] at hq
  have hqp := range_unique hq hp
  have hpd : p.2 - p.1 ≠ 0 := fun h => hne p hp (by linarith)
  have hpd' : p.1 - p.2 ≠ 0 := fun h => hne p hp (by linarith)
  unfold place
  rw [hl, hl', hd, hqp]
  cases s.increasing a with
  | true =>
    refine ⟨_, rfl, ?_⟩
    simp only [if_true, Bool.not_true, Bool.false_eq_true, if_false, ht]
    congr 1
    field_simp
    ring
  | false =>
    refine ⟨_, rfl, ?_⟩
    simp only [Bool.false_eq_true, if_false, Bool.not_false, if_true, ht]
    congr 1
    field_simp
    ring

theorem range_scaled (s : Scene) (a : Fin 2) (org : ℚ × ℚ) (h : IsRange (coords s a) org) (hp : 0 < s.scale a) :
    IsRange ((coords s a).map (datatransform s a)) (datatransform s a org.1, datatransform s a org.2) := by
  refine ⟨List.mem_map.2 ⟨_, h.1, rfl⟩, List.mem_map.2 ⟨_, h.2.1, rfl⟩, ?_⟩
  intro x hx
  obtain ⟨v, hv, rfl⟩ := List.mem_map.1 hx
  have := h.2.2 v hv
  simp only [datatransform]
  constructor <;> nlinarith [this.1, this.2]

theorem range_scaled_neg (s : Scene) (a : Fin 2) (org : ℚ × ℚ) (h : IsRange (coords s a) org) (hp : s.scale a < 0) :
    IsRange ((coords s a).map (datatransform s a)) (datatransform s a org.2, datatransform s a org.1) := by
  refine ⟨List.mem_map.2 ⟨_, h.2.1, rfl⟩, List.mem_map.2 ⟨_, h.1, rfl⟩, ?_⟩
  intro x hx
  obtain ⟨v, hv, rfl⟩ := List.mem_map.1 hx
  have := h.2.2 v hv
  simp only [datatransform]
  constructor <;> nlinarith [this.1, this.2]

/-- Flipping shows an axis mirrored and in the direction asked for (the other one when none is asked for), unless the
coordinates were mirrored before and the direction is as it was. -/
theorem flip_mirrors (s : Scene) (a : Fin 2) (inc : Option Bool) (org : ℚ × ℚ) (ho : IsRange (coords s a) org)
    (hlt : org.1 < org.2) (hs : Shows s a) (hne : ∀ p, IsRange (outer s a) p → p.1 ≠ p.2)
    (hp : inc = some (s.increasing a) → 0 < s.scale a) :
    ∃ s', flipaxis s a inc = .ok s' ∧ s'.increasing a = inc.getD (!s.increasing a) ∧
      (∀ v, ∃ t, place s a v = .ok t ∧ place s' a v = .ok (1 - t)) ∧
      (∀ b, b ≠ a → ∀ v, place s' b v = place s b v) ∧ s'.transposed = s.transposed ∧ s'.items = s.items ∧
      s'.units = s.units := by
  have toggle : ∀ s' : Scene, s' = { s with increasing := Function.update s.increasing a (!s.increasing a) } →
      (∀ v, ∃ t, place s a v = .ok t ∧ place s' a v = .ok (1 - t)) ∧ (∀ b, b ≠ a → ∀ v, place s' b v = place s b v) := by
    intro s' he
    refine ⟨fun v => place_toggle s s' a hs (by rw [he]) (fun _ => by rw [he]; rfl) (by rw [he]; simp) hne v, fun b hb v => ?_⟩
    exact place_congr s s' b (by rw [he]) (fun _ => by rw [he]; rfl) (by rw [he]; simp [Function.update_of_ne hb]) v
  unfold flipaxis
  cases inc with
  | none => exact ⟨_, rfl, by simp, (toggle _ rfl).1, (toggle _ rfl).2, rfl, rfl, rfl⟩
  | some b =>
    by_cases hb : b = s.increasing a
    · subst hb
      have hpos := hp rfl
      have hr := range_scaled s a org ho hpos
      simp only [if_true]
      rw [datarange_eq s a _ hr hs]
      simp only
      have hd : org.2 - org.1 ≠ 0 := fun h => by linarith
      have hd' : org.1 - org.2 ≠ 0 := fun h => by linarith
      obtain ⟨s', h1, h2, h3, h4, h5, h6, h7⟩ := setdatarange_fields s a (datatransform s a org.2, datatransform s a org.1) org ho hs
      refine ⟨s', h1, by rw [h3]; rfl, fun v => ?_, fun b hb v => ?_, h4, h2, h5⟩
      · refine place_mirror s s' a (datatransform s a org.1 + datatransform s a org.2) hs h2 ?_ (by rw [h3]) hne v
        intro v
        simp only [datatransform, h6, h7, Function.update_self]
        field_simp
        ring
      · exact place_congr s s' b h2 (fun v => by simp [datatransform, h6, h7, Function.update_of_ne hb]) (by rw [h3]) v
    · simp only [if_neg hb]
      exact ⟨_, rfl, by cases b <;> cases h : s.increasing a <;> simp_all, (toggle _ rfl).1, (toggle _ rfl).2, rfl, rfl, rfl⟩

/-- Coordinates that are mirrored are not mirrored back: flipping again in the same direction does nothing. -/
theorem flip_stuck (s : Scene) (a : Fin 2) (org : ℚ × ℚ) (ho : IsRange (coords s a) org) (hlt : org.1 < org.2)
    (hs : Shows s a) (hn : s.scale a < 0) :
    ∃ s', flipaxis s a (some (s.increasing a)) = .ok s' ∧ (∀ b v, datatransform s' b v = datatransform s b v) ∧
      s'.increasing = s.increasing := by
  unfold flipaxis
  simp only [if_true]
  rw [datarange_eq s a _ (range_scaled_neg s a org ho hn) hs]
  simp only
  rw [setdatarange_scene s a _ org ho hs]
  have hd : org.2 - org.1 ≠ 0 := fun h => by linarith
  refine ⟨_, rfl, fun b v => ?_, rfl⟩
  by_cases hb : b = a
  · subst hb
    simp only [datatransform, Function.update_self]
    field_simp
    ring
  · simp [datatransform, Function.update_of_ne hb]

/-- Flipping with the same direction leaves mirrored coordinates. -/
theorem flip_negative (s s' : Scene) (a : Fin 2) (org : ℚ × ℚ) (ho : IsRange (coords s a) org) (hlt : org.1 < org.2)
    (hs : Shows s a) (hp : 0 < s.scale a) (h : flipaxis s a (some (s.increasing a)) = .ok s') : s'.scale a < 0 := by
  unfold flipaxis at h
  simp only [if_true] at h
  rw [datarange_eq s a _ (range_scaled s a org ho hp) hs] at h
  simp only at h
  rw [setdatarange_scene s a _ org ho hs] at h
  cases h
  simp only [Function.update_self]
  apply div_neg_of_neg_of_pos
  · simp only [datatransform]; nlinarith
  · linarith

/-- A flip that keeps the direction, twice: the second one does nothing, so the axis stays mirrored. -/
theorem flip_twice (s s' : Scene) (a : Fin 2) (org : ℚ × ℚ) (ho : IsRange (coords s a) org) (hlt : org.1 < org.2)
    (hs : Shows s a) (hp : 0 < s.scale a) (h : flipaxis s a (some (s.increasing a)) = .ok s') :
    ∃ s'', flipaxis s' a (some (s'.increasing a)) = .ok s'' ∧ ∀ v, place s'' a v = place s' a v := by
  have hn := flip_negative s s' a org ho hlt hs hp h
  have hi : s'.items = s.items := by
    unfold flipaxis at h
    simp only [if_true] at h
    rw [datarange_eq s a _ (range_scaled s a org ho hp) hs] at h
    simp only at h
    rw [setdatarange_scene s a _ org ho hs] at h
    cases h
    rfl
  have ho' : IsRange (coords s' a) org := by unfold coords; rw [hi]; exact ho
  have hs' : Shows s' a := by unfold Shows; rw [hi]; exact hs
  obtain ⟨s'', h1, h2, h3⟩ := flip_stuck s' a org ho' hlt hs' hn
  refine ⟨s'', h1, fun v => place_congr s' s'' a ?_ (h2 a) (by rw [h3]) v⟩
  unfold flipaxis at h1
  simp only [if_true] at h1
  rw [datarange_eq s' a _ (range_scaled_neg s' a org ho' hn) hs'] at h1
  simp only at h1
  rw [setdatarange_scene s' a _ org ho' hs'] at h1
  cases h1
  rfl

end SC.Scene
