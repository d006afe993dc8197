import Verif.FitCfg.Lemmas
import Verif.FitCfg.Spec
/-! Helper lemmas: the lines in use as lists. -/
namespace SC.FitCfg
open SC.Py

theorem select_index {α : Type} (ind : List Bool) (l : List α) (h : l.length = ind.length) :
    select ind l = (List.range ind.length).filterMap fun i => if ind[i]?.getD false then l[i]? else none := by
  induction ind generalizing l with
  | nil => cases l <;> simp [select]
  | cons b ind ih =>
    cases l with
    | nil => simp at h
    | cons a l =>
      simp only [List.length_cons, Nat.add_right_cancel_iff] at h
      rw [select_cons, List.length_cons, List.range_succ_eq_map, List.filterMap_cons, List.filterMap_map, ih l h]
      cases b <;> simp [Function.comp_def]

theorem padTo_get {α : Type} (n : Nat) (d : α) (l : List α) (i : Nat) (h : i < n) : ((padTo n d l).take n)[i]? = some ((l[i]?).getD d) := by
  rw [List.getElem?_take_of_lt h]
  unfold padTo
  by_cases hi : i < l.length
  · rw [List.getElem?_append_left hi]
    simp [hi]
  · rw [List.getElem?_append_right (by omega), List.getElem?_replicate, if_pos (by omega), List.getElem?_eq_none (by omega)]
    rfl

theorem sel_index {α : Type} (c : Lines) (d : α) (l : List α) :
    sel c d l = (List.range c.flag.length).filterMap fun i => if c.flag[i]?.getD 0 = 0 then none else some ((l[i]?).getD d) := by
  unfold sel
  rw [select_index _ _ (by rw [List.length_take, padTo_length]; omega)]
  have hlen : (flags c).length = c.flag.length := by simp [flags]
  rw [hlen]
  apply List.filterMap_congr
  intro i hi
  have hi' := List.mem_range.1 hi
  rw [padTo_get _ _ _ _ hi']
  have : (flags c)[i]?.getD false = decide (c.flag[i]?.getD 0 ≠ 0) := by
    unfold flags
    rw [List.getElem?_map, List.getElem?_eq_getElem hi']
    rfl
  rw [this]
  by_cases h0 : c.flag[i]?.getD 0 = 0
  · simp [h0]
  · simp [h0]

theorem active_energy (c : Lines) : (active c).map (·.energy) = sel c none c.energy := by
  rw [sel_index]
  unfold active
  rw [List.map_filterMap]
  apply List.filterMap_congr
  intro i _
  split
  · rfl
  · cases c.energy[i]? <;> rfl

theorem active_weight (c : Lines) : (active c).map (·.weight) = sel c none c.weight := by
  rw [sel_index]
  unfold active
  rw [List.map_filterMap]
  apply List.filterMap_congr
  intro i _
  split
  · rfl
  · cases c.weight[i]? <;> rfl

theorem active_scatter (c : Lines) : (active c).map (·.scatter) = sel c 0 c.scatter := by
  rw [sel_index]
  unfold active
  rw [List.map_filterMap]
  apply List.filterMap_congr
  intro i _
  split <;> rfl

theorem lines_ext (l l' : List Line) (h1 : l.map (·.energy) = l'.map (·.energy)) (h2 : l.map (·.weight) = l'.map (·.weight))
    (h3 : l.map (·.scatter) = l'.map (·.scatter)) : l = l' := by
  induction l generalizing l' with
  | nil => cases l' <;> simp at h1 ⊢
  | cons a l ih =>
    cases l' with
    | nil => simp at h1
    | cons b l' =>
      simp only [List.map_cons, List.cons.injEq] at h1 h2 h3
      rw [ih l' h1.2 h2.2 h3.2, Line.ext h1.1 h2.1 h3.1]

theorem active_length (c : Lines) : (active c).length = (flags c).count true := by
  rw [← sel_length c none c.energy, ← active_energy, List.length_map]

/-- The lines of packed lists. -/
theorem active_pack (norg n : Nat) (es ws fs ss : List Rat) (he : es.length = n) (hw : ws.length = n) (hf : fs.length = n) (hs : ss.length = n)
    (h0 : ∀ f ∈ fs, f ≠ 0) :
    (active (pack norg es ws fs ss)).map (·.energy) = es.map some ∧ (active (pack norg es ws fs ss)).map (·.weight) = ws.map some ∧
    (active (pack norg es ws fs ss)).map (·.scatter) = ss := by
  rw [active_energy, active_weight, active_scatter]
  exact ⟨sel_pack _ _ _ _ _ h0 _ _ _ (by simp [he, hf]), sel_pack _ _ _ _ _ h0 _ _ _ (by simp [hw, hf]), sel_pack _ _ _ _ _ h0 _ _ _ (by simp [hs, hf])⟩

theorem ratios_complete (h x0 : Rat) (hx : x0 ≠ 0) (l : List Val) (hl : ∀ e ∈ l, e.isSome) (r : List Val) (hr : l = some x0 :: r) :
    (ratios h l).map some = l.map fun e => e.map fun x => x / x0 := by
  subst hr
  simp only [ratios, List.map_cons, List.map_map, Option.map_some, div_self hx]
  congr 1
  apply List.map_congr_left
  intro e he
  obtain ⟨q, rfl⟩ := Option.isSome_iff_exists.1 (hl e (by simp [he]))
  simp [div, hx]

theorem energies_rescaled (h e0 w0 E : Rat) (c : Lines) (hc : Complete c e0 w0) :
    ((ratios h (sel c none c.energy)).map (· * E)).map some = ((active c).map (rescale e0 w0 E)).map (·.energy) := by
  obtain ⟨s, r, hf⟩ := hc.first
  have h1 := ratios_complete h e0 hc.e0 (sel c none c.energy)
    (by rw [← active_energy]; intro e he; obtain ⟨l, hl, rfl⟩ := List.mem_map.1 he; exact hc.energy l hl)
    (r.map (·.energy)) (by rw [← active_energy, hf]; rfl)
  have h2 : ((ratios h (sel c none c.energy)).map (· * E)).map some = ((ratios h (sel c none c.energy)).map some).map fun v : Val => v.map (· * E) := by
    simp [List.map_map, Function.comp_def]
  rw [h2, h1, ← active_energy]
  simp [List.map_map, Function.comp_def, rescale]

theorem weights_rescaled (h e0 w0 E : Rat) (c : Lines) (hc : Complete c e0 w0) :
    (ratios h (sel c none c.weight)).map some = ((active c).map (rescale e0 w0 E)).map (·.weight) := by
  obtain ⟨s, r, hf⟩ := hc.first
  have h1 := ratios_complete h w0 hc.w0 (sel c none c.weight)
    (by rw [← active_weight]; intro e he; obtain ⟨l, hl, rfl⟩ := List.mem_map.1 he; exact hc.weight l hl)
    (r.map (·.weight)) (by rw [← active_weight, hf]; rfl)
  rw [h1, ← active_weight]
  simp [List.map_map, Function.comp_def, rescale]

theorem lastD_some (l : List Rat) (x : Rat) (h : l.getLast? = some x) : lastD l = x := by simp [lastD, h]

theorem endsHigh_iff (h e0 w0 E : Rat) (hE : 0 < E) (c : Lines) (hc : Complete c e0 w0) :
    High E (ratios h (sel c none c.energy)) (ratios (1 / 10000000000) (sel c none c.weight)) ↔ EndsHigh c e0 w0 := by
  rw [high_iff E hE]
  obtain ⟨s, r, hf⟩ := hc.first
  have hne : active c ≠ [] := by simp [hf]
  have hl := List.getLast?_eq_getLast_of_ne_nil hne
  generalize (active c).getLast hne = l at hl
  have hmem : l ∈ active c := List.mem_of_getLast? hl
  obtain ⟨e, he⟩ := Option.isSome_iff_exists.1 (hc.energy l hmem)
  obtain ⟨w, hw⟩ := Option.isSome_iff_exists.1 (hc.weight l hmem)
  have h1 := ratios_complete h e0 hc.e0 (sel c none c.energy)
    (by rw [← active_energy]; intro e he; obtain ⟨l, hl, rfl⟩ := List.mem_map.1 he; exact hc.energy l hl)
    (r.map (·.energy)) (by rw [← active_energy, hf]; rfl)
  have h2 := ratios_complete (1 / 10000000000) w0 hc.w0 (sel c none c.weight)
    (by rw [← active_weight]; intro e he; obtain ⟨l, hl, rfl⟩ := List.mem_map.1 he; exact hc.weight l hl)
    (r.map (·.weight)) (by rw [← active_weight, hf]; rfl)
  have h3 := congrArg List.getLast? h1
  have h4 := congrArg List.getLast? h2
  rw [← active_energy, List.getLast?_map, List.getLast?_map, List.getLast?_map, hl] at h3
  rw [← active_weight, List.getLast?_map, List.getLast?_map, List.getLast?_map, hl] at h4
  simp only [Option.map_some, he, hw] at h3 h4
  rw [active_energy] at h3
  rw [active_weight] at h4
  have h5 : (ratios h (sel c none c.energy)).getLast? = some (e / e0) := by
    cases hq : (ratios h (sel c none c.energy)).getLast? with
    | none => rw [hq] at h3; simp at h3
    | some q => rw [hq] at h3; simpa using h3
  have h6 : (ratios (1 / 10000000000) (sel c none c.weight)).getLast? = some (w / w0) := by
    cases hq : (ratios (1 / 10000000000) (sel c none c.weight)).getLast? with
    | none => rw [hq] at h4; simp at h4
    | some q => rw [hq] at h4; simpa using h4
  rw [lastD_some _ _ h5, lastD_some _ _ h6]
  constructor
  · rintro ⟨ha, hb⟩
    exact ⟨l, e, w, hl, he, hw, ha, hb⟩
  · rintro ⟨l', e', w', hl', he', hw', ha, hb⟩
    rw [hl, Option.some.injEq] at hl'
    subst hl'
    rw [he, Option.some.injEq] at he'
    rw [hw, Option.some.injEq] at hw'
    subst he' hw'
    exact ⟨ha, hb⟩

end SC.FitCfg
