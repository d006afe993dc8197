import Verif.Spectrum.Props
/-! # Property C61, part 3: groups of lines and what is told of each line -/
namespace SC.Spectrum
open SC.Common SC.Py

/-! ## Groups -/

/-- The lines of a group with the values for a multiplier, in order. -/
def groupLines (d : Lines) (m : ℚ) (g : Str) : Lines :=
  (d.filter fun p => decide (p.1.group = g)).map fun p =>
    (p.1, if p.1.isFluo then .num (p.2.toList.sum * m) else p.2.map (· * m))

theorem set_new (d : Lines) (l : Line) (v : Val) (h : l.name ∉ d.map fun p => p.1.name) : Lines.set d l v = d ++ [(l, v)] := by
  induction d with
  | nil => rfl
  | cons p d ih =>
    obtain ⟨k, w⟩ := p
    simp only [List.map_cons, List.mem_cons, not_or] at h
    simp only [Lines.set, if_neg (Ne.symm h.1), ih h.2, List.cons_append]

/-- The part of the lines in a group, as the loop makes it. -/
def part (r : Lines) (g : Str) : Lines := (r.filter fun p => decide (p.1.group = g)).map fun p => (p.1, groupValue p)

theorem groupLoop_get (r : Lines) (d : Dict Str Lines)
    (hn : ∀ g, (((Dict.get? d g).getD []).map fun p => p.1.name) ++ (r.map fun p => p.1.name) |>.Nodup) (g : Str) :
    Dict.get? (groupLoop d r) g = if part r g = [] then Dict.get? d g else some (((Dict.get? d g).getD []) ++ part r g) := by
  induction r generalizing d with
  | nil => simp [groupLoop, part]
  | cons p r ih =>
    unfold groupLoop
    simp only
    have hnew : p.1.name ∉ ((Dict.get? d p.1.group).getD []).map fun p => p.1.name := by
      intro h
      have := hn p.1.group
      rw [List.nodup_append] at this
      exact this.2.2 _ h _ (by simp) rfl
    rw [set_new _ _ _ hnew, ih]
    · by_cases hg : p.1.group = g
      · subst hg
        have hp : part (p :: r) p.1.group = (p.1, groupValue p) :: part r p.1.group := by
          simp [part]
        rw [hp, Dict.get?_set, if_pos rfl]
        simp only [reduceCtorEq, if_false, Option.getD_some]
        split
        · next h => rw [h]
        · simp
      · have hp : part (p :: r) g = part r g := by
          simp [part, hg]
        rw [hp, Dict.get?_set, if_neg hg]
    · intro g'
      rw [Dict.get?_set]
      have h' := hn g'
      by_cases hg : p.1.group = g'
      · subst hg
        simp only [if_true, Option.getD_some, List.map_append, List.map_cons, List.map_nil, List.append_assoc, List.singleton_append]
        simpa using h'
      · rw [if_neg hg]
        refine h'.sublist ?_
        simp

theorem groupLoop_keys (r : Lines) (d : Dict Str Lines) (h : Dict.WF d) : Dict.WF (groupLoop d r) := by
  induction r generalizing d with
  | nil => exact h
  | cons p r ih => exact ih _ (Dict.wf_set d h _ _)

theorem linegroups_ok {s : Spec} {c : Bool} {gs : Dict Str Lines} (h : s.linegroups c = .ok gs) :
    ∃ m, s.multiplier c = .ok m ∧ gs = groupLoop [] (s.lines.map fun p => (p.1, p.2.map (· * m))) := by
  unfold Spec.linegroups at h
  cases hc : s.itemsConverted c false with
  | error e => rw [hc] at h; cases h
  | ok l =>
    rw [hc] at h
    obtain ⟨m, h1, rfl⟩ := itemsConverted_ok hc
    exact ⟨m, h1, (Except.ok.inj h).symm⟩

theorem part_map (d : Lines) (m : ℚ) (g : Str) : part (d.map fun p => (p.1, p.2.map (· * m))) g = groupLines d m g := by
  simp only [part, groupLines, List.filter_map, List.map_map]
  apply List.map_congr_left
  intro p _
  simp only [Function.comp, groupValue, Val.sum, map_sum]

/-- The group of a name has the lines of that group with the converted values, fluorescence lines summed over
the source; there are no other groups. -/
theorem linegroups_spec (s : Spec) (c : Bool) (gs : Dict Str Lines) (m : ℚ) (hm : s.multiplier c = .ok m)
    (hd : Distinct s.lines) (h : s.linegroups c = .ok gs) (g : Str) :
    Dict.get? gs g = if (∃ p ∈ s.lines, p.1.group = g) then some (groupLines s.lines m g) else Option.none := by
  obtain ⟨m', h1, rfl⟩ := linegroups_ok h
  rw [hm] at h1
  obtain rfl := Except.ok.inj h1
  rw [groupLoop_get, part_map]
  · by_cases hx : ∃ p ∈ s.lines, p.1.group = g
    · rw [if_pos hx, if_neg]
      · simp [Dict.get?]
      · obtain ⟨p, hp, hg⟩ := hx
        intro e
        simp only [groupLines, List.map_eq_nil_iff, List.filter_eq_nil_iff] at e
        exact e p hp (by simpa using hg)
    · rw [if_neg hx, if_pos]
      · rfl
      · simp only [groupLines, List.map_eq_nil_iff, List.filter_eq_nil_iff]
        intro p hp
        simpa using fun e => hx ⟨p, hp, e⟩
  · intro g'
    simpa [Dict.get?, Function.comp_def, Distinct] using hd

theorem linegroups_wf (s : Spec) (c : Bool) (gs : Dict Str Lines) (h : s.linegroups c = .ok gs) : Dict.WF gs := by
  obtain ⟨m', _, rfl⟩ := linegroups_ok h
  exact groupLoop_keys _ _ (by simp [Dict.WF, Dict.keys])

theorem get?_iff {V : Type} {d : Dict Str V} (hd : Dict.WF d) (k : Str) (v : V) : (k, v) ∈ d ↔ Dict.get? d k = some v :=
  ⟨fun h => Dict.get?_of_mem hd h, fun h => Dict.get?_mem h⟩

theorem sum_by_group (d : Lines) (keys : List Str) (hk : keys.Nodup) (hall : ∀ p ∈ d, p.1.group ∈ keys) (f : Line × Val → ℚ) :
    (keys.map fun g => ((d.filter fun p => decide (p.1.group = g)).map f).sum).sum = (d.map f).sum := by
  induction d with
  | nil => simp
  | cons p d ih =>
    have ih' := ih (fun q hq => hall q (by simp [hq]))
    clear ih
    have h1 : ∀ g, (((p :: d).filter fun p => decide (p.1.group = g)).map f).sum =
        (if g = p.1.group then f p else 0) + ((d.filter fun p => decide (p.1.group = g)).map f).sum := by
      intro g
      by_cases hg : p.1.group = g
      · simp [hg]
      · simp [hg, Ne.symm hg]
    simp only [h1, List.map_cons, List.sum_cons, List.sum_map_add, ih']
    congr 1
    have := hall p (by simp)
    clear ih' h1 hall
    induction keys with
    | nil => cases this
    | cons k keys ih2 =>
      rw [List.nodup_cons] at hk
      simp only [List.map_cons, List.sum_cons]
      by_cases hkp : k = p.1.group
      · rw [if_pos hkp]
        have : (keys.map fun g => if g = p.1.group then f p else 0) = keys.map fun _ => 0 := by
          apply List.map_congr_left
          intro g hg
          rw [if_neg]
          rintro rfl
          exact hk.1 (hkp ▸ hg)
        simp [this]
      · rw [if_neg hkp, ih2 hk.2 (by
          rcases List.mem_cons.1 this with e | e
          · exact absurd e.symm hkp
          · exact e), zero_add]

theorem groupValue_sum (p : Line × Val) (m : ℚ) :
    (if p.1.isFluo then Val.num (p.2.toList.sum * m) else p.2.map (· * m)).toList.sum = p.2.toList.sum * m := by
  split
  · simp [Val.toList]
  · exact map_sum m p.2

/-- The groups together have everything: their totals add up to the converted total. -/
theorem linegroups_total (s : Spec) (c : Bool) (gs : Dict Str Lines) (m : ℚ) (hm : s.multiplier c = .ok m)
    (hd : Distinct s.lines) (h : s.linegroups c = .ok gs) : (gs.map fun p => total p.2).sum = m * total s.lines := by
  have hwf := linegroups_wf s c gs h
  have h1 : gs.map (fun p => total p.2) = (gs.map Prod.fst).map fun g =>
      ((s.lines.filter fun p => decide (p.1.group = g)).map fun p => p.2.toList.sum * m).sum := by
    rw [List.map_map]
    apply List.map_congr_left
    rintro ⟨g, l⟩ hp
    have hg := (get?_iff hwf g l).1 hp
    rw [linegroups_spec s c gs m hm hd h] at hg
    split at hg
    · obtain rfl := Option.some.inj hg
      simp only [Function.comp, total, groupLines, List.map_map]
      congr 1
      apply List.map_congr_left
      intro p _
      exact groupValue_sum p m
    · cases hg
  rw [h1, sum_by_group]
  · simp only [total]
    rw [List.sum_map_mul_right (r := m), mul_comm]
  · exact hwf
  · intro p hp
    have hg := linegroups_spec s c gs m hm hd h p.1.group
    rw [if_pos ⟨p, hp, rfl⟩] at hg
    exact List.mem_map_of_mem (f := Prod.fst) (Dict.get?_mem hg)

end SC.Spectrum
