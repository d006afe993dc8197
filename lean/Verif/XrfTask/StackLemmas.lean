import Verif.XrfTask.AddLemmas
/-! # Lemmas on stacks of counters and fit results -/
namespace SC.XrfTask
open SC.Py SC.Naming SC.Grid

theorem setSlice_get2 {st st' : Stacks} {g : Grp} {k : Str} {i : Nat} {a : Arg} (h : setSlice st g k i a = some st') :
    (∃ l, get2 st g k = some l ∧ i < l.length) ∧
    ∀ g' k', get2 st' g' k' = if g' = g ∧ k' = k then (get2 st g k).map (fun l => l.set i a) else get2 st g' k' := by
  unfold setSlice at h
  cases hg : Dict.get? st g with
  | none => simp [hg] at h
  | some d =>
    cases hk : Dict.get? d k with
    | none => simp [hg, hk] at h
    | some l =>
      simp only [hg, hk] at h
      split at h
      · next hi =>
        simp only [Option.some.injEq] at h
        subst h
        refine ⟨⟨l, by simp [get2, hg, hk], hi⟩, fun g' k' => ?_⟩
        simp only [get2, Dict.get?_set]
        by_cases h1 : g = g'
        · subst h1
          simp only [if_true, Option.bind_some, Dict.get?_set, true_and, hg]
          by_cases h2 : k = k'
          · subst h2; simp [hk]
          · simp [h2, Ne.symm h2]
        · simp [h1, Ne.symm h1]
      · simp at h

theorem setSlice_some {st : Stacks} {g : Grp} {k : Str} {i : Nat} {a : Arg} {l : List Arg} (h : get2 st g k = some l) (hi : i < l.length) :
    ∃ st', setSlice st g k i a = some st' := by
  unfold get2 at h
  unfold setSlice
  cases hg : Dict.get? st g with
  | none => simp [hg] at h
  | some d =>
    rw [hg, Option.bind_some] at h
    simp [h, hi]

theorem setSlice_wf {st st' : Stacks} {g : Grp} {k : Str} {i : Nat} {a : Arg} (hst : StWF st) (h : setSlice st g k i a = some st') : StWF st' := by
  unfold setSlice at h
  cases hg : Dict.get? st g with
  | none => simp [hg] at h
  | some d =>
    cases hk : Dict.get? d k with
    | none => simp [hg, hk] at h
    | some l =>
      simp only [hg, hk] at h
      split at h
      · simp only [Option.some.injEq] at h
        subst h
        refine ⟨Dict.wf_set _ hst.1 _ _, fun g' d' hd => ?_⟩
        rw [Dict.get?_set] at hd
        split at hd
        · simp only [Option.some.injEq] at hd
          subst hd
          exact Dict.wf_set _ (hst.2 _ _ hg) _ _
        · exact hst.2 _ _ hd
      · simp at h

/-- Both loops over files are this one. -/
def putFiles (mk : Str → Arg) (g : Grp) (i : Nat) : List (Str × Str) → Stacks → Option Stacks
  | [], st => some st
  | (k, f) :: r, st => match setSlice st g k i (mk f) with
    | none => none
    | some st => putFiles mk g i r st

theorem addCounterFiles_eq (g : Grp) (i : Nat) (l : List (Str × Str)) (st : Stacks) :
    addCounterFiles g i l st = putFiles (fun f => .slice .counter true [.file f]) g i l st := by
  induction l generalizing st with
  | nil => rfl
  | cons x l ih =>
    obtain ⟨k, f⟩ := x
    simp only [addCounterFiles, putFiles]
    cases setSlice st g k i (.slice .counter true [.file f]) with
    | none => rfl
    | some st => exact ih st

theorem addFitFiles_eq (g : Grp) (i : Nat) (l : List (Str × Str)) (st : Stacks) :
    addFitFiles g i l st = putFiles (fun f => .slice .readedf true [.file f]) g i l st := by
  induction l generalizing st with
  | nil => rfl
  | cons x l ih =>
    obtain ⟨k, f⟩ := x
    simp only [addFitFiles, putFiles]
    cases setSlice st g k i (.slice .readedf true [.file f]) with
    | none => rfl
    | some st => exact ih st

theorem putFiles_spec {mk : Str → Arg} {g : Grp} {i : Nat} {l : List (Str × Str)} {st st' : Stacks} (hst : StWF st) (hn : (l.map Prod.fst).Nodup)
    (h : putFiles mk g i l st = some st') :
    StWF st' ∧ (∀ kf ∈ l, ∃ s, get2 st g kf.1 = some s ∧ i < s.length) ∧
    ∀ g' k', get2 st' g' k' = if g' = g then (match Dict.get? (l : Dict Str Str) k' with
      | none => get2 st g' k'
      | some f => (get2 st g' k').map fun s => s.set i (mk f)) else get2 st g' k' := by
  induction l generalizing st with
  | nil =>
    simp only [putFiles, Option.some.injEq] at h
    subst h
    exact ⟨hst, by simp, fun g' k' => by simp [Dict.get?]⟩
  | cons x r ih =>
    obtain ⟨k, f⟩ := x
    simp only [List.map_cons, List.nodup_cons] at hn
    simp only [putFiles] at h
    cases hs : setSlice st g k i (mk f) with
    | none => simp [hs] at h
    | some st1 =>
      rw [hs] at h
      simp only at h
      obtain ⟨⟨s0, h0, h0'⟩, h1⟩ := setSlice_get2 hs
      obtain ⟨i1, i2, i3⟩ := ih (setSlice_wf hst hs) hn.2 h
      refine ⟨i1, ?_, fun g' k' => ?_⟩
      · intro kf hkf
        rcases List.mem_cons.mp hkf with rfl | hkf
        · exact ⟨s0, h0, h0'⟩
        · obtain ⟨s, hs1, hs2⟩ := i2 kf hkf
          rw [h1] at hs1
          split at hs1
          · next e =>
            exact absurd (List.mem_map.mpr ⟨kf, hkf, e.2⟩) hn.1
          · exact ⟨s, hs1, hs2⟩
      · rw [i3 g' k', h1]
        by_cases hg : g' = g
        · subst hg
          simp only [if_true, true_and]
          by_cases hk : k' = k
          · subst hk
            have : Dict.get? (r : Dict Str Str) k' = none := (Dict.get?_none _ _).mpr hn.1
            simp [this, Dict.get?]
          · simp only [hk, if_false, Dict.get?, Ne.symm hk]
        · simp [hg]

theorem keys_eq_nil_of_get {K V : Type} [DecidableEq K] (d : Dict K V) (h : ∀ k, Dict.get? d k = none) : d = [] := by
  cases d with
  | nil => rfl
  | cons p d => have := h p.1; simp [Dict.get?] at this

theorem get?_update_const {K V : Type} [DecidableEq K] (d : Dict K V) (ks : List K) (v : V) (x : K) :
    Dict.get? (Dict.update d (ks.map fun k => (k, v))) x = if x ∈ ks then some v else Dict.get? d x := by
  induction ks generalizing d with
  | nil => simp [Dict.update]
  | cons k ks ih =>
    have : Dict.update d ((k :: ks).map fun k => (k, v)) = Dict.update (Dict.set d k v) (ks.map fun k => (k, v)) := rfl
    rw [this, ih, Dict.get?_set]
    by_cases h1 : x ∈ ks
    · simp [h1]
    · by_cases h2 : k = x
      · simp [h2]
      · simp [h1, h2, Ne.symm h2]

theorem set_range {n i : Nat} (f : Nat → Arg) (a : Arg) :
    ((List.range n).map f).set i a = (List.range n).map fun j => if j = i then a else f j := by
  apply List.ext_getElem
  · simp
  · intro j h1 h2
    simp only [List.getElem_set, List.getElem_map, List.getElem_range]
    by_cases h : i = j
    · simp [h]
    · simp [h, Ne.symm h]

end SC.XrfTask
