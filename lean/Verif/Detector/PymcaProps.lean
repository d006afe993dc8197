import Verif.Detector.Props
/-! # Attenuators in the configuration of PyMca -/
namespace SC.Detector
open SC.Py

variable {M N : Type}

theorem get?_filter_val {V : Type} (d : Dict Str V) (hd : Dict.WF d) (r : V → Bool) (k : Str) :
    Dict.get? (d.filter fun q => r q.2) k = (Dict.get? d k).filter r := by
  induction d with
  | nil => rfl
  | cons q d ih =>
    obtain ⟨x, v⟩ := q
    have hnd := List.nodup_cons.mp (show (x :: Dict.keys d).Nodup from hd)
    have ih := ih hnd.2
    rw [List.filter_cons]
    by_cases hx : x = k
    · subst hx
      have hn : Dict.get? d x = none := (Dict.get?_none d x).mpr hnd.1
      by_cases hv : r v = true
      · simp [Dict.get?, hv, Option.filter]
      · rw [if_neg hv, ih, hn]
        simp [Dict.get?, hv, Option.filter]
    · split
      · simp only [Dict.get?, hx, if_false, ih]
      · simp only [Dict.get?, hx, if_false, ih]

theorem get?_map {V W : Type} (d : Dict Str V) (f : Str → V → W) (k : Str) :
    Dict.get? (d.map fun q => (q.1, f q.1 q.2)) k = (Dict.get? d k).map (f k) := by
  induction d with
  | nil => rfl
  | cons q d ih =>
    obtain ⟨x, v⟩ := q
    simp only [List.map_cons, Dict.get?]
    by_cases hx : x = k
    · subst hx; simp
    · simp only [hx, if_false, ih]

theorem get?_reverse {V : Type} (d : Dict Str V) (hd : Dict.WF d) (k : Str) :
    Dict.get? d.reverse k = Dict.get? d k := by
  have hr : Dict.WF d.reverse := by
    simp only [Dict.WF, Dict.keys, List.map_reverse, List.nodup_reverse]; exact hd
  cases h : Dict.get? d k with
  | none =>
    rw [Dict.get?_none] at h ⊢
    simpa [Dict.keys] using h
  | some v => exact Dict.get?_of_mem hr (List.mem_reverse.mpr (Dict.get?_mem h))

theorem wf_refresh (s : State M) (h : Dict.WF s.atts) : Dict.WF (refresh s).atts := by
  unfold refresh
  split
  · exact h
  · exact Dict.wf_set _ h _ _

/-- C57: the configuration holds the attenuators, enabled, and of what was there what was enabled. -/
theorem save_entries (toPymca : Str → M → N × ℝ) (s : State M) (hs : Dict.WF s.atts) (cfg : Dict Str (Entry N))
    (hc : Dict.WF cfg) (n : Str) :
    Dict.get? (addToPymca toPymca s cfg) n =
      match Dict.get? (refresh s).atts n with
      | some a => some ⟨true, (toPymca n a.1).1, (toPymca n a.1).2, a.2⟩
      | none => (Dict.get? cfg n).filter (·.enabled) := by
  unfold addToPymca
  have hw := wf_refresh s hs
  have hm : Dict.WF ((refresh s).atts.map fun p =>
      (p.1, (⟨true, (toPymca p.1 p.2.1).1, (toPymca p.1 p.2.1).2, p.2.2⟩ : Entry N))) := by
    simp only [Dict.WF, Dict.keys, List.map_map, Function.comp_def]; exact hw
  rw [get?_filter_val _ (Dict.wf_update _ hc _) (·.enabled), Dict.get?_update, get?_reverse _ hm,
    get?_map (refresh s).atts (fun n a => (⟨true, (toPymca n a.1).1, (toPymca n a.1).2, a.2⟩ : Entry N))]
  cases Dict.get? (refresh s).atts n with
  | none => simp
  | some a => simp [Option.filter]

/-- C57: the enabled entries become the attenuators, except the matrix; the atmosphere is that of the geometry when it
has one. -/
theorem load_entries (fromPymca : N → ℝ → M) (s : State M) (cfg : Dict Str (Entry N)) (hc : Dict.WF cfg) (n : Str)
    (hn : n ≠ atmLabel ∨ s.air = none) :
    Dict.get? (refresh (loadFromPymca fromPymca s cfg)).atts n =
      if n = "Matrix".toList then none
      else ((Dict.get? cfg n).filter (·.enabled)).map fun v => (fromPymca v.name v.density, v.thickness) := by
  have href : ∀ t : State M, t.air = s.air → Dict.get? (refresh t).atts n = Dict.get? t.atts n := by
    intro t ht
    unfold refresh
    rw [ht]
    cases ha : s.air with
    | none => rfl
    | some a =>
      rcases hn with hn | hn
      · simp only [addAttenuator, Dict.get?_set, if_neg (Ne.symm hn)]
      · rw [ha] at hn; simp at hn
  have hairr : ∀ t : State M, (refresh t).air = t.air := by
    intro t; unfold refresh; split <;> rfl
  have key : ∀ (cfg : Dict Str (Entry N)) (t : State M), Dict.WF cfg → t.air = s.air →
      Dict.get? (cfg.foldl (fun s p =>
        if p.1 ≠ "Matrix".toList ∧ p.2.enabled = true then
          addAttenuator (refresh s) p.1 (fromPymca p.2.name p.2.density, p.2.thickness)
        else s) t).atts n
        = ((if n = "Matrix".toList then none
          else ((Dict.get? cfg n).filter (·.enabled)).map fun v => (fromPymca v.name v.density, v.thickness)).or
            (Dict.get? t.atts n)) ∧
      (cfg.foldl (fun s p =>
        if p.1 ≠ "Matrix".toList ∧ p.2.enabled = true then
          addAttenuator (refresh s) p.1 (fromPymca p.2.name p.2.density, p.2.thickness)
        else s) t).air = s.air := by
    intro cfg
    induction cfg with
    | nil => intro t _ ht; exact ⟨by simp [Dict.get?], ht⟩
    | cons q cfg ih =>
      intro t hw ht
      obtain ⟨x, v⟩ := q
      have hnd := List.nodup_cons.mp (show (x :: Dict.keys cfg).Nodup from hw)
      rw [List.foldl_cons]
      by_cases hq : x ≠ "Matrix".toList ∧ v.enabled = true
      · rw [if_pos hq]
        obtain ⟨i1, i2⟩ := ih (addAttenuator (refresh t) x (fromPymca v.name v.density, v.thickness)) hnd.2
          (by rw [addAttenuator]; exact (hairr t).trans ht)
        refine ⟨?_, i2⟩
        rw [i1]
        simp only [addAttenuator, Dict.get?_set, Dict.get?]
        by_cases hx : x = n
        · subst hx
          have hg : Dict.get? cfg x = none := (Dict.get?_none cfg x).mpr hnd.1
          rw [hg, if_neg hq.1, if_neg hq.1]
          simp [hq.2, Option.filter]
        · simp only [hx, if_false, href t ht]
      · rw [if_neg hq]
        obtain ⟨i1, i2⟩ := ih t hnd.2 ht
        refine ⟨?_, i2⟩
        rw [i1]
        simp only [Dict.get?]
        by_cases hx : x = n
        · subst hx
          have hg : Dict.get? cfg x = none := (Dict.get?_none cfg x).mpr hnd.1
          by_cases hm : x = "Matrix".toList
          · simp only [hm, if_true]
          · have he : v.enabled = false := by
              rw [Bool.eq_false_iff]; exact fun he => hq ⟨hm, he⟩
            rw [hg, if_neg hm, if_neg hm]
            simp [he, Option.filter]
        · simp only [hx, if_false]
  obtain ⟨h1, h2⟩ := key cfg { s with atts := [] } hc rfl
  unfold loadFromPymca
  rw [href _ h2, h1]
  simp [Dict.get?]

/-- C57: attenuators that are saved in a configuration without enabled attenuators come back when loaded, unless
one is called "Matrix". -/
theorem pymca_round_trip (toPymca : Str → M → N × ℝ) (fromPymca : N → ℝ → M)
    (hconv : ∀ n m, fromPymca (toPymca n m).1 (toPymca n m).2 = m)
    (s s0 : State M) (hs : Dict.WF s.atts) (hair : s0.air = s.air) (cfg : Dict Str (Entry N)) (hc : Dict.WF cfg)
    (hoff : ∀ q ∈ cfg, q.2.enabled = false) (n : Str) (hn : n ≠ "Matrix".toList) :
    Dict.get? (refresh (loadFromPymca fromPymca s0 (addToPymca toPymca s cfg))).atts n
      = Dict.get? (refresh s).atts n := by
  have hw : Dict.WF (addToPymca toPymca s cfg) := by
    unfold addToPymca
    have h := Dict.wf_update cfg hc ((refresh s).atts.map fun p =>
      (p.1, (⟨true, (toPymca p.1 p.2.1).1, (toPymca p.1 p.2.1).2, p.2.2⟩ : Entry N)))
    simp only [Dict.WF, Dict.keys] at h ⊢
    exact h.sublist (List.filter_sublist.map _)
  by_cases ha : n ≠ atmLabel ∨ s0.air = none
  · rw [load_entries fromPymca s0 _ hw n ha, if_neg hn, save_entries toPymca s hs cfg hc]
    cases hg : Dict.get? (refresh s).atts n with
    | some a => simp [hconv, Option.filter]
    | none =>
      simp only
      cases hg2 : Dict.get? cfg n with
      | none => simp
      | some v =>
        have hv : v.enabled = false := hoff _ (Dict.get?_mem hg2)
        simp [hv, Option.filter]
  · push Not at ha
    obtain ⟨a, ha2⟩ := Option.ne_none_iff_exists'.mp ha.2
    have h1 : ∀ t : State M, t.air = some a → Dict.get? (refresh t).atts n = some a := by
      intro t ht
      simp only [refresh, ht, addAttenuator, Dict.get?_set, ha.1, if_true]
    have hairf : ∀ (cfg : Dict Str (Entry N)) (t : State M), (cfg.foldl (fun s p =>
        if p.1 ≠ "Matrix".toList ∧ p.2.enabled = true then
          addAttenuator (refresh s) p.1 (fromPymca p.2.name p.2.density, p.2.thickness)
        else s) t).air = t.air := by
      intro cfg
      induction cfg with
      | nil => intro t; rfl
      | cons q cfg ih =>
        intro t
        rw [List.foldl_cons, ih]
        split
        · rw [addAttenuator]; unfold refresh; split <;> rfl
        · rfl
    rw [h1 _ (by unfold loadFromPymca; rw [hairf]; exact ha2), h1 s (by rw [← hair]; exact ha2)]

/-- C57, against the property: what was enabled in the configuration is loaded as well. -/
theorem pymca_leftover (toPymca : Str → M → N × ℝ) (fromPymca : N → ℝ → M) (s : State M) (hs : Dict.WF s.atts)
    (cfg : Dict Str (Entry N)) (hc : Dict.WF cfg) (n : Str) (hn : n ≠ "Matrix".toList) (ha : n ≠ atmLabel) (v : Entry N)
    (hv : Dict.get? cfg n = some v) (he : v.enabled = true) (hno : Dict.get? s.atts n = none) :
    Dict.get? (refresh (loadFromPymca fromPymca s (addToPymca toPymca s cfg))).atts n
      = some (fromPymca v.name v.density, v.thickness) := by
  have hw : Dict.WF (addToPymca toPymca s cfg) := by
    unfold addToPymca
    have h := Dict.wf_update cfg hc ((refresh s).atts.map fun p =>
      (p.1, (⟨true, (toPymca p.1 p.2.1).1, (toPymca p.1 p.2.1).2, p.2.2⟩ : Entry N)))
    simp only [Dict.WF, Dict.keys] at h ⊢
    exact h.sublist (List.filter_sublist.map _)
  have hno' : Dict.get? (refresh s).atts n = none := by
    unfold refresh
    split
    · exact hno
    · simp only [addAttenuator, Dict.get?_set, if_neg (Ne.symm ha), hno]
  rw [load_entries fromPymca s _ hw n (Or.inl ha), if_neg hn, save_entries toPymca s hs cfg hc, hno']
  simp [hv, he, Option.filter]

/-! ## Examples -/

/-- A detector with a filter of its own and one in the beam, in air; materials are densities. -/
def exampleState : State ℝ :=
  ⟨[("Detector".toList, (3, 2)), ("BEAMFilter12".toList, (5, 1)), ("window".toList, (7, 1))], some (1, 4)⟩

example : BeamName "BEAMFilter12".toList := (beam_names _).mp (by decide +kernel)

example : ¬ BeamName "beamfilter".toList := fun h => by
  have := (beam_names _).mpr h
  revert this
  decide +kernel

example : Dict.WF exampleState.atts := by simp [Dict.WF, Dict.keys, exampleState]

example (e : ℝ) : filterTransmission (fun m _ t => m * t) exampleState e true = Real.exp (-5) := by
  have h1 : isBeam "Detector".toList = false := by decide +kernel
  have h2 : isBeam "BEAMFilter12".toList = true := by decide +kernel
  have h3 : isBeam "window".toList = false := by decide +kernel
  rw [(filter_passing _ exampleState e).1]
  simp only [exampleState, List.filter_cons, h1, h2, h3, List.filter_nil]
  simp [passing]

/-- The next filter without name would be called "BeamFilter12", as the one that is there. -/
example : nextBeam exampleState = "BeamFilter12".toList := by
  have : lastNumber (refresh exampleState).atts = 12 := by
    have h : ["Detector".toList, "BEAMFilter12".toList, "window".toList, "Atmosphere".toList].foldl numStep 0 = 12 := by
      decide +kernel
    rw [lastNumber, ← List.foldl_map (f := Prod.fst) (g := numStep)]
    exact h
  unfold nextBeam
  rw [this]
  decide +kernel

/-- An old configuration without enabled attenuators. -/
example : Dict.get? (refresh (loadFromPymca (fun m _ => m) exampleState (addToPymca (fun _ m => (m, m)) exampleState
    [("Filter 1".toList, (⟨false, 1, 1, 1⟩ : Entry ℝ))]))).atts "window".toList = some (7, 1) := by
  rw [pymca_round_trip (M := ℝ) (N := ℝ) (fun _ m => (m, m)) (fun m _ => m) (fun _ _ => rfl) exampleState
    exampleState (by simp [Dict.WF, Dict.keys, exampleState]) rfl [("Filter 1".toList, ⟨false, 1, 1, 1⟩)]
    (by simp [Dict.WF, Dict.keys]) (by simp) "window".toList (by decide)]
  rfl

end SC.Detector
