import Verif.XrfTask.StackLemmas
import Verif.XrfTask.DetProps
/-! # Properties of the stacks of counters and fit results -/
namespace SC.XrfTask
open SC.Py SC.Naming SC.Grid

/-- The slice of a counter file. -/
def ctrSlice (f : Str) : Arg := .slice .counter true [.file f]

/-- The file of a counter of a group. -/
def ctrFile (l : List (Str × List (Str × Str))) (g : Grp) (k : Str) : Option Str :=
  l.findSome? fun dv => if grpOf (.str dv.1) = some g then Dict.get? (dv.2 : Dict Str Str) k else none

/-- Detectors and counters occur once. -/
def CtrWF (l : List (Str × List (Str × Str))) : Prop :=
  (l.map fun dv => grpOf (.str dv.1)).Nodup ∧ ∀ dv ∈ l, (dv.2.map Prod.fst).Nodup

theorem ctrFile_none {l : List (Str × List (Str × Str))} {g : Grp} (k : Str) (h : some g ∉ l.map fun dv => grpOf (.str dv.1)) : ctrFile l g k = none := by
  unfold ctrFile
  rw [List.findSome?_eq_none_iff]
  intro dv hdv
  rw [if_neg]
  intro e
  exact h (List.mem_map.mpr ⟨dv, hdv, e⟩)

theorem addCounterDets_spec {nstack i : Nat} {l : List (Str × List (Str × Str))} {st st' : Stacks} (hst : StWF st) (hl : CtrWF l) (hn : 0 < nstack)
    (h : addCounterDets nstack i l st = some st') :
    StWF st' ∧ ∀ g k, get2 st' g k =
      if i = 0 ∧ some g ∈ l.map (fun dv => grpOf (.str dv.1)) then (ctrFile l g k).map fun f => (List.range nstack).map fun j => if j = 0 then ctrSlice f else .none
      else match ctrFile l g k with
        | none => get2 st g k
        | some f => (get2 st g k).map fun s => s.set i (ctrSlice f) := by
  induction l generalizing st with
  | nil =>
    simp only [addCounterDets, Option.some.injEq] at h
    subst h
    exact ⟨hst, fun g k => by simp [ctrFile]⟩
  | cons dv r ih =>
    obtain ⟨dt, v⟩ := dv
    obtain ⟨hl1, hl2⟩ := hl
    simp only [List.map_cons, List.nodup_cons] at hl1
    simp only [addCounterDets] at h
    cases hg0 : grpOf (.str dt) with
    | none => simp [hg0] at h
    | some g0 =>
      rw [hg0] at h
      simp only at h
      rw [addCounterFiles_eq] at h
      -- the stacks with the new group
      generalize hst1 : (if i = 0 then Dict.set st g0 (Dict.update [] (v.map fun x => (x.1, List.replicate nstack Arg.none))) else st) = st1 at h
      have hw1 : StWF st1 := by
        rw [← hst1]
        split
        · refine ⟨Dict.wf_set _ hst.1 _ _, fun g d hd => ?_⟩
          rw [Dict.get?_set] at hd
          split at hd
          · simp only [Option.some.injEq] at hd
            subst hd
            exact Dict.wf_update _ (by simp [Dict.WF, Dict.keys]) _
          · exact hst.2 _ _ hd
        · exact hst
      have hg1 : ∀ g k, get2 st1 g k = if i = 0 ∧ g = g0 then (Dict.get? (v : Dict Str Str) k).map fun _ => List.replicate nstack Arg.none else get2 st g k := by
        intro g k
        rw [← hst1]
        by_cases hi : i = 0
        · simp only [hi, if_true, true_and, get2, Dict.get?_set]
          by_cases hgg : g0 = g
          · subst hgg
            simp only [if_true, Option.bind_some]
            have e : (v.map fun x => (x.1, List.replicate nstack Arg.none)) = (v.map Prod.fst).map fun k => (k, List.replicate nstack Arg.none) := by
              simp [Function.comp_def]
            rw [e, get?_update_const]
            by_cases hk : k ∈ v.map Prod.fst
            · have := (Dict.get?_isSome (v : Dict Str Str) k).mpr hk
              obtain ⟨f, hf⟩ := Option.isSome_iff_exists.mp this
              simp only [hk, if_true, hf, Option.map_some]
            · have := (Dict.get?_none (v : Dict Str Str) k).mpr hk
              simp only [hk, if_false, this, Option.map_none]
              rfl
          · simp [hgg, Ne.symm hgg]
        · simp [hi]
      cases hp : putFiles (fun f => .slice .counter true [.file f]) g0 i v st1 with
      | none => simp [hp] at h
      | some st2 =>
        rw [hp] at h
        simp only at h
        obtain ⟨p1, p2, p3⟩ := putFiles_spec hw1 (hl2 (dt, v) (by simp)) hp
        obtain ⟨i1, i2⟩ := ih p1 ⟨hl1.2, fun x hx => hl2 x (by simp [hx])⟩ h
        refine ⟨i1, fun g k => ?_⟩
        rw [i2 g k]
        have hcons : ctrFile ((dt, v) :: r) g k = if g0 = g then Dict.get? (v : Dict Str Str) k else ctrFile r g k := by
          by_cases hgg : g0 = g
          · subst hgg
            have : ctrFile r g0 k = none := ctrFile_none k (by rw [← hg0]; exact hl1.1)
            unfold ctrFile at this ⊢
            simp only [List.findSome?_cons, hg0, if_true, this]
            cases Dict.get? (v : Dict Str Str) k <;> rfl
          · unfold ctrFile
            simp [List.findSome?_cons, hg0, hgg]
        rw [hcons]
        by_cases hgg : g0 = g
        · subst hgg
          have hnr : some g0 ∉ r.map fun dv => grpOf (.str dv.1) := by rw [← hg0]; exact hl1.1
          rw [ctrFile_none k hnr]
          simp only [hnr, and_false, if_false, List.map_cons, hg0, List.mem_cons, true_or, and_true, if_true]
          rw [p3 g0 k, hg1]
          simp only [if_true, and_true]
          by_cases hi : i = 0
          · simp only [hi, if_true]
            cases Dict.get? (v : Dict Str Str) k with
            | none => rfl
            | some f =>
              simp only [Option.map_some, Option.some.injEq]
              have e : List.replicate nstack Arg.none = (List.range nstack).map fun _ => Arg.none := by
                apply List.ext_getElem <;> simp
              rw [e, set_range]
              rfl
          · simp only [hi, if_false]
            cases Dict.get? (v : Dict Str Str) k <;> rfl
        · simp only [hgg, if_false, List.map_cons, hg0, List.mem_cons, Option.some.injEq, Ne.symm hgg, false_or]
          rw [p3 g k]
          simp only [Ne.symm hgg, if_false]
          rw [hg1]
          simp [Ne.symm hgg]

theorem addCounters_later {nstack i : Nat} {images : List Image} {st st' : Stacks} (hst : StWF st) (hl : ∀ im ∈ images, CtrWF im.counters)
    (hn : 0 < nstack) (hi : 0 < i) (h : addCounters nstack i images st = some st') :
    StWF st' ∧ ∀ g k, (get2 st g k = none → get2 st' g k = none) ∧ ∀ φ, get2 st g k = some ((List.range nstack).map φ) →
      get2 st' g k = some ((List.range nstack).map fun j => if i ≤ j then ((images[j - i]?).bind fun im => ctrFile im.counters g k).elim (φ j) ctrSlice else φ j) := by
  induction images generalizing st i with
  | nil =>
    simp only [addCounters, Option.some.injEq] at h
    subst h
    refine ⟨hst, fun g k => ⟨fun h => h, fun φ hφ => ?_⟩⟩
    rw [hφ]
    simp
  | cons im r ih =>
    simp only [addCounters] at h
    cases hd : addCounterDets nstack i im.counters st with
    | none => simp [hd] at h
    | some st1 =>
      rw [hd] at h
      simp only at h
      obtain ⟨a1, a2⟩ := addCounterDets_spec hst (hl im (by simp)) hn hd
      obtain ⟨b1, b2⟩ := ih a1 (fun x hx => hl x (by simp [hx])) (by omega) h
      refine ⟨b1, fun g k => ⟨fun h0 => ?_, fun φ hφ => ?_⟩⟩
      · refine (b2 g k).1 ?_
        rw [a2, if_neg (by omega), h0]
        cases ctrFile im.counters g k <;> rfl
      · have e : get2 st1 g k = some ((List.range nstack).map fun j => if j = i then (ctrFile im.counters g k).elim (φ j) ctrSlice else φ j) := by
          have hi0 : ¬ (i = 0 ∧ some g ∈ im.counters.map (fun dv => grpOf (.str dv.1))) := fun h => by omega
          rw [a2, if_neg hi0, hφ]
          cases ctrFile im.counters g k with
          | none => simp
          | some f => simp only [Option.map_some, set_range]; rfl
        rw [(b2 g k).2 _ e]
        congr 1
        apply List.map_congr_left
        intro j _
        by_cases h1 : i + 1 ≤ j
        · have h2 : i ≤ j := by omega
          have h3 : j - i = (j - (i + 1)) + 1 := by omega
          have h4 : j ≠ i := by omega
          simp only [h1, h2, if_true, h3, List.getElem?_cons_succ, h4, if_false]
        · by_cases h2 : j = i
          · subst h2
            simp
          · have h3 : ¬ i ≤ j := by omega
            simp [h1, h2, h3]

/-- Every counter of the first image has one slice per image, that of its file in that image (none when
the image has no such counter); there are no others. -/
theorem counters_spec (images : List Image) (im0 : Image) (r : List Image) (st : Stacks) (himg : images = im0 :: r) (hl : ∀ im ∈ images, CtrWF im.counters)
    (h : addCounters images.length 0 images [] = some st) :
    StWF st ∧ ∀ g k, get2 st g k = (ctrFile im0.counters g k).map fun _ => images.map fun im => (ctrFile im.counters g k).elim .none ctrSlice := by
  subst himg
  simp only [addCounters] at h
  cases hd : addCounterDets (im0 :: r).length 0 im0.counters [] with
  | none => rw [hd] at h; simp at h
  | some st1 =>
    rw [hd] at h
    simp only at h
    have hnil : StWF ([] : Stacks) := ⟨by simp [Dict.WF, Dict.keys], by simp [Dict.get?]⟩
    obtain ⟨a1, a2⟩ := addCounterDets_spec hnil (hl im0 (by simp)) (by simp) hd
    obtain ⟨b1, b2⟩ := addCounters_later a1 (fun x hx => hl x (by simp [hx])) (by simp) (by omega) h
    refine ⟨b1, fun g k => ?_⟩
    have e0 : get2 ([] : Stacks) g k = none := rfl
    have e : get2 st1 g k = (ctrFile im0.counters g k).map fun f => (List.range (im0 :: r).length).map fun j => if j = 0 then ctrSlice f else .none := by
      rw [a2]
      split
      · rfl
      · next hn =>
        have : ctrFile im0.counters g k = none := ctrFile_none k (fun hm => hn ⟨rfl, hm⟩)
        simp [this, e0]
    cases hf : ctrFile im0.counters g k with
    | none =>
      rw [hf] at e
      exact (b2 g k).1 e
    | some f =>
      rw [hf, Option.map_some] at e
      rw [(b2 g k).2 _ e, Option.map_some]
      congr 1
      apply List.ext_getElem
      · simp
      · intro j h1 h2
        simp only [List.getElem_map, List.getElem_range]
        cases j with
        | zero => simp [hf]
        | succ j =>
          have hj : j < r.length := by simpa using h2
          simp [hj]

/-- Two images with the same counters. -/
def ims : List Image :=
  [⟨(1, 2), [([], [(['i', '0'], ['a'])]), (['0', '0'], [(['x', 'm'], ['b'])])]⟩, ⟨(1, 2), [([], [(['i', '0'], ['c'])]), (['0', '0'], [(['x', 'm'], ['d'])])]⟩]

/-- The same without the last counter. -/
def imsMissing : List Image :=
  [⟨(1, 2), [([], [(['i', '0'], ['a'])]), (['0', '0'], [(['x', 'm'], ['b'])])]⟩, ⟨(1, 2), [([], [(['i', '0'], ['c'])])]⟩]

example : ∃ st, addCounters 2 0 ims [] = some st ∧ (get2 st (detG 0) ['x', 'm']).map List.length = some 2 := ⟨_, rfl, by decide +kernel⟩

/-- When an image lacks a counter of the first image the task goes on, but there is nothing to save for
it; a counter that the first image lacks is an error at once. -/
theorem missing_counter : (∃ st, addCounters 2 0 imsMissing [] = some st ∧ get2 st (detG 0) ['x', 'm'] = some [ctrSlice ['b'], .none]) ∧
    addCounters 2 0 imsMissing.reverse [] = none := ⟨⟨_, rfl, rfl⟩, rfl⟩

/-- A counter image of the shape of the last image is unchanged; all others, also those of the shape of
their own image, are cut or filled with zeros. -/
theorem counter_shape (w : World) (i : Nat) (f : Str) (x : Img) (hx : w.files f = some x) :
    ∃ z, value w i (ctrSlice f) = some z ∧ z.rows = w.shape.1 ∧ z.cols = w.shape.2 ∧
      ∀ a b, a < z.rows → b < z.cols → z.px a b = if a < x.rows ∧ b < x.cols then x.px a b else some 0 := by
  refine ⟨fitShape w.shape.1 w.shape.2 x, ?_, ?_⟩
  · simp [value, ctrSlice, eval, evalList, hx, apply, Val.img?]
  · unfold fitShape
    split
    · next h =>
      refine ⟨h.1, h.2, fun a b ha hb => ?_⟩
      simp [ha, hb]
    · refine ⟨rfl, rfl, fun a b ha hb => ?_⟩
      simp only at ha hb
      simp [ha, hb]

/-- With images of different shapes the last one decides on all. -/
theorem counter_shape_last : lastShape [⟨(3, 2), []⟩, ⟨(1, 2), []⟩] = (1, 2) ∧
    (value ⟨fun _ => some ⟨3, 2, fun a _ => some a⟩, fun _ _ => none, fun _ _ => none, fun _ => none, (1, 2), []⟩ 0 (ctrSlice ['a'])).map Img.list = some [[some 0, some 0]] := by
  constructor <;> decide +kernel

/-! ## fits -/

theorem addFitDets_spec {C : Type} {fit : Nat → Grp → C → Option (List (Str × Str))} {nstack i : Nat} {dets : List (Grp × C)} {st st' : Stacks}
    (hst : StWF st) (hd : (dets.map Prod.fst).Nodup) (hfit : ∀ i g c fs, fit i g c = some fs → (fs.map Prod.fst).Nodup)
    (h : addFitDets fit nstack i dets st = some st') :
    StWF st' ∧ (∀ g, g ∉ dets.map Prod.fst → ∀ k, get2 st' g k = get2 st g k) ∧
    ∀ gc ∈ dets, ∃ fs, fit i gc.1 gc.2 = some fs ∧ (∀ kf ∈ fs, i ≠ 0 → (get2 st gc.1 kf.1).isSome) ∧ ∀ k, get2 st' gc.1 k = match Dict.get? (fs : Dict Str Str) k with
      | none => get2 st gc.1 k
      | some f => if i = 0 then some ((List.range nstack).map fun j => if j = 0 then fileSlice f else .none) else (get2 st gc.1 k).map fun s => s.set i (fileSlice f) := by
  induction dets generalizing st with
  | nil =>
    simp only [addFitDets, Option.some.injEq] at h
    subst h
    exact ⟨hst, fun _ _ _ => rfl, by simp⟩
  | cons gc r ih =>
    obtain ⟨g0, c0⟩ := gc
    simp only [List.map_cons, List.nodup_cons] at hd
    simp only [addFitDets] at h
    cases hf : fit i g0 c0 with
    | none => simp [hf] at h
    | some fs =>
      rw [hf] at h
      simp only at h
      rw [addFitFiles_eq] at h
      generalize hst1 : (if i = 0 then newLabels nstack st g0 (fs.map Prod.fst) else st) = st1 at h
      have hw1 : StWF st1 := by
        rw [← hst1]
        split
        · refine ⟨Dict.wf_set _ hst.1 _ _, fun g d hd => ?_⟩
          unfold newLabels at hd
          rw [Dict.get?_set] at hd
          split at hd
          · simp only [Option.some.injEq] at hd
            subst hd
            refine Dict.wf_update _ ?_ _
            cases hg : Dict.get? st g0 with
            | none => simp [Dict.WF, Dict.keys]
            | some d => exact hst.2 _ _ hg
          · exact hst.2 _ _ hd
        · exact hst
      have hg1 : ∀ g k, get2 st1 g k = if i = 0 ∧ g = g0 ∧ k ∈ fs.map Prod.fst then some (List.replicate nstack Arg.none) else get2 st g k := by
        intro g k
        rw [← hst1]
        by_cases hi : i = 0
        · simp only [hi, if_true, true_and, get2, newLabels, Dict.get?_set]
          by_cases hgg : g0 = g
          · subst hgg
            simp only [if_true, Option.bind_some, true_and]
            rw [get?_update_const]
            have hmem : k ∈ SC.Common.stableSort id (fs.map Prod.fst) ↔ k ∈ fs.map Prod.fst := (SC.Common.stableSort_perm id _).mem_iff
            by_cases hk : k ∈ fs.map Prod.fst
            · rw [if_pos (hmem.mpr hk), if_pos hk]
            · rw [if_neg (fun h => hk (hmem.mp h)), if_neg hk]
              cases Dict.get? st g0 <;> rfl
          · simp [hgg, Ne.symm hgg]
        · simp [hi]
      cases hp : putFiles (fun f => .slice .readedf true [.file f]) g0 i fs st1 with
      | none => simp [hp] at h
      | some st2 =>
        rw [hp] at h
        simp only at h
        obtain ⟨p1, p2, p3⟩ := putFiles_spec hw1 (hfit _ _ _ _ hf) hp
        obtain ⟨i1, i2, i3⟩ := ih p1 hd.2 h
        have hother : ∀ g, g ≠ g0 → ∀ k, get2 st2 g k = get2 st g k := by
          intro g hg k
          rw [p3, if_neg hg, hg1, if_neg (fun h => hg h.2.1)]
        refine ⟨i1, ?_, ?_⟩
        · intro g hg k
          simp only [List.map_cons, List.mem_cons, not_or] at hg
          rw [i2 g hg.2, hother g hg.1]
        · intro gc hgc
          rcases List.mem_cons.mp hgc with rfl | hgc
          · refine ⟨fs, hf, ?_, ?_⟩
            · intro kf hkf hi
              obtain ⟨s, hs, -⟩ := p2 kf hkf
              rw [hg1, if_neg (fun h => hi h.1)] at hs
              simp [hs]
            · intro k
              simp only
              rw [i2 g0 hd.1, p3, if_pos rfl, hg1]
              cases hk : Dict.get? (fs : Dict Str Str) k with
              | none =>
                have : k ∉ fs.map Prod.fst := (Dict.get?_none (fs : Dict Str Str) k).mp hk
                simp only
                rw [if_neg (fun h => this h.2.2)]
              | some f =>
                have : k ∈ fs.map Prod.fst := (Dict.get?_isSome (fs : Dict Str Str) k).mp (by simp [hk])
                simp only
                by_cases hi : i = 0
                · rw [if_pos ⟨hi, trivial, this⟩, if_pos hi, Option.map_some]
                  have e : List.replicate nstack Arg.none = (List.range nstack).map fun _ => Arg.none := by
                    apply List.ext_getElem <;> simp
                  rw [e, hi, set_range]
                  rfl
                · rw [if_neg (fun h => hi h.1), if_neg hi]
                  rfl
          · obtain ⟨fs', h1, h2, h3⟩ := i3 gc hgc
            have hne : gc.1 ≠ g0 := fun e => hd.1 (List.mem_map.mpr ⟨gc, hgc, e⟩)
            refine ⟨fs', h1, fun kf hkf hi => ?_, fun k => ?_⟩
            · rw [← hother _ hne]; exact h2 kf hkf hi
            · rw [h3 k, hother _ hne]

/-- The label of a fit result, its file or nothing. -/
def fitSlice {C : Type} (fit : Nat → Grp → C → Option (List (Str × Str))) (g : Grp) (c : C) (k : Str) (j : Nat) : Arg :=
  ((fit j g c).bind fun fs => Dict.get? (fs : Dict Str Str) k).elim .none fileSlice

theorem addFitImages_later {C : Type} {fit : Nat → Grp → C → Option (List (Str × Str))} {nstack : Nat} {dets : List (Grp × C)} {st st' : Stacks}
    (hst : StWF st) (hd : (dets.map Prod.fst).Nodup) (hfit : ∀ i g c fs, fit i g c = some fs → (fs.map Prod.fst).Nodup) (n i : Nat) (hi : 0 < i)
    (h : addFitImages fit nstack dets (List.range' i n) st = some st') :
    StWF st' ∧ (∀ g, g ∉ dets.map Prod.fst → ∀ k, get2 st' g k = get2 st g k) ∧
    ∀ gc ∈ dets, ∀ k, (get2 st gc.1 k = none → get2 st' gc.1 k = none) ∧ ∀ φ, get2 st gc.1 k = some ((List.range nstack).map φ) →
      get2 st' gc.1 k = some ((List.range nstack).map fun j => if i ≤ j ∧ j < i + n then ((fit j gc.1 gc.2).bind fun fs => Dict.get? (fs : Dict Str Str) k).elim (φ j) fileSlice else φ j) := by
  induction n generalizing i st with
  | zero =>
    simp only [List.range'_zero, addFitImages, Option.some.injEq] at h
    subst h
    refine ⟨hst, fun _ _ _ => rfl, fun gc _ k => ⟨fun h => h, fun φ hφ => ?_⟩⟩
    rw [hφ]
    congr 1
    apply List.map_congr_left
    intro j _
    rw [if_neg (by omega)]
  | succ n ih =>
    rw [List.range'_succ] at h
    simp only [addFitImages] at h
    cases hs : addFitDets fit nstack i dets st with
    | none => simp [hs] at h
    | some st1 =>
      rw [hs] at h
      simp only at h
      obtain ⟨a1, a2, a3⟩ := addFitDets_spec hst hd hfit hs
      obtain ⟨b1, b2, b3⟩ := ih a1 (i + 1) (by omega) h
      refine ⟨b1, fun g hg k => by rw [b2 g hg, a2 g hg], fun gc hgc k => ?_⟩
      obtain ⟨fs, c1, c2, c3⟩ := a3 gc hgc
      have hi0 : i ≠ 0 := by omega
      refine ⟨fun h0 => ?_, fun φ hφ => ?_⟩
      · refine (b3 gc hgc k).1 ?_
        rw [c3 k, h0]
        cases Dict.get? (fs : Dict Str Str) k with
        | none => rfl
        | some f => simp [hi0]
      · have e : get2 st1 gc.1 k = some ((List.range nstack).map fun j => if j = i then (Dict.get? (fs : Dict Str Str) k).elim (φ j) fileSlice else φ j) := by
          rw [c3 k, hφ]
          cases Dict.get? (fs : Dict Str Str) k with
          | none => simp
          | some f => simp only [hi0, if_false, Option.map_some, set_range]; rfl
        rw [(b3 gc hgc k).2 _ e]
        congr 1
        apply List.map_congr_left
        intro j _
        by_cases h1 : i + 1 ≤ j ∧ j < i + 1 + n
        · have h2 : i ≤ j ∧ j < i + (n + 1) := by omega
          have h3 : j ≠ i := by omega
          simp only [h1, h2, h3, and_self, if_true, if_false]
        · by_cases h2 : j = i
          · subst h2
            have h4 : j ≤ j ∧ j < j + (n + 1) := by omega
            simp only [h1, if_false, if_true, h4, and_self, c1, Option.bind_some]
          · have h3 : ¬ (i ≤ j ∧ j < i + (n + 1)) := by omega
            simp only [h1, h2, h3, if_false]

/-- Which configuration belongs to which detector: one for all, or one for each, in order. -/
theorem pairConfigs_spec {C : Type} (tofit : List Grp) (cfgs : List C) :
    (∀ c, cfgs = [c] → ∃ l, pairConfigs tofit cfgs = some l ∧ l.map Prod.fst = tofit ∧ ∀ gc ∈ l, gc.2 = c) ∧
    (cfgs.length ≠ 1 → cfgs.length ≠ tofit.length → pairConfigs tofit cfgs = none) ∧
    (cfgs.length = tofit.length → ∃ l, pairConfigs tofit cfgs = some l ∧ l.map Prod.fst = tofit ∧ l.map Prod.snd = cfgs) := by
  refine ⟨?_, ?_, ?_⟩
  · rintro c rfl
    exact ⟨_, rfl, by simp [Function.comp_def], by simp⟩
  · intro h1 h2
    cases cfgs with
    | nil => simp only [pairConfigs]; rw [if_pos h2]
    | cons c r =>
      cases r with
      | nil => simp at h1
      | cons d r => simp only [pairConfigs]; rw [if_pos h2]
  · intro h
    cases cfgs with
    | nil =>
      have : tofit = [] := by simpa using h.symm
      subst this
      exact ⟨[], rfl, rfl, rfl⟩
    | cons c r =>
      cases r with
      | nil =>
        obtain ⟨g, rfl⟩ : ∃ g, tofit = [g] := List.length_eq_one_iff.mp h.symm
        exact ⟨[(g, c)], rfl, rfl, rfl⟩
      | cons d r =>
        refine ⟨tofit.zip (c :: d :: r), ?_, ?_, ?_⟩
        · simp only [pairConfigs]
          rw [if_neg (by simpa using h)]
        · exact List.map_fst_zip (by omega)
        · exact List.map_snd_zip (by omega)

example : pairConfigs [detG 0, detG 1] ['a'] = some [(detG 0, 'a'), (detG 1, 'a')] ∧ pairConfigs [detG 0, detG 1] ['a', 'b'] = some [(detG 0, 'a'), (detG 1, 'b')] ∧
    pairConfigs [detG 0, detG 1] ['a', 'b', 'c'] = none := by decide +kernel

/-- The fits of every detector with its own configuration: every label of the first image has the result
of each image, in order; data sets of other groups and other names stay. -/
theorem fits_spec {C : Type} (fit : Nat → Grp → C → Option (List (Str × Str))) (nstack : Nat) (tofit : List Grp) (cfgs : List C) (dets : List (Grp × C)) (st st' : Stacks)
    (hn : 0 < nstack) (hne : cfgs ≠ []) (hst : StWF st) (ht : tofit.Nodup) (hfit : ∀ i g c fs, fit i g c = some fs → (fs.map Prod.fst).Nodup)
    (hp : pairConfigs tofit cfgs = some dets)
    (hfst : dets.map Prod.fst = tofit)
    (h : addFits fit nstack tofit cfgs st = some st') :
    StWF st' ∧ (∀ g, g ∉ tofit → ∀ k, get2 st' g k = get2 st g k) ∧
    ∀ gc ∈ dets, ∃ fs, fit 0 gc.1 gc.2 = some fs ∧ ∀ k,
      (k ∈ fs.map Prod.fst → get2 st' gc.1 k = some ((List.range nstack).map (fitSlice fit gc.1 gc.2 k))) ∧
      (k ∉ fs.map Prod.fst → get2 st gc.1 k = none → get2 st' gc.1 k = none) := by
  unfold addFits at h
  have hemp : cfgs.isEmpty = false := by simpa using hne
  rw [hemp] at h
  simp only [Bool.false_eq_true, if_false, hp] at h
  obtain ⟨n, rfl⟩ : ∃ n, nstack = n + 1 := ⟨nstack - 1, by omega⟩
  rw [List.range_eq_range', List.range'_succ] at h
  simp only [addFitImages] at h
  cases hs : addFitDets fit (n + 1) 0 dets st with
  | none => simp [hs] at h
  | some st1 =>
    rw [hs] at h
    simp only at h
    obtain ⟨a1, a2, a3⟩ := addFitDets_spec hst (by rw [hfst]; exact ht) hfit hs
    obtain ⟨b1, b2, b3⟩ := addFitImages_later a1 (by rw [hfst]; exact ht) hfit n (0 + 1) (by omega) h
    rw [hfst] at a2 b2
    refine ⟨b1, fun g hg k => by rw [b2 g hg, a2 g hg], fun gc hgc => ?_⟩
    obtain ⟨fs, c1, c2, c3⟩ := a3 gc hgc
    refine ⟨fs, c1, fun k => ⟨fun hk => ?_, fun hk h0 => ?_⟩⟩
    · obtain ⟨f, hf⟩ := Option.isSome_iff_exists.mp ((Dict.get?_isSome (fs : Dict Str Str) k).mpr hk)
      have e := c3 k
      rw [hf] at e
      simp only [if_true] at e
      rw [(b3 gc hgc k).2 _ e]
      congr 1
      apply List.map_congr_left
      intro j hj
      rw [List.mem_range] at hj
      unfold fitSlice
      cases j with
      | zero => simp [c1, hf]
      | succ j =>
        have h1 : 0 + 1 ≤ j + 1 ∧ j + 1 < 0 + 1 + n := by omega
        simp only [h1, and_self, if_true]
        cases ((fit (j + 1) gc.1 gc.2).bind fun fs => Dict.get? (fs : Dict Str Str) k) with
        | none => simp
        | some f => rfl
    · refine (b3 gc hgc k).1 ?_
      have e := c3 k
      rw [(Dict.get?_none (fs : Dict Str Str) k).mpr hk] at e
      rw [e, h0]

/-- Two fits with different labels in the second image. -/
def fit0 (i : Nat) (g : Grp) (c : Char) : Option (List (Str × Str)) :=
  if i = 0 then some [(['F', 'e'], [c, '0']), (['C', 'a'], [c, '1'])] else if g = detG 0 then some [(['F', 'e'], [c, '2']), (['C', 'a'], [c, '3'])] else none

example : ∃ st, addFits fit0 2 [detG 0] ['a'] [] = some st ∧ get2 st (detG 0) ['C', 'a'] = some [fileSlice ['a', '1'], fileSlice ['a', '3']] ∧
    (labels st (detG 0)) = [['C', 'a'], ['F', 'e']] := ⟨_, rfl, rfl, by decide +kernel⟩

/-! ## corrections -/

theorem get?_map {K V W : Type} [DecidableEq K] (d : Dict K V) (f : K → V → W) (x : K) :
    Dict.get? (d.map fun kv => (kv.1, f kv.1 kv.2) : Dict K W) x = (Dict.get? d x).map (f x) := by
  induction d with
  | nil => rfl
  | cons p d ih =>
    obtain ⟨k, v⟩ := p
    simp only [List.map_cons, Dict.get?]
    split
    · next e => subst e; rfl
    · exact ih

theorem applyPost_wf (refs : List Px) (fluxnorm dtcor : Bool) (ctrs : List Str) {st : Stacks} (hst : StWF st) : StWF (applyPost refs fluxnorm dtcor ctrs st) := by
  have hk : Dict.keys (applyPost refs fluxnorm dtcor ctrs st) = Dict.keys st := by
    unfold applyPost Dict.keys
    rw [List.map_map]
    apply List.map_congr_left
    rintro ⟨g, d⟩ -
    simp only [Function.comp]
    split <;> rfl
  have hw : Dict.WF (applyPost refs fluxnorm dtcor ctrs st) := by
    unfold Dict.WF
    rw [hk]
    exact hst.1
  refine ⟨hw, fun g d hd => ?_⟩
  have hm := Dict.get?_mem hd
  unfold applyPost at hm
  obtain ⟨⟨g', d'⟩, h1, h2⟩ := List.mem_map.mp hm
  have hd' := hst.2 g' d' (Dict.get?_of_mem hst.1 h1)
  simp only at h2
  split at h2
  · simp only [Prod.mk.injEq] at h2
    rw [← h2.2]
    unfold Dict.WF Dict.keys
    rw [List.map_map]
    have : (d'.map (Prod.fst ∘ fun kl => if kl.1 ∈ ctrs then kl else (kl.1, kl.2.mapIdx fun i a => postSlice refs fluxnorm dtcor g' i a))) = d'.map Prod.fst := by
      apply List.map_congr_left
      rintro ⟨k, l⟩ -
      simp only [Function.comp]
      split <;> rfl
    rw [← show Dict.keys d' = d'.map Prod.fst from rfl] at this
    first
      | (rw [this]; exact hd')
      | (convert hd' using 1)
  · simp only [Prod.mk.injEq] at h2
    rw [← h2.2]
    exact hd'

/-- The corrections after the fit: every result of a detector, and nothing else, gets them for its own
image and detector; dead time only for single detectors. -/
theorem applyPost_spec (refs : List Px) (fluxnorm dtcor : Bool) (ctrs : List Str) (st : Stacks) (g : Grp) (k : Str) :
    get2 (applyPost refs fluxnorm dtcor ctrs st) g k =
      if 0 ≤ g.category ∧ k ∉ ctrs then (get2 st g k).map fun l => l.mapIdx fun i a => .slice .xrfnorm true
        [a, if fluxnorm then .dset countersName flux0Name else .none, if fluxnorm then .ref (refs.getD i none) else .none,
          if dtcor = true ∧ g.category ≠ 1 then .xia i else .none, if dtcor = true ∧ g.category ≠ 1 then .num g.number else .none]
      else get2 st g k := by
  have e1 : applyPost refs fluxnorm dtcor ctrs st = (st.map fun gd => (gd.1, (fun (g : Grp) (d : Dict Str (List Arg)) =>
      if 0 ≤ g.category then (d.map fun kl => (kl.1, (fun (k : Str) (l : List Arg) => if k ∈ ctrs then l else l.mapIdx fun i a => postSlice refs fluxnorm dtcor g i a) kl.1 kl.2)) else d) gd.1 gd.2)) := by
    unfold applyPost
    apply List.map_congr_left
    rintro ⟨g, d⟩ -
    simp only
    split
    · congr 1
      apply List.map_congr_left
      rintro ⟨k, l⟩ -
      simp only
      split <;> rfl
    · rfl
  unfold get2
  rw [e1, get?_map st (fun (g : Grp) (d : Dict Str (List Arg)) =>
      if 0 ≤ g.category then (d.map fun kl => (kl.1, (fun (k : Str) (l : List Arg) => if k ∈ ctrs then l else l.mapIdx fun i a => postSlice refs fluxnorm dtcor g i a) kl.1 kl.2)) else d)]
  cases Dict.get? st g with
  | none => simp
  | some d =>
    simp only [Option.map_some, Option.bind_some]
    by_cases hg : 0 ≤ g.category
    · simp only [hg, if_true, true_and]
      rw [get?_map d (fun (k : Str) (l : List Arg) => if k ∈ ctrs then l else l.mapIdx fun i a => postSlice refs fluxnorm dtcor g i a)]
      by_cases hk : k ∈ ctrs
      · simp [hk]
      · simp only [hk, if_false, not_false_eq_true, if_true]
        congr 1
        funext l
        congr 1
        funext i a
        unfold postSlice
        cases fluxnorm <;> cases dtcor <;> by_cases h1 : g.category = 1 <;> simp [h1]
    · simp [hg]

example : ∃ l, get2 (applyPost [some 3] true true [['x', 'm']] st0) (detG 0) ['F', 'e'] = some [.slice .xrfnorm true [fileSlice ['a'], .dset countersName flux0Name, .ref (some 3), .xia 0, .num 0]] ∧
    get2 (applyPost [some 3] true true [['x', 'm']] st0) (detG 0) ['x', 'm'] = some [fileSlice ['a']] ∧
    get2 (applyPost [some 3] true true [['x', 'm']] st0) (sumDet 1) ['F', 'e'] = some [.slice .xrfnorm true [fileSlice ['b'], .dset countersName flux0Name, .ref l, .none, .none]] := ⟨_, rfl, rfl, rfl⟩

end SC.XrfTask
