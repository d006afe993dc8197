import Verif.XasPipe.Cases
/-! # Further properties of the XAS pipelines -/
namespace SC.XasPipe
open SC.Py

/-- Spectra after the first one with an empty label of exposure times: all scans have their I0 counts as exposure times. -/
theorem sync_label_later (x : Ext) (p : Params) (rois : Option Rois) (cfg : Str) (s0 : Scan) (r : List Scan) (sss : List (List Scan))
    (d0 : Dict Str (List Col)) (ds : List (Dict Str (List Col)))
    (h : processSync x p rois .empty cfg ((s0 :: r) :: sss) = .ok (d0 :: ds)) :
    (∃ c, spectrum x p rois c ((s0, fun _ => s0.realtime) :: r.map fun s => (s, s.iodet)) = .ok d0) ∧
    ∀ (i : Nat) (ss : List Scan) (d : Dict Str (List Col)), sss[i]? = some ss → ds[i]? = some d →
      ∃ c, spectrum x p rois c (ss.map fun s => (s, s.iodet)) = .ok d := by
  have later : ∀ (sss : List (List Scan)) (cfg : Str) (ds : List (Dict Str (List Col))), processSync x p rois .iodet cfg sss = .ok ds →
      ∀ (i : Nat) (ss : List Scan) (d : Dict Str (List Col)), sss[i]? = some ss → ds[i]? = some d →
      ∃ c, spectrum x p rois c (ss.map fun s => (s, s.iodet)) = .ok d := by
    intro sss
    induction sss with
    | nil => intro cfg ds _ i ss d h; simp at h
    | cons s r ih =>
      intro cfg ds h i ss d hi hd
      simp only [processSync, withTimes_iodet] at h
      split at h
      · cases h
      · next d0 h0 =>
        split at h
        · cases h
        · next l hl =>
          cases h
          cases i with
          | zero => simp only [List.getElem?_cons_zero, Option.some.injEq] at hi hd; subst hi hd; exact ⟨cfg, h0⟩
          | succ i => exact ih _ _ hl i ss d (by simpa using hi) (by simpa using hd)
  simp only [processSync, sync_empty_label] at h
  split at h
  · cases h
  · next d1 h1 =>
    split at h
    · cases h
    · next l hl =>
      cases h
      exact ⟨⟨cfg, h1⟩, later _ _ _ hl⟩

/-- Several spectra fail as soon as one of them has repeats that are not synchronised. -/
theorem sync_required_all (x : Ext) (p : Params) (rois : Option Rois) (cfg : Str) (sss : List (List Scan)) (s0 : Scan) (r : List Scan)
    (hb : NoBackground p) (hs : s0 :: r ∈ sss) (hn : ∃ s ∈ r, ¬ InSync s0 s) (ds : List (Dict Str (List Col))) : processSync x p rois .own cfg sss ≠ .ok ds := by
  intro h
  obtain ⟨hl, he⟩ := sync_each x p rois cfg sss ds h
  obtain ⟨i, hi⟩ := List.mem_iff_getElem?.1 hs
  have hlt : i < ds.length := by rw [hl]; exact (List.getElem?_eq_some_iff.1 hi).1
  obtain ⟨c, hc⟩ := he i _ ds[i] hi (List.getElem?_eq_getElem hlt)
  rw [sync_required x p rois c s0 r hb hn] at hc
  cases hc

/-- The configuration (or the regions) of a detector: the only one, or the one at the place of the detector. -/
theorem pick_one {α : Type} (a : α) (k : Nat) : pick [a] k = .ok a := rfl
theorem pick_many {α : Type} (l : List α) (k : Nat) (a : α) (hl : l.length ≠ 1) (h : l[k]? = some a) : pick l k = .ok a := by
  simp [pick, hl, h]
theorem pick_fails {α : Type} (l : List α) (k : Nat) (hl : l.length ≠ 1) (h : l.length ≤ k) : pick l k = .error .indexError := by
  simp [pick, hl, List.getElem?_eq_none h]

theorem addDets_add (f : Nat → List Str → Except Err (Dict Str Col)) (n : Nat) (R : Nat → Dict Str Col) (fs : List (List Str)) (k : Nat)
    (hf : ∀ (i : Nat) (g : List Str), fs[i]? = some g → g ≠ [] ∧ f (k + i) g = .ok (R (k + i)) ∧ Dict.WF (R (k + i)))
    (acc d : Dict Str Col) (h : addDets f n k fs acc = .ok d) (key : Str) (c : Col) (hk : Dict.get? acc key = some c) :
    ∃ col, Dict.get? d key = some col ∧ ∀ e, col e = c e +
      ((List.range fs.length).map fun i => ((Dict.get? (R (k + i)) key).map fun v => v e).getD 0).sum := by
  induction fs generalizing k acc c with
  | nil => simp only [addDets] at h; cases h; exact ⟨c, hk, fun e => by simp⟩
  | cons g r ih =>
    obtain ⟨h1, h2, h3⟩ := hf 0 g rfl
    have hg : g.isEmpty = false := by simpa using h1
    have hne : acc.isEmpty = false := by cases acc with
      | nil => cases hk
      | cons a b => rfl
    rw [Nat.add_zero] at h2 h3
    simp only [addDets, hg, Bool.false_eq_true, if_false, h2, hne] at h
    split at h
    · cases h
    · split at h
      · cases h
      · next a ha =>
        obtain ⟨col, e1, e2⟩ := addGroups_get id _ h3 _ _ ha key c hk
        obtain ⟨col', e3, e4⟩ := ih (k + 1) (fun i g hi => by
          have := hf (i + 1) g (by simpa using hi)
          rwa [show k + (i + 1) = k + 1 + i by omega] at this) a h col e1
        refine ⟨col', e3, fun e => ?_⟩
        rw [e4 e, e2 e, List.length_cons, List.range_succ_eq_map, List.map_cons, List.sum_cons, List.map_map, add_assoc]
        simp only [Function.comp_def, Nat.add_zero, id]
        congr 3
        apply List.map_congr_left
        intro i _
        rw [show k + 1 + i = k + (i + 1) by omega]

/-- The results of all detectors of a repeat are added. -/
theorem nosync_detectors (x : FileExt) (p : Params) (rep : List Str) (cfgs : List Str) (rois : Option (List Rois)) (s : Scan × Col)
    (fs : List (List Str)) (dets : List Nat) (R : Nat → Dict Str Col)
    (hf : ∀ (i : Nat) (g : List Str), fs[i]? = some g → g ≠ [] ∧
      detResult x cfgs rois (normNoSync x.median p s) (energies p s.1) i g = .ok (R i) ∧ Dict.WF (R i))
    (d : Dict Str Col) (h : repeatNoSync x p (some rep) cfgs rois s (.ok (fs, dets)) = .ok d) (key : Str) (c : Col) (hfs : fs ≠ [])
    (hk : Dict.get? (R 0) key = some c) :
    ∃ col, Dict.get? d key = some col ∧ ∀ e, col e =
      ((List.range fs.length).map fun i => ((Dict.get? (R i) key).map fun v => v e).getD 0).sum := by
  cases fs with
  | nil => exact absurd rfl hfs
  | cons g r =>
    obtain ⟨h1, h2, h3⟩ := hf 0 g rfl
    have hg : g.isEmpty = false := by simpa using h1
    simp only [repeatNoSync, addDets, hg, Bool.false_eq_true, if_false, h2, List.isEmpty_nil, if_true] at h
    split at h
    · cases h
    split at h
    · cases h
    · next d' hd' =>
      split at hd'
      · cases hd'
      · split at h
        · cases h
          obtain ⟨col, e1, e2⟩ := addDets_add _ _ R r 1 (fun i g hi => by
            have := hf (i + 1) g (by simpa using hi)
            rwa [Nat.add_comm i 1] at this) _ _ hd' key c hk
          refine ⟨col, e1, fun e => ?_⟩
          rw [e2 e, List.length_cons, List.range_succ_eq_map, List.map_cons, List.sum_cons, List.map_map, hk]
          simp only [Function.comp_def, Option.map_some, Option.getD_some]
          congr 2
          apply List.map_congr_left
          intro i _
          rw [Nat.add_comm 1 i]
        · cases h

/-! Concrete cases. -/
example (d : Dict Str Col) (h : repeatNoSync (exFile 7) { exParams with counters := [] } (some []) [['c'], ['d']] none (exScan 10, fun _ => 1)
    (.ok ([[['f']], [['g']]], [0, 1])) = .ok d) : ∃ col, Dict.get? d ['F'] = some col ∧ col 0 = 14 := by
  obtain ⟨col, h1, h2⟩ := nosync_detectors (exFile 7) _ _ _ none _ _ _ (fun _ => [(['F'], fun _ => 7)])
    (fun i g hi => by
      match i, hi with
      | 0, hi => simp at hi; subst hi; exact ⟨by simp, rfl, by simp [Dict.WF, Dict.keys]⟩
      | 1, hi => simp at hi; subst hi; exact ⟨by simp, rfl, by simp [Dict.WF, Dict.keys]⟩
      | n + 2, hi => simp at hi) d h ['F'] (fun _ => 7) (by simp) rfl
  exact ⟨col, h1, by rw [h2]; norm_num [Dict.get?, List.range_succ]⟩

example : ∃ d, repeatNoSync (exFile 7) { exParams with counters := [] } (some []) [['c'], ['d']] none (exScan 10, fun _ => 1)
    (.ok ([[['f']], [['g']]], [0, 1])) = .ok d := ⟨_, rfl⟩

example (ds : List (Dict Str (List Col))) : processSync exExt exParams none .own [] [[exScan 1], [exScan 10, { exScan 20 with n := 3 }]] ≠ .ok ds :=
  sync_required_all exExt exParams none [] _ (exScan 10) [{ exScan 20 with n := 3 }] exNo (by simp)
    ⟨{ exScan 20 with n := 3 }, List.mem_cons_self, fun h => absurd h.1 (by decide)⟩ ds

example : pick [1, 2, 3] 2 = .ok 3 := pick_many _ _ _ (by decide) rfl
example : pick [1, 2, 3] 3 = .error .indexError := pick_fails _ _ (by decide) (by decide)

end SC.XasPipe
