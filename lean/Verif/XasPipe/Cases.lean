import Verif.XasPipe.Props
import Verif.XasPipe.NoSync
/-! # When there is a result, and concrete cases -/
namespace SC.XasPipe
open SC.Py

/-- Synchronised repeats with files always give regions. -/
theorem sync_total (x : Ext) (p : Params) (rois : Rois) (cfg : Str) (m : Nat) (s0 : Scan) (r : List Scan) (rep : List Str)
    (hb : NoBackground p) (hp : p.replacebasedir = some rep) (hm : p.normmedian = false) (h0 : HasFiles m s0) (hr : ∀ s ∈ r, s.xrf = none ∨ HasFiles m s)
    (hs : ∀ s ∈ r, InSync s0 s) : ∃ d, spectrum x p (some rois) cfg ((s0 :: r).map fun s => (s, s.mtime)) = .ok d := by
  have hall : ((r.map fun s => (s, s.mtime)).all fun q : Scan × Col => synchronized p s0 q.1) = true := by
    rw [List.all_eq_true]
    intro q hq
    obtain ⟨s, h, rfl⟩ := List.mem_map.1 hq
    exact (synchronized_iff p s0 s).2 (hs s h)
  have hsum := sum_own x p m s0 r hm h0 hr
  rw [List.map_cons (f := fun s : Scan => (s, s.mtime))] at hsum
  rw [List.map_cons]
  unfold spectrum
  simp only [hall, if_true, hp, hsum, xrfResults, (unitsOk_iff p).2 hb, Bool.not_true, Bool.false_eq_true, if_false]
  exact ⟨_, rfl⟩

/-- ... and a fit that succeeds. -/
theorem sync_total_fit (x : Ext) (p : Params) (cfg : Str) (m : Nat) (s0 : Scan) (r : List Scan) (rep : List Str)
    (hb : NoBackground p) (hp : p.replacebasedir = some rep) (hm : p.normmedian = false) (h0 : HasFiles m s0) (hr : ∀ s ∈ r, s.xrf = none ∨ HasFiles m s)
    (hs : ∀ s ∈ r, InSync s0 s) (hx : ∀ c dat n e, ∃ f, x.fit c dat n e = .ok f) :
    ∃ d, spectrum x p none cfg ((s0 :: r).map fun s => (s, s.mtime)) = .ok d := by
  have hall : ((r.map fun s => (s, s.mtime)).all fun q : Scan × Col => synchronized p s0 q.1) = true := by
    rw [List.all_eq_true]
    intro q hq
    obtain ⟨s, h, rfl⟩ := List.mem_map.1 hq
    exact (synchronized_iff p s0 s).2 (hs s h)
  have hsum := sum_own x p m s0 r hm h0 hr
  rw [List.map_cons (f := fun s : Scan => (s, s.mtime))] at hsum
  rw [List.map_cons]
  unfold spectrum
  simp only [hall, if_true, hp, hsum, xrfResults, (unitsOk_iff p).2 hb, Bool.not_true, Bool.false_eq_true, if_false]
  split
  · next h =>
    split at h
    · split at h
      · next h' => obtain ⟨f, hf⟩ := hx _ _ _ _; rw [hf] at h'; cases h'
      · cases h
    · cases h
  · exact ⟨_, rfl⟩

/-! Two repeats with I0 of 10 and 20, three channels. -/
def exScan (i : Rat) : Scan :=
  ⟨2, fun e => e, fun _ => i, fun _ => 2, fun _ _ => 3 * i, 1, some ⟨3, fun _ c => c * (i * 2)⟩, true⟩
def exParams : Params := ⟨1, 1, 0, false, [⟨['o'], ['c'], 0, false⟩], some [['a'], ['b']]⟩
def exExt : Ext := ⟨fun _ => 2, fun v => v, fun _ _ _ _ => .ok [(['F'], fun _ => 7)]⟩
def exRois : Rois := [(['R'], 1, 5), (['S'], 0, 2)]

theorem exNo : NoBackground exParams := by
  refine ⟨rfl, fun c hc => ?_⟩
  simp only [exParams, List.mem_singleton] at hc
  subst hc
  rfl
theorem exHas (i : Rat) : HasFiles 3 (exScan i) := ⟨rfl, _, rfl, rfl⟩
theorem exSync (i j : Rat) : InSync (exScan i) (exScan j) := ⟨rfl, fun e _ => by simp [exScan]⟩
theorem exFree (k : Str) (h : k = ['R'] ∨ k = ['S'] ∨ k = ['F']) : Free exParams k := by
  unfold Free
  rcases h with rfl | rfl | rfl <;> refine ⟨by decide, by decide, fun c hc => ?_⟩ <;>
    (simp only [exParams, List.mem_singleton] at hc; subst hc; decide)

/-- `sync_total`, `sync_exact`: channel c counts c times I0; the region from 1 has channels 1 and 2, so 0 + 1. -/
example : ∃ d col, spectrum exExt exParams (some exRois) [] ([exScan 10, exScan 20].map fun s => (s, s.mtime)) = .ok d ∧
    Dict.get? d ['R'] = some [col] ∧ col 0 = 1 := by
  obtain ⟨d, hd⟩ := sync_total exExt exParams exRois [] 3 (exScan 10) [exScan 20] _ exNo rfl rfl (exHas _)
    (fun s hs => .inr (by simp at hs; subst hs; exact exHas _)) (fun s hs => by simp at hs; subst hs; exact exSync _ _)
  obtain ⟨col, h1, h2⟩ := sync_exact exExt exParams exRois [] 3 (exScan 10) [exScan 20] d (fun _ c => c) rfl
    (fun s hs => by simp at hs; rcases hs with rfl | rfl <;> exact exHas _)
    (fun s hs e => by simp at hs; rcases hs with rfl | rfl <;> norm_num [I0, exScan, exParams])
    (fun s hs e c => by simp at hs; rcases hs with rfl | rfl <;> simp [I0, exScan, exParams, chan])
    hd ['R'] 1 5 (by simp [exRois]) (by decide) (exFree _ (.inl rfl))
  exact ⟨d, col, hd, h1, by rw [h2]; simp [over, List.range_succ, exParams]; norm_num⟩

/-- `sync_fit` -/
example : ∃ d, spectrum exExt exParams none [] ([exScan 10, exScan 20].map fun s => (s, s.mtime)) = .ok d ∧ (Dict.get? d ['F']).isSome = true := by
  have hr : ∀ s ∈ [exScan 20], s.xrf = none ∨ HasFiles 3 s := fun s hs => .inr (by simp at hs; subst hs; exact exHas _)
  obtain ⟨d, hd⟩ := sync_total_fit exExt exParams [] 3 (exScan 10) [exScan 20] _ exNo rfl rfl (exHas _) hr
    (fun s hs => by simp at hs; subst hs; exact exSync _ _) (fun _ _ _ _ => ⟨_, rfl⟩)
  obtain ⟨c, data, f, -, -, h3, h4⟩ := sync_fit exExt exParams [] 3 (exScan 10) [exScan 20] d rfl (exHas _) hr
    (fun s hs => by simp at hs; subst hs; exact exHas _) hd
  refine ⟨d, hd, ?_⟩
  rw [h4 _ (exFree _ (.inr (.inr rfl)))]
  cases h3
  rfl

/-- `sync_fit_lost` -/
example : ∃ d, spectrum exExt exParams none [] ([exScan 10, { exScan 20 with xrf := none }].map fun s => (s, s.mtime)) = .ok d ∧
    Dict.get? d ['F'] = none := by
  obtain ⟨d, hd⟩ := sync_total_fit exExt exParams [] 3 (exScan 10) [{ exScan 20 with xrf := none }] _ exNo rfl rfl (exHas _)
    (fun s hs => .inl (by simp at hs; subst hs; rfl)) (fun s hs => by simp at hs; subst hs; exact exSync 10 20) (fun _ _ _ _ => ⟨_, rfl⟩)
  exact ⟨d, hd, sync_fit_lost exExt exParams [] _ _ d (fun s hs => by simp at hs; subst hs; rfl) hd _ (exFree _ (.inr (.inr rfl)))⟩

/-- `sync_first_missing`, `sync_required`, `sync_no_stat` -/
example : spectrum exExt exParams none [] ([{ exScan 10 with xrf := none }, exScan 20].map fun s => (s, s.mtime)) = .error .valueError :=
  sync_first_missing exExt exParams none [] { exScan 10 with xrf := none } (exScan 20) [] 3 exNo rfl (exHas _) (by decide)
    (fun s hs => by simp at hs; subst hs; exact exSync 10 20) _ rfl
example : spectrum exExt exParams none [] ([exScan 10, { exScan 20 with n := 3 }].map fun s => (s, s.mtime)) = .error .valueError :=
  sync_required exExt exParams none [] (exScan 10) [{ exScan 20 with n := 3 }] exNo ⟨{ exScan 20 with n := 3 }, List.mem_cons_self, fun h => absurd h.1 (by decide)⟩
example : spectrum exExt exParams none [] [({ exScan 10 with stat := false }, fun _ => 1)] = .error .indexError :=
  sync_no_stat exExt exParams none [] { exScan 10 with stat := false } _ exNo rfl rfl _ _ rfl

/-- `sync_counter`, `sync_energy`, `sync_norm`: the counter is three times the counts of I0 in either repeat. -/
example : ∃ d col, spectrum exExt exParams (some exRois) [] ([exScan 10, exScan 20].map fun s => (s, s.mtime)) = .ok d ∧
    Dict.get? d ['o'] = some [col] ∧ col 1 = 3 ∧ Dict.get? d kEnergy = some [fun e : Nat => (e : Rat) + 1] ∧ (Dict.get? d kNorm).map List.length = some 2 := by
  obtain ⟨d, hd⟩ := sync_total exExt exParams exRois [] 3 (exScan 10) [exScan 20] _ exNo rfl rfl (exHas _)
    (fun s hs => .inr (by simp at hs; subst hs; exact exHas _)) (fun s hs => by simp at hs; subst hs; exact exSync _ _)
  obtain ⟨col, h1, h2⟩ := sync_counter exExt exParams (some exRois) [] (exScan 10) [exScan 20] d rfl hd ⟨['o'], ['c'], 0, false⟩
    (by simp [exParams]) (by decide) (by decide) (by decide)
  refine ⟨d, col, hd, h1, ?_, sync_energy exExt exParams _ [] _ _ d (fun c hc => by simp [exParams] at hc; subst hc; decide) hd, ?_⟩
  · rw [h2]; norm_num [exScan, I0, exParams]
  · rw [sync_norm exExt exParams _ [] (exScan 10) [exScan 20] d rfl hd]; rfl

/-- `sync_empty_label`: equal scans with different exposure times. -/
example : ((withTimes .empty [exScan 10, exScan 10]).2.map fun q => q.2 0) = [1, 10] := by
  rw [sync_empty_label]; simp [exScan]

/-- `sync_replace` -/
example : replaceTimes [['/', 'd'], ['/', 'm']] 3 ['/', 'd', '/', 'c'] = ['/', 'm', '/', 'c'] :=
  sync_replace _ _ _ 2 (by decide)

def exFile (f : Rat) : FileExt := ⟨fun _ => 1, fun _ _ _ _ => .ok [(['F'], fun _ => f)], fun _ _ _ => .ok [], fun _ _ v _ => v 0⟩

/-- `nosync_one`, `nosync_mean`: the mean of two equal fits. -/
example (d : Dict Str Col) (h : spectrumNoSync (exFile 7) { exParams with counters := [], replacebasedir := some [] } none [['c']]
    [((exScan 10, (exScan 10).mtime), .ok ([[['f']]], [0])), ((exScan 20, (exScan 20).mtime), .ok ([[['g']]], [0]))] = .ok d) :
    ∃ col, Dict.get? d ['F'] = some col ∧ col 0 = 7 := by
  obtain ⟨-, col, h1, h2⟩ := nosync_mean (exFile 7) { exParams with counters := [], replacebasedir := some [] } none [['c']]
    (fun _ => [(['F'], fun _ => 7)]) rfl _ _
    (fun q hq => by
      simp only [List.mem_cons, List.not_mem_nil, or_false] at hq
      rcases hq with rfl | rfl
      · exact ⟨nosync_one (exFile 7) _ _ (exScan 10) _ _ _ rfl (by simp) (by simp) rfl rfl, by simp [Dict.WF, Dict.keys]⟩
      · exact ⟨nosync_one (exFile 7) _ _ (exScan 20) _ _ _ rfl (by simp) (by simp) rfl rfl, by simp [Dict.WF, Dict.keys]⟩)
    d h ['F'] (by decide) (fun _ => 7) rfl
  exact ⟨col, h1, by rw [h2]; norm_num [exFile, Dict.get?]⟩

/-- ... there is such a result. -/
example : ∃ d, spectrumNoSync (exFile 7) { exParams with counters := [], replacebasedir := some [] } none [['c']]
    [((exScan 10, (exScan 10).mtime), .ok ([[['f']]], [0])), ((exScan 20, (exScan 20).mtime), .ok ([[['g']]], [0]))] = .ok d := ⟨_, rfl⟩

/-- `nosync_nothing` -/
example : spectrumNoSync (exFile 7) { exParams with counters := [] } none [['c']]
    [((exScan 10, fun _ => 1), parseXia [⟨['/', 'd'], ['s'], ['1']⟩] ['/', 'o'] [] true true true true
      (some [[⟨['/', 'd', '/', '0'], some 0⟩, ⟨['/', 'd', '/', '1'], some 1⟩]]) [['/', 'd', '/', '0'], ['/', 'o', '/', 'x']])]
    = .ok [(kEnergy, fun e : Nat => (e : Rat) + 1)] :=
  nosync_nothing (exFile 7) { exParams with counters := [] } none [['c']] _ [] _ rfl rfl rfl (fun q' hq' => by
    simp only [List.nil_append, List.mem_singleton] at hq'
    subst hq'
    exact ⟨⟨['/', 'd'], ['s'], ['1']⟩, ['/', 'o'], true, [⟨['/', 'd', '/', '0'], some 0⟩, ⟨['/', 'd', '/', '1'], some 1⟩], [],
      [['/', 'd', '/', '0'], ['/', 'o', '/', 'x']], rfl, rfl, by simp [List.cons_prefix_cons], by simp [List.cons_prefix_cons], by simp [List.cons_prefix_cons], by decide⟩)

/-- `sync_background`, `nosync_background` -/
example : spectrum exExt { exParams with bkgflux := 1 } none [] [(exScan 10, fun _ => 1)] = .error .dimensionality :=
  sync_background _ _ _ _ _ _ (fun h => absurd h.1 (by decide))
example : spectrumNoSync (exFile 7) { exParams with bkgflux := 1 } none [] [((exScan 10, fun _ => 1), .ok ([], []))] = .error .dimensionality :=
  nosync_background _ _ _ _ _ _ (fun h => absurd h.1 (by decide))

end SC.XasPipe
