import Verif.XasPipe.Lemmas
/-! # Properties of `processEnergySynchronized` -/
namespace SC.XasPipe
open SC.Py

/-- The results of several spectra with a label of exposure times are those of the single spectra. -/
theorem sync_each (x : Ext) (p : Params) (rois : Option Rois) (cfg : Str) (sss : List (List Scan)) (ds : List (Dict Str (List Col)))
    (h : processSync x p rois .own cfg sss = .ok ds) :
    ds.length = sss.length ∧ ∀ (i : Nat) (ss : List Scan) (d : Dict Str (List Col)), sss[i]? = some ss → ds[i]? = some d →
      ∃ cfg', spectrum x p rois cfg' (ss.map fun s => (s, s.mtime)) = .ok d := by
  induction sss generalizing cfg ds with
  | nil => simp only [processSync] at h; cases h; exact ⟨rfl, fun i ss d h => by simp at h⟩
  | cons s r ih =>
    simp only [processSync, withTimes_own] at h
    split at h
    · cases h
    · next d0 h0 =>
      split at h
      · cases h
      · next l hl =>
        cases h
        obtain ⟨h1, h2⟩ := ih _ _ hl
        refine ⟨by simp [h1], ?_⟩
        intro i ss d hi hd
        cases i with
        | zero => simp only [List.getElem?_cons_zero, Option.some.injEq] at hi hd; subst hi hd; exact ⟨cfg, h0⟩
        | succ i => exact h2 i ss d (by simpa using hi) (by simpa using hd)

/-- A result exists only if the energies of all repeats are those of the first. -/
theorem sync_required (x : Ext) (p : Params) (rois : Option Rois) (cfg : Str) (s0 : Scan) (r : List Scan)
    (hb : NoBackground p) (hs : ∃ s ∈ r, ¬ InSync s0 s) : spectrum x p rois cfg ((s0 :: r).map fun s => (s, s.mtime)) = .error .valueError := by
  obtain ⟨s, hs, hn⟩ := hs
  have : ((r.map fun s => (s, s.mtime)).all fun q : Scan × Col => synchronized p s0 q.1) = false := by
    rw [Bool.eq_false_iff]
    intro h
    exact hn ((synchronized_iff p s0 s).1 (List.all_eq_true.1 h (s, s.mtime) (List.mem_map_of_mem hs)))
  simp [spectrum, this, (unitsOk_iff p).2 hb]

/-- A background of I0 or of a counter other than zero always raises. -/
theorem sync_background (x : Ext) (p : Params) (rois : Option Rois) (cfg : Str) (s0 : Scan × Col) (r : List (Scan × Col)) (h : ¬ NoBackground p) :
    spectrum x p rois cfg (s0 :: r) = .error .dimensionality := by
  have : unitsOk p = false := by rw [← Bool.not_eq_true, unitsOk_iff]; exact h
  simp [spectrum, this]

/-- A region: sum over its channels of the mean over the repeats of counts over I0, without background and never negative.  Repeats
without detector files count in the mean as zero. -/
theorem sync_roi (x : Ext) (p : Params) (rois : Rois) (cfg : Str) (m : Nat) (s0 : Scan) (r : List Scan) (d : Dict Str (List Col))
    (hm : p.normmedian = false) (h0 : HasFiles m s0) (hr : ∀ s ∈ r, s.xrf = none ∨ HasFiles m s)
    (h : spectrum x p (some rois) cfg ((s0 :: r).map fun s => (s, s.mtime)) = .ok d)
    (k : Str) (a b : Nat) (hk : (k, a, b) ∈ rois) (hn : (rois.map Prod.fst).Nodup) (hf : Free p k) :
    ∃ col : Col, Dict.get? d k = some [col] ∧ ∀ e, col e = over m a b fun c => max 0 (mean p (s0 :: r) e c - p.bkgxas) := by
  rw [List.map_cons] at h
  obtain ⟨-, rep, data, res, -, hdata, hres, rfl⟩ := spectrum_ok _ _ _ _ _ _ _ h
  have hs := sum_own x p m s0 r hm h0 hr
  rw [List.map_cons (f := fun s : Scan => (s, s.mtime))] at hs
  rw [hs] at hdata
  cases hdata
  simp only [xrfResults] at hres
  cases hres
  refine ⟨_, (addRest_free _ _ _ _ _ _ k hf).trans
    (get?_update_unique (fun r : Str × Nat × Nat => r.1) _ rois [] (k, a, b) hk hn), fun e => ?_⟩
  rw [roiSum_over]
  unfold over
  congr 1
  apply List.map_congr_left
  intro c _
  rw [finish_counts]
  simp [mean]

/-- The aim of the normalisation: spectra which are everywhere the same multiple of I0 give that multiple, for any number of
repeats and any I0. -/
theorem sync_exact (x : Ext) (p : Params) (rois : Rois) (cfg : Str) (m : Nat) (s0 : Scan) (r : List Scan) (d : Dict Str (List Col))
    (mu : Nat → Nat → Rat) (hm : p.normmedian = false) (hr : ∀ s ∈ s0 :: r, HasFiles m s)
    (hi : ∀ s ∈ s0 :: r, ∀ e, I0 p s (s.mtime e) e ≠ 0)
    (hmu : ∀ s ∈ s0 :: r, ∀ e c, chan s e c = mu e c * I0 p s (s.mtime e) e)
    (h : spectrum x p (some rois) cfg ((s0 :: r).map fun s => (s, s.mtime)) = .ok d)
    (k : Str) (a b : Nat) (hk : (k, a, b) ∈ rois) (hn : (rois.map Prod.fst).Nodup) (hf : Free p k) :
    ∃ col : Col, Dict.get? d k = some [col] ∧ ∀ e, col e = over m a b fun c => max 0 (mu e c - p.bkgxas) := by
  obtain ⟨col, h1, h2⟩ := sync_roi x p rois cfg m s0 r d hm (hr s0 List.mem_cons_self)
    (fun s hs => .inr (hr s (List.mem_cons_of_mem _ hs))) h k a b hk hn hf
  refine ⟨col, h1, fun e => (h2 e).trans ?_⟩
  unfold over
  congr 1
  apply List.map_congr_left
  intro c _
  congr 2
  unfold mean
  rw [List.map_congr_left (g := fun _ => mu e c)]
  · have : ((s0 :: r).length : Rat) ≠ 0 := by simp; positivity
    rw [List.map_const', List.sum_replicate, nsmul_eq_mul]
    field_simp
  · intro s hs
    rw [hmu s hs]
    exact mul_div_cancel_right₀ _ (hi s hs e)

/-- A fit gets the mean spectra and the energies of the first repeat, and its results are kept, if the last repeat has files. -/
theorem sync_fit (x : Ext) (p : Params) (cfg : Str) (m : Nat) (s0 : Scan) (r : List Scan) (d : Dict Str (List Col))
    (hm : p.normmedian = false) (h0 : HasFiles m s0) (hr : ∀ s ∈ r, s.xrf = none ∨ HasFiles m s)
    (hl : ∀ s, (s0 :: r).getLast? = some s → HasFiles m s)
    (h : spectrum x p none cfg ((s0 :: r).map fun s => (s, s.mtime)) = .ok d) :
    ∃ (c : Str) (data : Xrf) (f : Dict Str Col), data.nchan = m ∧
      (∀ e c, data.counts e c = max 0 (mean p (s0 :: r) e c - p.bkgxas)) ∧
      x.fit c data s0.n (fun e => s0.energy e + p.energyshift) = .ok f ∧
      ∀ k, Free p k → Dict.get? d k = (Dict.get? f k).map fun col => [col] := by
  rw [List.map_cons] at h
  obtain ⟨-, rep, data, res, -, hdata, hres, rfl⟩ := spectrum_ok _ _ _ _ _ _ _ h
  have hs := sum_own x p m s0 r hm h0 hr
  rw [List.map_cons (f := fun s : Scan => (s, s.mtime))] at hs
  rw [hs] at hdata
  cases hdata
  have hlast : ((((s0, s0.mtime) :: r.map fun s => (s, s.mtime)).getLast?.bind fun s : Scan × Col => s.1.xrf)).isSome = true := by
    have : ((s0, s0.mtime) :: r.map fun s => (s, s.mtime)) = (s0 :: r).map fun s => (s, s.mtime) := rfl
    rw [this, List.getLast?_map]
    obtain ⟨s, hs⟩ : ∃ s, (s0 :: r).getLast? = some s := ⟨_, List.getLast?_eq_some_getLast (by simp)⟩
    obtain ⟨-, d, hd, -⟩ := hl s hs
    simp [hs, hd]
  rw [hlast] at hres
  simp only [xrfResults, if_true] at hres
  split at hres
  · cases hres
  · next f hf =>
    cases hres
    refine ⟨_, _, f, ?_, ?_, hf, ?_⟩
    · rfl
    · intro e c
      rw [finish_counts]
      simp [mean]
    · intro k hk
      rw [addRest_free _ _ _ _ _ _ k hk, get?_map_some (fun c : Col => [c])]

/-- Without files in the last repeat nothing is fitted: the spectra of the other repeats are lost without an error. -/
theorem sync_fit_lost (x : Ext) (p : Params) (cfg : Str) (s0 : Scan) (r : List Scan) (d : Dict Str (List Col))
    (hl : ∀ s, (s0 :: r).getLast? = some s → s.xrf = none)
    (h : spectrum x p none cfg ((s0 :: r).map fun s => (s, s.mtime)) = .ok d) (k : Str) (hk : Free p k) :
    Dict.get? d k = none := by
  rw [List.map_cons] at h
  obtain ⟨-, rep, data, res, -, hdata, hres, rfl⟩ := spectrum_ok _ _ _ _ _ _ _ h
  have hlast : ((((s0, s0.mtime) :: r.map fun s => (s, s.mtime)).getLast?.bind fun s : Scan × Col => s.1.xrf)).isSome = false := by
    have : ((s0, s0.mtime) :: r.map fun s => (s, s.mtime)) = (s0 :: r).map fun s => (s, s.mtime) := rfl
    rw [this, List.getLast?_map]
    obtain ⟨s, hs⟩ : ∃ s, (s0 :: r).getLast? = some s := ⟨_, List.getLast?_eq_some_getLast (by simp)⟩
    simp [hs, hl s hs]
  rw [hlast] at hres
  simp only [xrfResults] at hres
  cases hres
  rw [addRest_free _ _ _ _ _ _ k hk]
  rfl

/-- A first repeat without files and another one with more than one channel cannot be added. -/
theorem sync_first_missing (x : Ext) (p : Params) (rois : Option Rois) (cfg : Str) (s0 s1 : Scan) (r : List Scan) (m : Nat)
    (hb : NoBackground p) (h0 : s0.xrf = none) (h1 : HasFiles m s1) (hm : m ≠ 1) (hs : ∀ s ∈ s1 :: r, InSync s0 s) (rep : List Str) (hrep : p.replacebasedir = some rep) :
    spectrum x p rois cfg ((s0 :: s1 :: r).map fun s => (s, s.mtime)) = .error .valueError := by
  have hall : (((s1 :: r).map fun s => (s, s.mtime)).all fun q : Scan × Col => synchronized p s0 q.1) = true := by
    rw [List.all_eq_true]
    intro q hq
    obtain ⟨s, h, rfl⟩ := List.mem_map.1 hq
    exact (synchronized_iff p s0 s).2 (hs s h)
  obtain ⟨hst, d, hd, hdm⟩ := h1
  have hd1 : d.nchan ≠ 1 := by omega
  rw [List.map_cons]
  unfold spectrum
  simp only [hall, if_true, hrep, (unitsOk_iff p).2 hb, Bool.not_true, Bool.false_eq_true, if_false]
  have : ∃ a b l, norms x p s0.n ((s0, s0.mtime) :: (s1 :: r).map fun s => (s, s.mtime)) = a :: b :: l := by
    unfold norms
    simp only [List.map_cons]
    split <;> exact ⟨_, _, _, rfl⟩
  obtain ⟨a, b, l, hn⟩ := this
  rw [hn]
  simp [sumXrf, addXrf, h0, hd, hst, hd1]

/-- Detector files without the file of statistics raise. -/
theorem sync_no_stat (x : Ext) (p : Params) (rois : Option Rois) (cfg : Str) (s0 : Scan) (dd : Xrf) (hb : NoBackground p) (h0 : s0.xrf = some dd)
    (hst : s0.stat = false) (t : Col) (rep : List Str) (hrep : p.replacebasedir = some rep) :
    spectrum x p rois cfg [(s0, t)] = .error .indexError := by
  have : ∃ a, norms x p s0.n [(s0, t)] = [a] := by
    unfold norms
    simp only [List.map_cons, List.map_nil]
    split <;> exact ⟨_, rfl⟩
  obtain ⟨a, hn⟩ := this
  simp [spectrum, hrep, hn, sumXrf, addXrf, h0, hst, (unitsOk_iff p).2 hb]

/-- Energies of the first repeat. -/
theorem sync_energy (x : Ext) (p : Params) (rois : Option Rois) (cfg : Str) (s0 : Scan × Col) (r : List (Scan × Col)) (d : Dict Str (List Col))
    (hc : ∀ c ∈ p.counters, c.out ≠ kEnergy) (h : spectrum x p rois cfg (s0 :: r) = .ok d) :
    Dict.get? d kEnergy = some [fun e => s0.1.energy e + p.energyshift] := by
  obtain ⟨-, rep, data, res, -, -, -, rfl⟩ := spectrum_ok _ _ _ _ _ _ _ h
  unfold addRest
  rw [Dict.get?_set, if_neg (by decide), Dict.get?_update, get?_none_of, Option.none_or, Dict.get?_set, if_pos rfl]
  · rfl
  · intro q hq
    simp only [List.mem_reverse, List.mem_map] at hq
    obtain ⟨c, h, rfl⟩ := hq
    exact hc c h

/-- I0 of all repeats: columns in the order of the repeats. -/
theorem sync_norm (x : Ext) (p : Params) (rois : Option Rois) (cfg : Str) (s0 : Scan) (r : List Scan) (d : Dict Str (List Col))
    (hm : p.normmedian = false) (h : spectrum x p rois cfg ((s0 :: r).map fun s => (s, s.mtime)) = .ok d) :
    Dict.get? d kNorm = some ((s0 :: r).map fun s => fun e => I0 p s (s.mtime e) e) := by
  rw [List.map_cons] at h
  obtain ⟨-, rep, data, res, -, -, -, rfl⟩ := spectrum_ok _ _ _ _ _ _ _ h
  unfold addRest
  rw [Dict.get?_set, if_pos rfl, norms_plain x p _ _ hm]
  rw [List.map_cons, List.map_map]
  rfl

theorem lastBkg_unique (cs : List Counter) (c : Counter) (hc : c ∈ cs) (hn : (cs.map Counter.name).Nodup) (b : Rat) :
    cs.foldl (fun b c' => if c'.name = c.name then c'.bkg else b) b = c.bkg := by
  induction cs generalizing b with
  | nil => cases hc
  | cons c0 r ih =>
    simp only [List.map_cons, List.nodup_cons] at hn
    simp only [List.foldl_cons]
    rcases List.mem_cons.1 hc with rfl | h
    · rw [if_pos rfl]
      have : ∀ (l : List Counter) (v : Rat), c.name ∉ l.map Counter.name →
          l.foldl (fun b c' => if c'.name = c.name then c'.bkg else b) v = v := by
        intro l
        induction l with
        | nil => intro v _; rfl
        | cons a l ihl =>
          intro v hv
          simp only [List.map_cons, List.mem_cons, not_or] at hv
          rw [List.foldl_cons, if_neg (Ne.symm hv.1), ihl v hv.2]
      exact this r _ hn.1
    · exact ih h hn.2 _

/-- A counter: mean over the repeats of the counts without background over I0, when counters have different names. -/
theorem sync_counter (x : Ext) (p : Params) (rois : Option Rois) (cfg : Str) (s0 : Scan) (r : List Scan) (d : Dict Str (List Col))
    (hm : p.normmedian = false) (h : spectrum x p rois cfg ((s0 :: r).map fun s => (s, s.mtime)) = .ok d) (c : Counter)
    (hc : c ∈ p.counters) (hn : (p.counters.map Counter.out).Nodup) (hname : (p.counters.map Counter.name).Nodup) (hk : c.out ≠ kNorm) :
    ∃ col : Col, Dict.get? d c.out = some [col] ∧ ∀ e,
      let v := ((s0 :: r).map fun s => (s.ctr c.name e / s.realtime - c.bkg) * s.mtime e / I0 p s (s.mtime e) e).sum / (s0 :: r).length
      col e = if c.minlog then - x.log v else v := by
  rw [List.map_cons] at h
  obtain ⟨-, rep, data, res, -, -, -, rfl⟩ := spectrum_ok _ _ _ _ _ _ _ h
  refine ⟨counterCol x p.counters (((s0, s0.mtime) :: r.map fun s => (s, s.mtime)).zip
    (norms x p s0.n ((s0, s0.mtime) :: r.map fun s => (s, s.mtime)))) c, ?_, ?_⟩
  · unfold addRest
    rw [Dict.get?_set, if_neg (Ne.symm hk)]
    exact get?_update_unique Counter.out _ p.counters _ c hc hn
  · intro e
    have hz : ((s0, s0.mtime) :: r.map fun s => (s, s.mtime)).zip (norms x p s0.n ((s0, s0.mtime) :: r.map fun s => (s, s.mtime)))
        = (s0 :: r).map fun s => ((s, s.mtime), corrected p.bkgflux s.realtime s.iodet s.mtime) := by
      rw [norms_plain x p _ _ hm]
      have : ((s0, s0.mtime) :: r.map fun s => (s, s.mtime)) = (s0 :: r).map fun s => (s, s.mtime) := rfl
      rw [this, List.map_map, List.zip_map']
      rfl
    unfold counterCol
    rw [hz]
    have hb : lastBkg p.counters c.name = c.bkg := lastBkg_unique _ _ hc hname 0
    simp only [hb, List.map_map, Function.comp_def, List.length_map, corrected, I0]

/-- Dividing I0 by its median multiplies the mean spectra by the median. -/
theorem sync_median (x : Ext) (p : Params) (n : Nat) (l : List (Scan × Col)) (m : Rat)
    (hp : p.normmedian = true)
    (hmed : m = x.median ((List.range n).flatMap fun e => l.map fun s => I0 p s.1 (s.2 e) e)) (e c : Nat) :
    ((l.zip (norms x p n l)).map fun q => chan q.1.1 e c / q.2 e).sum
      = m * (l.map fun s => chan s.1 e c / I0 p s.1 (s.2 e) e).sum := by
  have : norms x p n l = l.map fun s => fun e => I0 p s.1 (s.2 e) e / m := by
    unfold norms
    simp only [hp, if_true, List.map_map, Function.comp_def, hmed, corrected, I0]
  rw [this]
  have hz : l.zip (l.map fun s => fun e => I0 p s.1 (s.2 e) e / m) = l.map fun s => (s, fun e => I0 p s.1 (s.2 e) e / m) := by
    conv_lhs => rw [← List.map_id l, List.map_map, List.zip_map']
    rfl
  rw [hz, List.map_map]
  clear hz this hmed
  induction l with
  | nil => simp
  | cons s r ih =>
    simp only [List.map_cons, List.sum_cons, ih, Function.comp, mul_add]
    rw [div_div_eq_mul_div, mul_comm (chan s.1 e c), mul_div_assoc]

/-- A region when I0 is divided by its median `med` over all repeats and energies: the mean spectra are `med` times as large, the
background is subtracted afterwards. -/
theorem sync_roi_median (x : Ext) (p : Params) (rois : Rois) (cfg : Str) (m : Nat) (s0 : Scan) (r : List Scan) (d : Dict Str (List Col))
    (hp : p.normmedian = true) (hr : ∀ s ∈ s0 :: r, HasFiles m s) (med : Rat)
    (hmed : med = x.median ((List.range s0.n).flatMap fun e => (s0 :: r).map fun s => I0 p s (s.mtime e) e))
    (h : spectrum x p (some rois) cfg ((s0 :: r).map fun s => (s, s.mtime)) = .ok d)
    (k : Str) (a b : Nat) (hk : (k, a, b) ∈ rois) (hn : (rois.map Prod.fst).Nodup) (hf : Free p k) :
    ∃ col : Col, Dict.get? d k = some [col] ∧ ∀ e, col e = over m a b fun c => max 0 (med * mean p (s0 :: r) e c - p.bkgxas) := by
  have hlen : (norms x p s0.n ((s0 :: r).map fun s => (s, s.mtime))).length = (s0 :: r).length := by
    simp [norms, hp]
  have hmed' : med = x.median ((List.range s0.n).flatMap fun e =>
      ((s0 :: r).map fun s => (s, s.mtime)).map fun s : Scan × Col => I0 p s.1 (s.2 e) e) := by
    rw [hmed]; simp only [List.map_map, Function.comp_def]
  have hsum := sync_median x p s0.n ((s0 :: r).map fun s => (s, s.mtime)) med hp hmed'
  rw [List.map_cons] at h
  obtain ⟨-, rep, data, res, -, hdata, hres, rfl⟩ := spectrum_ok _ _ _ _ _ _ _ h
  have hl : ((s0, s0.mtime) :: r.map fun s => (s, s.mtime)) = (s0 :: r).map fun s => (s, s.mtime) := rfl
  simp only [hl] at hdata hres hsum ⊢
  generalize norms x p s0.n ((s0 :: r).map fun s => (s, s.mtime)) = ns at *
  obtain ⟨n0, nr, rfl⟩ : ∃ n0 nr, ns = n0 :: nr := by
    cases ns with
    | nil => simp at hlen
    | cons a l => exact ⟨a, l, rfl⟩
  have hdat := sumXrf_none m (s0, n0) (r.zip nr) (hr s0 List.mem_cons_self)
    (fun q hq => .inr (hr q.1 (List.mem_cons_of_mem _ (List.of_mem_zip (a := q.1) (b := q.2) hq).1)))
  have e1 : (((s0 :: r).map fun s => (s, s.mtime)).map Prod.fst).zip (n0 :: nr) = (s0, n0) :: r.zip nr := by
    simp [List.map_map, Function.comp_def]
  rw [e1, hdat] at hdata
  cases hdata
  simp only [xrfResults] at hres
  cases hres
  refine ⟨_, (addRest_free _ _ _ _ _ _ k hf).trans
    (get?_update_unique (fun r : Str × Nat × Nat => r.1) _ rois [] (k, a, b) hk hn), fun e => ?_⟩
  rw [roiSum_over]
  unfold over
  congr 1
  apply List.map_congr_left
  intro c _
  rw [finish_counts]
  have e2 : (((s0, n0) :: r.zip nr).map fun q => chan q.1 e c / q.2 e).sum
      = med * ((s0 :: r).map fun s => chan s e c / I0 p s (s.mtime e) e).sum := by
    have := hsum e c
    rw [List.map_map] at this
    refine Eq.trans ?_ this
    have hzz : ∀ (l : List Scan) (l' : List Col), ((l.map fun s => (s, s.mtime)).zip l').map (fun q => chan q.1.1 e c / q.2 e)
        = (l.zip l').map fun q => chan q.1 e c / q.2 e := by
      intro l
      induction l with
      | nil => intro l'; rfl
      | cons s l ih => intro l'; cases l' <;> simp [ih]
    rw [hzz]
    rfl
  simp only [e2, mean, List.length_map]
  rw [mul_div_assoc]

/-- An empty label of exposure times: the first scan of all has the time of the command and every other scan has its I0
counts as exposure time. -/
theorem sync_empty_label (s0 : Scan) (r : List Scan) :
    withTimes .empty (s0 :: r) = (.iodet, (s0, fun _ => s0.realtime) :: r.map fun s => (s, s.iodet)) := by
  simp [withTimes, times, withTimes_iodet]

/-- The name of the configuration has the base directory replaced once if the result does not contain the text to
replace ... -/
theorem sync_replace (a b s : Str) (n : Nat) (h : ¬ a <:+: Expression.replace s a b) :
    replaceTimes [a, b] (n + 1) s = Expression.replace s a b := by
  show replaceTimes [a, b] n (Expression.replace s a b) = _
  exact replaceTimes_absent a b n _ h

/-- ... and otherwise as often as there are repeats. -/
theorem sync_replace_grows : ∃ a b s : Str, replaceTimes [a, b] 2 s ≠ Expression.replace s a b :=
  ⟨['/', 'd'], ['/', 'm', '/', 'd'], ['/', 'd', '/', 'c'], by decide⟩

end SC.XasPipe
