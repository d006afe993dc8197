import Verif.XasPipe.Lemmas
import Verif.XasPipe.XiaProps
/-! # Properties of `processNotSynchronized` -/
namespace SC.XasPipe
open SC.Py

/-- The default of `replacebasedir` raises in every spectrum. -/
theorem nosync_default (x : FileExt) (p : Params) (rois : Option (List Rois)) (cfgs : List Str)
    (q : (Scan × Col) × Except Err (List (List Str) × List Nat)) (l : List ((Scan × Col) × Except Err (List (List Str) × List Nat)))
    (hb : NoBackground p) (hp : p.replacebasedir = none) : spectrumNoSync x p rois cfgs (q :: l) = .error .typeError := by
  obtain ⟨s, parsed⟩ := q
  simp [spectrumNoSync, repeatsNoSync, repeatNoSync, hp, (unitsOk_iff p).2 hb]

/-- With counters no spectrum has a result. -/
theorem nosync_counters (x : FileExt) (p : Params) (rois : Option (List Rois)) (cfgs : List Str)
    (q : (Scan × Col) × Except Err (List (List Str) × List Nat)) (l : List ((Scan × Col) × Except Err (List (List Str) × List Nat)))
    (hp : p.counters ≠ []) (d : Dict Str Col) : spectrumNoSync x p rois cfgs (q :: l) ≠ .ok d := by
  obtain ⟨s, parsed⟩ := q
  have h0 : p.counters.isEmpty = false := by simpa using hp
  have : ∀ cfgs', ∃ e, repeatNoSync x p p.replacebasedir cfgs' rois s parsed = .error e := by
    intro cfgs'
    unfold repeatNoSync
    split
    · exact ⟨_, rfl⟩
    split
    · exact ⟨_, rfl⟩
    · split
      · exact ⟨_, rfl⟩
      · split
        · exact ⟨_, rfl⟩
        · simp [h0]
  obtain ⟨e, he⟩ := this (cfgs.map (replaceOnce (p.replacebasedir.getD [])))
  simp [spectrumNoSync, repeatsNoSync, he]

/-- The background of the spectrum has no effect. -/
theorem nosync_bkgxas (x : FileExt) (p : Params) (b : Rat) (rois : Option (List Rois)) (cfgs : List Str)
    (l : List ((Scan × Col) × Except Err (List (List Str) × List Nat))) :
    spectrumNoSync x { p with bkgxas := b } rois cfgs l = spectrumNoSync x p rois cfgs l := by
  have : ∀ l cfgs acc en, repeatsNoSync x { p with bkgxas := b } rois l cfgs acc en = repeatsNoSync x p rois l cfgs acc en := by
    intro l
    induction l with
    | nil => intros; rfl
    | cons q r ih => intro cfgs acc en; obtain ⟨s, parsed⟩ := q; simp only [repeatsNoSync, ih]; rfl
  simp [spectrumNoSync, this]

/-- A repeat without detectors raises. -/
theorem nosync_no_detectors (x : FileExt) (p : Params) (rois : Option (List Rois)) (cfgs : List Str) (s : Scan × Col) (rep : List Str)
    (hb : NoBackground p) : repeatNoSync x p (some rep) cfgs rois s (.ok ([[]], [])) = .error .indexError := by
  simp [repeatNoSync, (unitsOk_iff p).2 hb, addDets]

/-- A background of I0 or of a counter other than zero always raises. -/
theorem nosync_background (x : FileExt) (p : Params) (rois : Option (List Rois)) (cfgs : List Str)
    (q : (Scan × Col) × Except Err (List (List Str) × List Nat)) (l : List ((Scan × Col) × Except Err (List (List Str) × List Nat)))
    (h : ¬ NoBackground p) : spectrumNoSync x p rois cfgs (q :: l) = .error .dimensionality := by
  have : unitsOk p = false := by rw [← Bool.not_eq_true, unitsOk_iff]; exact h
  obtain ⟨s, parsed⟩ := q
  simp [spectrumNoSync, repeatsNoSync, repeatNoSync, this]

/-- One repeat with files and one configuration: the fit with I0 and energies of this repeat. -/
theorem nosync_one (x : FileExt) (p : Params) (cfg : Str) (s : Scan) (rep : List Str) (files : List Str) (dets : List Nat)
    (hb : p.bkgflux = 0) (hf : files ≠ []) (hd : dets ≠ []) (hc : p.counters = []) (hm : p.normmedian = false) :
    repeatNoSync x p (some rep) [cfg] none (s, s.mtime) (.ok ([files], dets))
      = x.fit files cfg (fun e => I0 p s (s.mtime e) e) (fun e => s.energy e + p.energyshift) := by
  have h1 : files.isEmpty = false := by simpa using hf
  have h2 : dets.length ≠ 0 := by simpa using hd
  have h3 : normNoSync x.median p (s, s.mtime) = fun e => I0 p s (s.mtime e) e := by simp [normNoSync, hm]; rfl
  have h4 : detResult x [cfg] none (normNoSync x.median p (s, s.mtime)) (energies p s) 0 files
      = x.fit files cfg (fun e => I0 p s (s.mtime e) e) (fun e => s.energy e + p.energyshift) := by
    rw [h3]; rfl
  have h5 : unitsOk p = true := by simp [unitsOk, hb, hc]
  simp only [repeatNoSync, h5, Bool.not_true, addDets, Nat.le_zero, h2, if_false, h1, Bool.false_eq_true, h4, hc, List.isEmpty_nil, if_true]
  cases x.fit files cfg (fun e => I0 p s (s.mtime e) e) (fun e => s.energy e + p.energyshift) <;> rfl

/-- Adding the groups of one dictionary to another one. -/
theorem addGroups_get (g : Col → Col) (d : Dict Str Col) (hd : Dict.WF d) (acc a : Dict Str Col) (h : addGroups g acc d = .ok a) (k : Str) (c : Col)
    (hk : Dict.get? acc k = some c) :
    ∃ col, Dict.get? a k = some col ∧ ∀ e, col e = c e + ((Dict.get? d k).map fun c => g c e).getD 0 := by
  induction d generalizing acc c with
  | nil => simp only [addGroups] at h; cases h; exact ⟨c, hk, fun e => by simp [Dict.get?]⟩
  | cons q r ih =>
    obtain ⟨y, w⟩ := q
    simp only [Dict.WF, Dict.keys, List.map_cons, List.nodup_cons] at hd
    simp only [addGroups] at h
    split at h
    · cases h
    · next v hv =>
      by_cases hy : y = k
      · subst hy
        rw [hk] at hv
        simp only [Option.some.injEq] at hv
        subst hv
        obtain ⟨col, h1, h2⟩ := ih hd.2 _ h (fun e => c e + g w e) (by rw [Dict.get?_set, if_pos rfl])
        have hn : Dict.get? r y = none := (Dict.get?_none r y).2 hd.1
        exact ⟨col, h1, fun e => by rw [h2 e, hn]; simp [Dict.get?]⟩
      · obtain ⟨col, h1, h2⟩ := ih hd.2 _ h c (by rw [Dict.get?_set, if_neg hy]; exact hk)
        exact ⟨col, h1, fun e => by rw [h2 e]; simp [Dict.get?, hy]⟩

theorem repeats_add (x : FileExt) (p : Params) (rois : Option (List Rois)) (cfgs : List Str)
    (R : (Scan × Col) × Except Err (List (List Str) × List Nat) → Dict Str Col)
    (hc : cfgs.map (replaceOnce (p.replacebasedir.getD [])) = cfgs)
    (l : List ((Scan × Col) × Except Err (List (List Str) × List Nat)))
    (hR : ∀ q ∈ l, repeatNoSync x p p.replacebasedir cfgs rois q.1 q.2 = .ok (R q) ∧ Dict.WF (R q))
    (acc : Dict Str Col) (en : Col) (d : Dict Str Col) (en' : Col) (h : repeatsNoSync x p rois l cfgs acc en = .ok (d, en'))
    (k : Str) (c : Col) (hk : Dict.get? acc k = some c) :
    en' = en ∧ ∃ col, Dict.get? d k = some col ∧ ∀ e, col e = c e +
      (l.map fun q => ((Dict.get? (R q) k).map fun v => x.spline q.1.1.n (energies p q.1.1) v (en e)).getD 0).sum := by
  induction l generalizing acc c with
  | nil =>
    simp only [repeatsNoSync] at h
    cases h
    exact ⟨rfl, c, hk, fun e => by simp⟩
  | cons q r ih =>
    have hq := hR q List.mem_cons_self
    obtain ⟨s, parsed⟩ := q
    have hne : acc.isEmpty = false := by cases acc with
      | nil => cases hk
      | cons a b => rfl
    simp only [repeatsNoSync, hc, hq.1, hne, Bool.false_eq_true, if_false] at h
    split at h
    · cases h
    · next a ha =>
      obtain ⟨col, h1, h2⟩ := addGroups_get _ _ hq.2 _ _ ha k c hk
      obtain ⟨e1, col', h3, h4⟩ := ih (fun q hq => hR q (List.mem_cons_of_mem _ hq)) a h col h1
      exact ⟨e1, col', h3, fun e => by rw [h4 e, h2 e, List.map_cons, List.sum_cons, add_assoc]⟩

/-- The mean over the repeats: the first one at its own energies and the splines of the others at those energies. -/
theorem nosync_mean (x : FileExt) (p : Params) (rois : Option (List Rois)) (cfgs : List Str)
    (R : (Scan × Col) × Except Err (List (List Str) × List Nat) → Dict Str Col)
    (hc : cfgs.map (replaceOnce (p.replacebasedir.getD [])) = cfgs)
    (q0 : (Scan × Col) × Except Err (List (List Str) × List Nat)) (l : List ((Scan × Col) × Except Err (List (List Str) × List Nat)))
    (hR : ∀ q ∈ q0 :: l, repeatNoSync x p p.replacebasedir cfgs rois q.1 q.2 = .ok (R q) ∧ Dict.WF (R q))
    (d : Dict Str Col) (h : spectrumNoSync x p rois cfgs (q0 :: l) = .ok d) (k : Str) (hk : k ≠ kEnergy) (c : Col)
    (h0 : Dict.get? (R q0) k = some c) :
    Dict.get? d kEnergy = some (fun e => q0.1.1.energy e + p.energyshift) ∧
    ∃ col : Col, Dict.get? d k = some col ∧ ∀ e, col e = (c e + (l.map fun q => ((Dict.get? (R q) k).map fun v =>
      x.spline q.1.1.n (fun i => q.1.1.energy i + p.energyshift) v (q0.1.1.energy e + p.energyshift)).getD 0).sum) / (l.length + 1) := by
  have hq := hR q0 List.mem_cons_self
  obtain ⟨s, parsed⟩ := q0
  unfold spectrumNoSync at h
  simp only [repeatsNoSync, hc, hq.1, List.isEmpty_nil, if_true] at h
  split at h
  · cases h
  · next a en ha =>
    cases h
    obtain ⟨e1, col, h1, h2⟩ := repeats_add x p rois cfgs R hc l (fun q hq => hR q (List.mem_cons_of_mem _ hq)) _ _ _ _ ha k c h0
    refine ⟨?_, fun e => col e / ((l.length + 1 : Nat) : Rat), ?_, fun e => ?_⟩
    · rw [Dict.get?_set, if_pos rfl, e1]; rfl
    · rw [Dict.get?_set, if_neg (Ne.symm hk), get?_map_some (fun c : Col => fun e => c e / ((((s, parsed) :: l).length : Nat) : Rat)), h1]
      rfl
    · simp only [h2 e]
      push_cast
      rfl

/-- Several detectors in an absolute directory: the sums are never found, and the result has only the energies (those of the
last repeat). -/
theorem nosync_nothing (x : FileExt) (p : Params) (rois : Option (List Rois)) (cfgs : List Str) (rep : List Str)
    (l : List ((Scan × Col) × Except Err (List (List Str) × List Nat))) (q : (Scan × Col) × Except Err (List (List Str) × List Nat))
    (hb : p.bkgflux = 0) (hp : p.replacebasedir = some rep) (hc : p.counters = [])
    (hl : ∀ q' ∈ l ++ [q], ∃ (s : XiaScan) (outdir : Str) (deadtime : Bool) (g : List XiaFile) (r : List (List XiaFile)) (disk : List Str),
      q'.2 = parseXia [s] outdir [] deadtime true true true (some (g :: r)) disk ∧ s.ddir.head? = some '/' ∧
      (∀ f ∈ disk, s.ddir ++ ['/'] <+: f ∨ outdir ++ ['/'] <+: f) ∧
      ¬ outdir ++ ['/'] <+: s.ddir ++ ['_'] ∧ ¬ s.ddir ++ ['_'] <+: outdir ++ ['/'] ∧
      2 ≤ (detNums [] (g.filter fun f => !(f.det.map ([] : List Nat).contains).getD false)).length) :
    spectrumNoSync x p rois cfgs (l ++ [q]) = .ok [(kEnergy, fun e => q.1.1.energy e + p.energyshift)] := by
  have hrep : ∀ q' ∈ l ++ [q], ∀ cfgs', repeatNoSync x p (some rep) cfgs' rois q'.1 q'.2 = .ok [] := by
    intro q' hq' cfgs'
    obtain ⟨s, outdir, dt, g, r, disk, h1, h2, h3, h4, h5, h6⟩ := hl q' hq'
    rw [h1, xia_sum_lost s outdir [] dt true true g r disk h2 h3 h4 h5 h6]
    generalize hdn : detNums [] _ = dn at h6
    have : dn.length ≠ 0 := by omega
    simp [repeatNoSync, addDets, this, hc, unitsOk, hb]
  have : ∀ (l : List ((Scan × Col) × Except Err (List (List Str) × List Nat))),
      (∀ q' ∈ l ++ [q], ∀ cfgs', repeatNoSync x p (some rep) cfgs' rois q'.1 q'.2 = .ok []) → ∀ cfgs en,
      repeatsNoSync x p rois (l ++ [q]) cfgs [] en = .ok ([], fun e => q.1.1.energy e + p.energyshift) := by
    intro l
    induction l with
    | nil =>
      intro h cfgs en
      have := h q (by simp)
      obtain ⟨s, parsed⟩ := q
      simp only at this
      simp [repeatsNoSync, hp, this]
      rfl
    | cons q' r ih =>
      intro h cfgs en
      have h' := h q' (by simp)
      obtain ⟨s, parsed⟩ := q'
      simp only at h'
      simp only [List.cons_append, repeatsNoSync, hp, h', List.isEmpty_nil, if_true]
      have := ih (fun q' hq' => h q' (by simp at hq' ⊢; tauto))
      exact this _ _
  simp [spectrumNoSync, this l hrep, Dict.set]

end SC.XasPipe
