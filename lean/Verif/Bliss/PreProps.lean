import Verif.Bliss.Lemmas
import Mathlib.Tactic.NormNum
/-! # C71: spectra of Bliss scans are corrected and added per element -/
namespace SC.Bliss
open SC.Py SC.Numpy SC.Slicing

/-! ## The detectors that are used -/

/-- **C71**.  The detectors are those of which the name matches one of the patterns, and each is taken
once for each pattern that it matches. -/
theorem matching_count (names : List Name) (patterns : List (Name → Bool)) (n : Name) :
    (matchingNames names patterns).count n = names.count n * matches' patterns n := by
  unfold matchingNames matches'
  induction patterns with
  | nil => simp
  | cons p l ih =>
    rw [List.flatMap_cons, List.count_append, ih, List.countP_cons]
    by_cases hp : p n = true
    · rw [List.count_filter hp, if_pos hp]; ring
    · have : List.count n (names.filter p) = 0 := by
        rw [List.count_eq_zero]
        intro h
        exact hp (List.mem_filter.1 h).2
      rw [this, if_neg hp]; simp

/-- **C71**.  A sum over the detectors that are used is a sum over all detectors, each as many times as
there are patterns that match it. -/
theorem matching_sum (names : List Name) (patterns : List (Name → Bool)) (g : Name → Rat) :
    ((matchingNames names patterns).map g).sum = (names.map fun n => (matches' patterns n : Rat) * g n).sum := by
  unfold matchingNames matches'
  induction patterns with
  | nil => simp
  | cons p l ih =>
    rw [List.flatMap_cons, List.map_append, List.sum_append, ih]
    clear ih
    induction names with
    | nil => simp
    | cons m ns ih =>
      simp only [List.map_cons, List.sum_cons, List.countP_cons]
      by_cases hp : p m = true
      · rw [List.filter_cons_of_pos hp, List.map_cons, List.sum_cons, if_pos hp]
        simp only [List.countP_cons] at ih
        push_cast at ih ⊢
        have : ∀ a b c d e : Rat, b + c = e → a + b + (d * a + c) = (d + 1) * a + e := by
          intro a b c d e h; rw [← h]; ring
        exact this _ _ _ _ _ ih
      · rw [List.filter_cons_of_neg (by simpa using hp), if_neg hp]
        simp only [List.countP_cons] at ih
        have : ∀ b c d e : Rat, b + c = e → b + (d + c) = d + e := by
          intro b c d e h; rw [← h]; ring
        simpa using this _ _ _ _ ih

/-! ## Live time -/

theorem liveTime_counter {d : Det} {f : List Nat → Rat} (h : LiveCounter d f) : liveTime d = some fun p => some (f p) := by
  rcases h with h | ⟨h1, h2⟩
  · simp [liveTime, h]
  · simp [liveTime, h1, h2]

/-- **C71**.  The live time is that of the counter "live_time", or else that of "output_live_time". -/
theorem live_time (d : Det) (f : List Nat → Rat) (h : LiveCounter d f) (p : List Nat) :
    (liveTime d).map (fun g => g p) = some (some (f p)) := by rw [liveTime_counter h]; rfl

/-- **Deviation**: without these counters the live time is one second (or not a number), whatever the
rate of the detector: the number of events is divided by itself. -/
theorem live_time_events (d : Det) (ev : List Nat → Rat) (h1 : d.live = none) (h2 : d.outputLive = none) (h3 : d.events = some ev)
    (p : List Nat) : (liveTime d).map (fun g => g p) = some (if ev p = 0 then none else some 1) := by
  unfold liveTime
  simp only [h1, h2, h3, Option.map_some, Option.some.injEq, div]
  by_cases h : ev p = 0
  · simp [h]
  · simp [h]

/-- Without any counter there is no live time. -/
theorem live_time_missing (d : Det) (h1 : d.live = none) (h2 : d.outputLive = none) (h3 : d.events = none) : liveTime d = none := by
  simp [liveTime, h1, h2, h3]

/-! ## Adding detectors -/

theorem addElement_eq (preset : Rat) (l : List (Det × (List Nat → Val))) (hne : l ≠ []) (p : List Nat) :
    addElement false preset l p = total (l.map fun e => corrected preset e.1 e.2 p) := by
  match l, hne with
  | d :: ds, _ =>
    unfold addElement
    have hs : ∀ v, store false v = v := fun v => rfl
    simp only [hs]
    rw [List.map_cons, ← foldl_add_total, List.foldl_map]

theorem corrected_eq (preset : Rat) (d : Det) (f : List Nat → Rat) (p : List Nat) :
    corrected preset d (fun p => some (f p)) p = if f (pixel p) = 0 then none else some (d.data p * preset / f (pixel p)) := rfl

theorem mcaAdd_some (isint : Bool) (preset : Rat) (shape : List Nat) (nbytes : Nat) (mb : Rat) (dets : List Det)
    (fs : List (List Nat → Rat)) (hl : List.Forall₂ LiveCounter dets fs) (hne : dets ≠ []) :
    mcaAdd isint preset shape nbytes mb dets =
      some (fill shape nbytes mb (addElement isint preset (List.zip dets (fs.map fun f p => some (f p))))) := by
  have h : allSome (fun d => (liveTime d).map fun lt => (d, lt)) dets = some (List.zip dets (fs.map fun f p => some (f p))) := by
    rw [allSome_map]
    clear hne
    induction hl with
    | nil => exact List.Forall₂.nil
    | cons h _ ih => exact List.Forall₂.cons (by rw [liveTime_counter h]; rfl) ih
  unfold mcaAdd
  cases dets with
  | nil => exact absurd rfl hne
  | cons d ds => simp only [h]

/-- **C71**.  Every element of the added spectra is the sum over the detectors of the counts times the
preset time divided by the live time of the detector in that pixel, however the arrays are divided in
slices. -/
theorem add_spec (preset : Rat) (shape : List Nat) (nbytes : Nat) (mb : Rat) (dets : List Det) (fs : List (List Nat → Rat))
    (hl : List.Forall₂ LiveCounter dets fs) (hne : dets ≠ []) (hs : shape ≠ []) :
    ∃ a, mcaAdd false preset shape nbytes mb dets = some a ∧ ∀ p, InB p shape →
      ((∀ f ∈ fs, f (pixel p) ≠ 0) → a p = some ((List.zipWith (fun d f => d.data p * preset / f (pixel p)) dets fs).sum)) ∧
      ((∃ f ∈ fs, f (pixel p) = 0) → a p = none) := by
  refine ⟨_, mcaAdd_some false preset shape nbytes mb dets fs hl hne, ?_⟩
  intro p hp
  rw [fill_spec _ _ _ _ hs p hp]
  have hlen := hl.length_eq
  have hne' : List.zip dets (fs.map fun f p => (some (f p) : Val)) ≠ [] := by
    match dets, fs, hne, hlen with
    | _ :: _, _ :: _, _, _ => simp
    | _ :: _, [], _, h => simp at h
  rw [addElement_eq _ _ hne']
  have hm : (List.zip dets (fs.map fun f p => (some (f p) : Val))).map (fun e => corrected preset e.1 e.2 p) =
      List.zipWith (fun d f => if f (pixel p) = 0 then (none : Val) else some (d.data p * preset / f (pixel p))) dets fs := by
    clear hl hne hne' hlen
    induction dets generalizing fs with
    | nil => rfl
    | cons d ds ih =>
      cases fs with
      | nil => rfl
      | cons f fs => simp only [List.map_cons, List.zip_cons_cons, List.zipWith_cons_cons, ih]; rfl
  rw [hm]
  constructor
  · intro h0
    rw [← total_some]
    congr 1
    clear hl hne hne' hlen hm
    induction dets generalizing fs with
    | nil => rfl
    | cons d ds ih =>
      cases fs with
      | nil => rfl
      | cons f fs =>
        simp only [List.zipWith_cons_cons, List.map_cons]
        rw [ih fs (fun g hg => h0 g (List.mem_cons_of_mem _ hg)), if_neg (h0 f List.mem_cons_self)]
  · rintro ⟨f, hf, h0⟩
    unfold total
    rw [if_neg]
    intro hall
    rw [List.all_eq_true] at hall
    obtain ⟨j, hj, rfl⟩ := List.getElem_of_mem hf
    have hj' : j < dets.length := by rw [hlen]; exact hj
    have := hall ((List.zipWith (fun d f => if f (pixel p) = 0 then (none : Val) else some (d.data p * preset / f (pixel p))) dets fs)[j]'(by
      simp [List.length_zipWith]; omega)) (List.getElem_mem _)
    rw [List.getElem_zipWith, if_pos h0] at this
    simp at this

/-- Some detector without a counter of the live time: the task fails. -/
theorem add_missing (isint : Bool) (preset : Rat) (shape : List Nat) (nbytes : Nat) (mb : Rat) (dets : List Det)
    (h : ∃ d ∈ dets, d.live = none ∧ d.outputLive = none ∧ d.events = none) : mcaAdd isint preset shape nbytes mb dets = none := by
  have : allSome (fun d => (liveTime d).map fun lt => (d, lt)) dets = none := by
    rw [allSome_none_iff]
    obtain ⟨d, hd, h1, h2, h3⟩ := h
    exact ⟨d, hd, by rw [live_time_missing d h1 h2 h3]; rfl⟩
  unfold mcaAdd
  cases dets with
  | nil => rfl
  | cons => simp only [this]

/-- **C71**.  The added spectra of the task: with the counters of live time `lt n` of the detectors,
every element is the sum over the detectors of the scan of the corrected counts, each taken as many
times as there are patterns that match its name. -/
theorem pre_add (x : Pre) (names : List Name) (instr : Name → Det) (lt : Name → List Nat → Rat) (shape : List Nat) (nbytes : Nat)
    (mb : Rat) (hadd : x.add = true) (hdt : x.dtcor = true) (hint : x.isint = false) (hc : x.counters = []) (hs : shape ≠ [])
    (hlive : ∀ n ∈ names, LiveCounter (instr n) (lt n)) (hsome : ∃ n ∈ names, 0 < matches' x.patterns n) :
    ∃ a, pre x names instr shape nbytes mb = some [(['m', 'c', 'a'] ++ x.suffix, .mca a)] ∧
      ∀ p, InB p shape → (∀ n ∈ names, lt n (pixel p) ≠ 0) →
        a p = some ((names.map fun n => (matches' x.patterns n : Rat) * ((instr n).data p * x.preset / lt n (pixel p))).sum) := by
  have hsub : ∀ n ∈ matchingNames names x.patterns, n ∈ names := by
    intro n hn
    unfold matchingNames at hn
    rw [List.mem_flatMap] at hn
    obtain ⟨_, _, h⟩ := hn
    exact (List.mem_filter.1 h).1
  have hne : matchingNames names x.patterns ≠ [] := by
    obtain ⟨n, hn, hm⟩ := hsome
    intro h0
    have := matching_count names x.patterns n
    rw [h0, List.count_nil] at this
    have h1 : 0 < names.count n := List.count_pos_iff.2 hn
    have := Nat.mul_pos h1 hm
    omega
  have hf : List.Forall₂ LiveCounter ((matchingNames names x.patterns).map instr) ((matchingNames names x.patterns).map lt) := by
    have : ∀ l : List Name, (∀ n ∈ l, n ∈ names) → List.Forall₂ LiveCounter (l.map instr) (l.map lt) := by
      intro l
      induction l with
      | nil => intro _; exact List.Forall₂.nil
      | cons n l ih =>
        intro h
        exact List.Forall₂.cons (hlive n (h n List.mem_cons_self)) (ih fun m hm => h m (List.mem_cons_of_mem _ hm))
    exact this _ hsub
  obtain ⟨a, ha, hv⟩ := add_spec x.preset shape nbytes mb _ _ hf (by simpa using hne) hs
  refine ⟨a, ?_, ?_⟩
  · unfold pre
    simp only [if_neg hne, hadd, hdt, hint, hc, if_true, ha, addCounters]
  · intro p hp h0
    rw [(hv p hp).1 (by
      intro f hf'
      obtain ⟨n, hn, rfl⟩ := List.mem_map.1 hf'
      exact h0 n (hsub n hn))]
    rw [← matching_sum, List.zipWith_map]
    congr 2
    rw [List.zipWith_self]

/-! ## Every detector apart -/

theorem addNew_get {β : Type} {d e : Dict Name β} {n : Name} {v : β} (h : addNew d n v = some e) (m : Name) :
    d.get? n = none ∧ e.get? m = if n = m then some v else d.get? m := by
  unfold addNew at h
  cases hd : d.get? n with
  | some w => simp [hd] at h
  | none =>
    simp only [hd, Option.some.injEq] at h
    subst h
    exact ⟨rfl, Dict.get?_set ..⟩

theorem dtcorAll_spec (preset : Rat) (shape : List Nat) (nbytes : Nat) (mb : Rat) (suffix : Name) (instr : Name → Det) :
    ∀ (l : List Name) (r e : Dict Name Result), dtcorAll false preset shape nbytes mb suffix instr l r = some e →
      l.Nodup ∧ (∀ n ∈ l, r.get? (n ++ suffix) = none) ∧
      (∀ n ∈ l, ∃ a, mcaDtcor false preset shape nbytes mb (instr n) = some a ∧ e.get? (n ++ suffix) = some (.mca a)) ∧
      ∀ m, (∀ n ∈ l, n ++ suffix ≠ m) → e.get? m = r.get? m
  | [], r, e, h => by
    simp only [dtcorAll, Option.some.injEq] at h
    subst h
    simp
  | n :: l, r, e, h => by
    unfold dtcorAll at h
    cases ha : mcaDtcor false preset shape nbytes mb (instr n) with
    | none => simp [ha] at h
    | some a =>
      simp only [ha] at h
      cases hr : addNew r (n ++ suffix) (.mca a) with
      | none => simp [hr] at h
      | some r' =>
        simp only [hr] at h
        obtain ⟨h1, h2, h3, h4⟩ := dtcorAll_spec preset shape nbytes mb suffix instr l r' e h
        have hget := fun m => addNew_get hr m
        have hnotin : n ∉ l := by
          intro hn
          have := h2 n hn
          rw [(hget _).2, if_pos rfl] at this
          simp at this
        refine ⟨List.nodup_cons.2 ⟨hnotin, h1⟩, ?_, ?_, ?_⟩
        · intro m hm
          rcases List.mem_cons.1 hm with rfl | hm
          · exact (hget []).1
          · have := h2 m hm
            rw [(hget _).2] at this
            split at this
            · simp at this
            · exact this
        · intro m hm
          rcases List.mem_cons.1 hm with rfl | hm
          · refine ⟨a, ha, ?_⟩
            rw [h4 _ (by
              intro k hk he
              have := List.append_cancel_right he
              subst this
              exact hnotin hk), (hget _).2, if_pos rfl]
          · exact h3 m hm
        · intro m hm
          rw [h4 m (fun k hk => hm k (List.mem_cons_of_mem _ hk)), (hget m).2, if_neg (hm n List.mem_cons_self)]

/-- **C71**.  Without adding, every detector is saved under its own name and holds its own counts,
corrected for its own live time. -/
theorem dtcor_spec (x : Pre) (names : List Name) (instr : Name → Det) (lt : Name → List Nat → Rat) (shape : List Nat) (nbytes : Nat)
    (mb : Rat) (r : Dict Name Result) (hadd : x.add = false) (hdt : x.dtcor = true) (hint : x.isint = false) (hc : x.counters = [])
    (hs : shape ≠ []) (hlive : ∀ n ∈ names, LiveCounter (instr n) (lt n)) (h : pre x names instr shape nbytes mb = some r)
    (n : Name) (hn : n ∈ names) (hm : 0 < matches' x.patterns n) :
    ∃ a, r.get? (n ++ x.suffix) = some (.mca a) ∧ ∀ p, InB p shape → lt n (pixel p) ≠ 0 →
      a p = some ((instr n).data p * x.preset / lt n (pixel p)) := by
  have hin : n ∈ matchingNames names x.patterns := by
    have h1 : 0 < names.count n := List.count_pos_iff.2 hn
    rw [← List.count_pos_iff, matching_count]
    exact Nat.mul_pos h1 hm
  unfold pre at h
  simp only [if_neg (List.ne_nil_of_mem hin), hadd, hdt, hint, hc, Bool.false_eq_true, if_false, if_true, addCounters] at h
  cases hd : dtcorAll false x.preset shape nbytes mb x.suffix instr (matchingNames names x.patterns) [] with
  | none => simp [hd] at h
  | some e =>
    simp only [hd, Option.some.injEq] at h
    subst h
    obtain ⟨_, _, h3, _⟩ := dtcorAll_spec _ _ _ _ _ _ _ _ _ hd
    obtain ⟨a, ha, hg⟩ := h3 n hin
    refine ⟨a, hg, ?_⟩
    intro p hp h0
    unfold mcaDtcor at ha
    rw [liveTime_counter (hlive n hn)] at ha
    simp only [Option.map_some, Option.some.injEq] at ha
    subst ha
    rw [fill_spec _ _ _ _ hs p hp, corrected_eq, if_neg h0]
    rfl

theorem dtcorAll_some (isint : Bool) (preset : Rat) (shape : List Nat) (nbytes : Nat) (mb : Rat) (suffix : Name) (instr : Name → Det) :
    ∀ (l : List Name) (r : Dict Name Result), l.Nodup → (∀ n ∈ l, r.get? (n ++ suffix) = none) → (∀ n ∈ l, (liveTime (instr n)).isSome = true) →
      (dtcorAll isint preset shape nbytes mb suffix instr l r).isSome = true
  | [], _, _, _, _ => rfl
  | n :: l, r, h1, h2, h3 => by
    unfold dtcorAll mcaDtcor
    obtain ⟨lt, hlt⟩ := Option.isSome_iff_exists.1 (h3 n List.mem_cons_self)
    simp only [hlt, Option.map_some]
    have h1' := List.nodup_cons.1 h1
    unfold addNew
    simp only [h2 n List.mem_cons_self]
    apply dtcorAll_some isint preset shape nbytes mb suffix instr l _ h1'.2
    · intro m hm
      rw [Dict.get?_set, if_neg, h2 m (List.mem_cons_of_mem _ hm)]
      intro he
      have := List.append_cancel_right he
      subst this
      exact h1'.1 hm
    · intro m hm
      exact h3 m (List.mem_cons_of_mem _ hm)

/-- **C71**.  The task succeeds when every detector is matched at most once and has a live time. -/
theorem dtcor_succeeds (x : Pre) (names : List Name) (instr : Name → Det) (lt : Name → List Nat → Rat) (shape : List Nat) (nbytes : Nat)
    (mb : Rat) (hadd : x.add = false) (hdt : x.dtcor = true) (hc : x.counters = []) (hnd : names.Nodup)
    (hlive : ∀ n ∈ names, LiveCounter (instr n) (lt n)) (hm : ∀ n ∈ names, matches' x.patterns n ≤ 1)
    (hsome : ∃ n ∈ names, matches' x.patterns n = 1) : (pre x names instr shape nbytes mb).isSome = true := by
  have hmem : ∀ n ∈ matchingNames names x.patterns, n ∈ names := by
    intro n hn
    unfold matchingNames at hn
    rw [List.mem_flatMap] at hn
    obtain ⟨_, _, h⟩ := hn
    exact (List.mem_filter.1 h).1
  have hn2 : (matchingNames names x.patterns).Nodup := by
    rw [List.nodup_iff_count_le_one]
    intro n
    rw [matching_count]
    by_cases hn : n ∈ names
    · rw [List.count_eq_one_of_mem hnd hn, Nat.one_mul]; exact hm n hn
    · rw [List.count_eq_zero.2 hn]; omega
  have hne : matchingNames names x.patterns ≠ [] := by
    obtain ⟨n, hn, h1⟩ := hsome
    intro h0
    have := matching_count names x.patterns n
    rw [h0, List.count_nil, List.count_eq_one_of_mem hnd hn, h1] at this
    omega
  have h := dtcorAll_some x.isint x.preset shape nbytes mb x.suffix instr (matchingNames names x.patterns) [] hn2
    (fun _ _ => rfl) (fun n hn => by rw [liveTime_counter (hlive n (hmem n hn))]; rfl)
  unfold pre
  simp only [if_neg hne, hadd, hdt, hc, Bool.false_eq_true, if_false, if_true, addCounters]
  cases hd : dtcorAll x.isint x.preset shape nbytes mb x.suffix instr (matchingNames names x.patterns) [] with
  | none => rw [hd] at h; simp at h
  | some e => rfl

/-- **C71**.  A detector that is matched by two patterns: the task fails when detectors are kept apart
(when they are added, the detector is counted twice: `pre_add`). -/
theorem dtcor_overlap (x : Pre) (names : List Name) (instr : Name → Det) (shape : List Nat) (nbytes : Nat) (mb : Rat)
    (hadd : x.add = false) (hdt : x.dtcor = true) (hint : x.isint = false) (n : Name) (hn : n ∈ names) (hm : 2 ≤ matches' x.patterns n) :
    pre x names instr shape nbytes mb = none := by
  have h2 : 2 ≤ (matchingNames names x.patterns).count n := by
    rw [matching_count]
    have h1 : 1 ≤ names.count n := List.count_pos_iff.2 hn
    calc 2 ≤ matches' x.patterns n := hm
      _ = 1 * matches' x.patterns n := by omega
      _ ≤ _ := Nat.mul_le_mul_right _ h1
  have hin : n ∈ matchingNames names x.patterns := List.count_pos_iff.1 (by omega)
  unfold pre
  simp only [if_neg (List.ne_nil_of_mem hin), hadd, hdt, hint, Bool.false_eq_true, if_false, if_true]
  cases hd : dtcorAll false x.preset shape nbytes mb x.suffix instr (matchingNames names x.patterns) [] with
  | none => rfl
  | some e =>
    have := (dtcorAll_spec _ _ _ _ _ _ _ _ _ hd).1
    have := List.nodup_iff_count_le_one.1 this n
    omega

/-- **Deviation**: without correction only one detector can be used: all are linked under one name. -/
theorem link_two (suffix : Name) (instr : Name → Det) (n m : Name) (l : List Name) (r : Dict Name Result) :
    linkAll suffix instr (n :: m :: l) r = none := by
  unfold linkAll
  cases hr : addNew r (['m', 'c', 'a'] ++ suffix) (.mca fun p => some ((instr n).data p)) with
  | none => rfl
  | some r' =>
    simp only
    unfold linkAll
    have h := (addNew_get hr (['m', 'c', 'a'] ++ suffix)).2
    rw [if_pos rfl] at h
    have : addNew r' (['m', 'c', 'a'] ++ suffix) (.mca fun p => some ((instr m).data p)) = none := by
      unfold addNew; rw [h]
    rw [this]

/-- **Deviation**: spectra of integers and an integer preset time give a data set of integers, which
loses the decimals of the corrected counts: 5 counts in 3/4 of a second become 6 instead of 20/3. -/
theorem dtcor_truncates : ∃ (d : Det) (f : List Nat → Rat), LiveCounter d f ∧
    (mcaDtcor true 1 [1, 1] 4 100 d).map (fun a => a [0, 0]) = some (some 6) ∧
    d.data [0, 0] * 1 / f (pixel [0, 0]) = 20 / 3 := by
  refine ⟨⟨fun _ => 5, some fun _ => 3 / 4, none, none, none⟩, fun _ => 3 / 4, Or.inl rfl, ?_, ?_⟩
  · unfold mcaDtcor
    rw [Option.map_map]
    simp only [liveTime, Option.map_some, Function.comp, Option.some.injEq]
    rw [fill_spec _ _ _ _ (by simp) _ (by simp [InB])]
    decide +kernel
  · norm_num

/-! ## Counters -/

/-- **C71**.  Counters are saved under the last part of their name, each once, beside the detectors. -/
theorem addCounters_spec : ∀ (l : List Name) (r e : Dict Name Result), addCounters l r = some e →
    (∀ n ∈ l, ∃ k, counterName n = some k ∧ r.get? k = none ∧ e.get? k = some (.counter n)) ∧
    (l.map counterName).Nodup ∧
    ∀ m, (∀ n ∈ l, counterName n ≠ some m) → e.get? m = r.get? m
  | [], r, e, h => by
    simp only [addCounters, Option.some.injEq] at h
    subst h
    simp
  | n :: l, r, e, h => by
    unfold addCounters at h
    cases hk : counterName n with
    | none => simp [hk] at h
    | some k =>
      simp only [hk] at h
      cases hr : addNew r k (.counter n) with
      | none => simp [hr] at h
      | some r' =>
        simp only [hr] at h
        obtain ⟨h1, h2, h3⟩ := addCounters_spec l r' e h
        have hget := fun m => addNew_get hr m
        have hk' : ∀ m ∈ l, counterName m ≠ some k := by
          intro m hm he
          obtain ⟨k', hk', hn, _⟩ := h1 m hm
          rw [he, Option.some.injEq] at hk'
          subst hk'
          rw [(hget _).2, if_pos rfl] at hn
          simp at hn
        refine ⟨?_, ?_, ?_⟩
        · intro m hm
          rcases List.mem_cons.1 hm with rfl | hm
          · refine ⟨k, hk, (hget []).1, ?_⟩
            rw [h3 k hk', (hget k).2, if_pos rfl]
          · obtain ⟨k', hk'', hn, hv⟩ := h1 m hm
            refine ⟨k', hk'', ?_, hv⟩
            rw [(hget _).2] at hn
            split at hn
            · simp at hn
            · exact hn
        · rw [List.map_cons, List.nodup_cons]
          refine ⟨?_, h2⟩
          rw [hk, List.mem_map]
          rintro ⟨m, hm, he⟩
          exact hk' m hm he
        · intro m hm
          rw [h3 m (fun j hj => hm j (List.mem_cons_of_mem _ hj)), (hget m).2, if_neg]
          rintro rfl
          exact hm n List.mem_cons_self hk

/-- **C71**.  Two counters with the same last part make the task fail. -/
theorem counters_clash (l : List Name) (r : Dict Name Result) (h : ¬ (l.map counterName).Nodup) : addCounters l r = none := by
  cases he : addCounters l r with
  | none => rfl
  | some e => exact absurd (addCounters_spec l r e he).2.1 h

/-! ## Concrete cases -/

-- splitting of names
example : counterName ['a', '/', 'b'] = some ['b'] ∧ counterName ['i', 't'] = some ['i', 't'] ∧ counterName ['a', '/', 'b', '/', 'c'] = none := by decide

/-- Two detectors. -/
def det0 : Det := ⟨fun _ => 3, some fun _ => 1 / 2, none, none, none⟩
/-- Only the second kind of live time. -/
def det1 : Det := ⟨fun p => (p.getD 1 0 : Nat), none, some fun p => (p.getD 0 0 : Nat) + 1, none, none⟩

def pre0 : Pre := ⟨[fun n => decide (n = ['a']), fun n => decide (n.length = 1)], 2, true, true, ['c'], [], false⟩
def instr0 : Name → Det := fun n => if n = ['a'] then det0 else det1
def lt0 : Name → List Nat → Rat := fun n p => if n = ['a'] then 1 / 2 else (p.getD 0 0 : Nat) + 1

-- the hypotheses of `pre_add`: detector "a" is matched by two patterns
example : (∀ n ∈ [['a'], ['b']], LiveCounter (instr0 n) (lt0 n)) ∧ matches' pre0.patterns ['a'] = 2 ∧ matches' pre0.patterns ['b'] = 1 := by
  refine ⟨?_, by decide, by decide⟩
  intro n hn
  rcases List.mem_cons.1 hn with rfl | hn
  · exact Or.inl rfl
  · rcases List.mem_cons.1 hn with rfl | hn
    · exact Or.inr ⟨rfl, rfl⟩
    · simp at hn
-- 3 * 2 / (1/2) twice, and 4 * 2 / 2
example : (mcaAdd false 2 [2, 5] 8 100 [det0, det0, det1]).map (fun a => a [1, 4]) = some (some 28) := by decide +kernel
-- two pixels: a loop over pixels
example : (mcaAdd false 2 [2, 5] 8 (1 / 20000) [det0, det1]).map (fun a => a [1, 4]) = some (some 16) ∧
    (slices [2, 5] 8 (1 / 20000)).length = 2 := by decide +kernel

end SC.Bliss
