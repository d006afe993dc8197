import Verif.Bliss.Lemmas
import Mathlib.Tactic.NormNum
/-! # C71: results of the fits of Bliss scans are added per pixel -/
namespace SC.Bliss
open SC.Py

/-! ## Configurations -/

/-- **C71**.  No configuration: nothing is fitted.  One configuration is used for all detectors, several
are used in order, one for each detector; any other number is refused. -/
theorem pairConfigs_spec {κ : Type} (cfgs : List κ) (dets : List Name) (r : List (Option κ × Name)) (h : pairConfigs cfgs dets = some r) :
    dets ≠ [] ∧ r.map Prod.snd = dets ∧ (cfgs = [] ∨ cfgs.length = 1 ∨ cfgs.length = dets.length) ∧
    ∀ (i : Nat) (c : Option κ) (d : Name), r[i]? = some (c, d) → c = if cfgs.length = 1 then cfgs[0]? else cfgs[i]? := by
  unfold pairConfigs at h
  by_cases hd : dets = []
  · simp [hd] at h
  rw [if_neg hd] at h
  refine ⟨hd, ?_⟩
  match cfgs, h with
  | [], h =>
    simp only [Option.some.injEq] at h
    subst h
    refine ⟨by simp [Function.comp_def], Or.inl rfl, ?_⟩
    intro i c d hi
    rw [List.getElem?_map] at hi
    cases hx : dets[i]? with
    | none => simp [hx] at hi
    | some x => simp only [hx, Option.map_some, Option.some.injEq, Prod.mk.injEq] at hi; simp [← hi.1]
  | [a], h =>
    simp only [Option.some.injEq] at h
    subst h
    refine ⟨by simp [Function.comp_def], Or.inr (Or.inl rfl), ?_⟩
    intro i c d hi
    rw [List.getElem?_map] at hi
    cases hx : dets[i]? with
    | none => simp [hx] at hi
    | some x => simp only [hx, Option.map_some, Option.some.injEq, Prod.mk.injEq] at hi; simp [← hi.1]
  | a :: b :: l, h =>
    simp only at h
    by_cases hl : (a :: b :: l).length = dets.length
    · rw [if_pos hl, Option.some.injEq] at h
      subst h
      refine ⟨List.map_snd_zip (by simp at hl ⊢; omega), Or.inr (Or.inr hl), ?_⟩
      intro i c d hi
      rw [if_neg (by simp)]
      rw [List.getElem?_zip_eq_some] at hi
      have := hi.1
      rw [List.getElem?_map] at this
      cases hx : (a :: b :: l)[i]? with
      | none => simp [hx] at this
      | some y => simp only [hx, Option.map_some, Option.some.injEq] at this; exact this.symm
    · rw [if_neg hl] at h
      simp at h

example : pairConfigs [1, 2] [['a'], ['b']] = some [(some 1, ['a']), (some 2, ['b'])] ∧ pairConfigs [1, 2] [['a'], ['b'], ['c']] = none ∧
    pairConfigs [1] [['a'], ['b']] = some [(some 1, ['a']), (some 1, ['b'])] := by decide

/-! ## Adding the results -/

/-- Adding one signal to another. -/
def step (v : List Val) (o : Option (List Val)) : List Val :=
  o.elim v fun w => if v.length = w.length then List.zipWith add v w else v

theorem step_length (v : List Val) (o : Option (List Val)) : (step v o).length = v.length := by
  cases o with
  | none => rfl
  | some w =>
    simp only [step, Option.elim_some]
    split
    · next h => simp [h]
    · rfl

theorem addSignal_get (out : Signals) (e : Name × List Val) (s : Name) :
    (addSignal out e).get? s = (out.get? s).map fun v => step v (if e.1 = s then some e.2 else none) := by
  unfold addSignal
  cases ho : out.get? e.1 with
  | none =>
    simp only
    by_cases hs : e.1 = s
    · rw [← hs, ho]; rfl
    · simp only [if_neg hs, step, Option.elim_none, Option.map_id']
  | some v =>
    simp only
    by_cases hs : e.1 = s
    · subst hs
      rw [ho, if_pos rfl]
      simp only [Option.map_some, step, Option.elim_some]
      by_cases hl : v.length = e.2.length
      · rw [if_pos hl, if_pos hl, Dict.get?_set, if_pos rfl]
      · rw [if_neg hl, if_neg hl, ho]
    · simp only [if_neg hs, step, Option.elim_none, Option.map_id']
      by_cases hl : v.length = e.2.length
      · rw [if_pos hl, Dict.get?_set, if_neg hs]
      · rw [if_neg hl]

theorem addSignals_get : ∀ (sig : Signals) (cur : Signals) (s : Name), Dict.WF sig →
    (sig.foldl addSignal cur).get? s = (cur.get? s).map fun v => step v (sig.get? s)
  | [], cur, s, _ => by simp [Dict.get?, step]
  | e :: sig, cur, s, h => by
    have h' : e.1 ∉ Dict.keys sig ∧ Dict.WF sig := List.nodup_cons.1 h
    rw [List.foldl_cons, addSignals_get sig _ s h'.2, addSignal_get, Option.map_map]
    congr 1
    funext v
    simp only [Function.comp, Dict.get?]
    by_cases hs : e.1 = s
    · have hn : Dict.get? sig s = none := by
        rw [Dict.get?_none, ← hs]; exact h'.1
      rw [if_pos hs, hn, if_pos hs]
      rfl
    · rw [if_neg hs, if_neg hs]
      rfl

theorem addDetector_other (det : Fitted) (k : Name) : ∀ (nx : List Name) (out : Fitted), k ∉ nx →
    (addDetector nx out det).get? k = out.get? k
  | [], out, _ => rfl
  | x :: nx, out, h => by
    have hx : k ≠ x := fun e => h (e ▸ List.mem_cons_self)
    have hn : k ∉ nx := fun e => h (List.mem_cons_of_mem _ e)
    have ih := addDetector_other det k nx
    unfold addDetector at ih ⊢
    rw [List.foldl_cons, ih _ hn]
    cases hd : det.get? x with
    | none => simp
    | some sig =>
      cases ho : out.get? x with
      | none => simp
      | some cur => simp [Dict.get?_set, hx.symm]

theorem addDetector_get (det : Fitted) (hok : ∀ k d, det.get? k = some d → Dict.WF d) (k s : Name) :
    ∀ (nx : List Name) (out : Fitted), nx.Nodup → k ∈ nx →
      signal (addDetector nx out det) k s = (signal out k s).map fun v => step v (signal det k s)
  | [], _, _, h => by simp at h
  | x :: nx, out, hnd, hk => by
    have hnd' := List.nodup_cons.1 hnd
    by_cases hx : x = k
    · subst hx
      have hother := addDetector_other det x nx
      have e : addDetector (x :: nx) out det = addDetector nx (addDetector [x] out det) det := rfl
      rw [e]
      unfold signal
      rw [hother _ hnd'.1]
      unfold addDetector
      rw [List.foldl_cons, List.foldl_nil]
      cases hd : det.get? x with
      | none =>
        have : (fun v => step v (Option.bind (none : Option Signals) fun d => d.get? s)) = id := by funext v; rfl
        simp only [Option.bind_none] at this ⊢
        rw [this, Option.map_id]
        rfl
      | some sig =>
        cases ho : out.get? x with
        | none => simp [ho]
        | some cur =>
          simp only [Dict.get?_set, if_true, Option.bind_some]
          rw [addSignals_get sig cur s (hok x sig hd)]
    · have hk' : k ∈ nx := by
        rcases List.mem_cons.1 hk with e | e
        · exact absurd e.symm hx
        · exact e
      have e : addDetector (x :: nx) out det = addDetector nx (addDetector [x] out det) det := rfl
      rw [e, addDetector_get det hok k s nx _ hnd'.2 hk']
      have : signal (addDetector [x] out det) k s = signal out k s := by
        unfold signal
        rw [addDetector_other det k [x] out (by simpa using fun e => hx e.symm)]
      rw [this]

theorem fold_get (nx : List Name) (hnd : nx.Nodup) (k s : Name) (hk : k ∈ nx) : ∀ (ds : List Fitted) (out : Fitted),
    (∀ f ∈ ds, ∀ k d, f.get? k = some d → Dict.WF d) →
    signal (ds.foldl (addDetector nx) out) k s = (signal out k s).map fun v => ds.foldl (fun v f => step v (signal f k s)) v
  | [], out, _ => by simp
  | d :: ds, out, h => by
    rw [List.foldl_cons, fold_get nx hnd k s hk ds _ (fun f hf => h f (List.mem_cons_of_mem _ hf)),
      addDetector_get d (h d List.mem_cons_self) k s nx out hnd hk, Option.map_map]
    rfl

theorem copyFirst_get (det : Fitted) (k : Name) : ∀ (nx : List Name), k ∈ nx → (copyFirst nx det).get? k = det.get? k
  | [], h => by simp at h
  | x :: nx, h => by
    unfold copyFirst
    rw [List.filterMap_cons]
    by_cases hx : x = k
    · subst hx
      cases hd : det.get? x with
      | none =>
        simp only [Option.map_none]
        by_cases hk : x ∈ nx
        · have := copyFirst_get det x nx hk
          unfold copyFirst at this
          rw [this, hd]
        · rw [Dict.get?_none]
          intro hc
          unfold Dict.keys at hc
          rw [List.mem_map] at hc
          obtain ⟨e, he, heq⟩ := hc
          rw [List.mem_filterMap] at he
          obtain ⟨y, hy, hy2⟩ := he
          cases hdy : det.get? y with
          | none => simp [hdy] at hy2
          | some q =>
            simp only [hdy, Option.map_some, Option.some.injEq] at hy2
            subst hy2
            subst heq
            exact hk hy
      | some sig => simp [Dict.get?]
    · have hk' : k ∈ nx := by
        rcases List.mem_cons.1 h with e | e
        · exact absurd e.symm hx
        · exact e
      have ih := copyFirst_get det k nx hk'
      unfold copyFirst at ih
      cases hd : det.get? x with
      | none => simpa using ih
      | some sig => simp only [Option.map_some, Dict.get?, if_neg hx]; exact ih

theorem steps_get (k s : Name) : ∀ (ds : List Fitted) (v : List Val) (j : Nat) (x : Val), v[j]? = some x →
    (ds.foldl (fun v f => step v (signal f k s)) v).length = v.length ∧
    (ds.foldl (fun v f => step v (signal f k s)) v)[j]? = some (total (x :: contributions ds k s v.length j))
  | [], v, j, x, h => by
    refine ⟨rfl, ?_⟩
    rw [List.foldl_nil, h]
    congr 1
    have := foldl_add_total [] x
    simpa [contributions] using this
  | d :: ds, v, j, x, h => by
    rw [List.foldl_cons]
    have hj : j < v.length := by
      rw [List.getElem?_eq_some_iff] at h; exact h.1
    -- the value after this detector
    have key : ∃ y, (step v (signal d k s))[j]? = some y ∧ total (y :: contributions ds k s v.length j) =
        total (x :: contributions (d :: ds) k s v.length j) := by
      cases hs : signal d k s with
      | none =>
        refine ⟨x, h, ?_⟩
        simp [contributions, hs]
      | some w =>
        by_cases hl : v.length = w.length
        · have hw : j < w.length := by omega
          refine ⟨add x w[j], ?_, ?_⟩
          · simp only [step, Option.elim_some, if_pos hl]
            rw [List.getElem?_zipWith, h, List.getElem?_eq_getElem hw]
          · rw [← foldl_add_total, ← foldl_add_total]
            have : contributions (d :: ds) k s v.length j = w[j] :: contributions ds k s v.length j := by
              unfold contributions
              rw [List.filterMap_cons, hs]
              simp [Option.filter, hl, List.getElem?_eq_getElem hw]
            rw [this, List.foldl_cons]
        · refine ⟨x, ?_, ?_⟩
          · simp only [step, Option.elim_some, if_neg hl, h]
          · have : contributions (d :: ds) k s v.length j = contributions ds k s v.length j := by
              unfold contributions
              rw [List.filterMap_cons, hs]
              have : ¬ w.length = v.length := fun e => hl e.symm
              simp [Option.filter, this]
            rw [this]
    obtain ⟨y, hy, ht⟩ := key
    obtain ⟨h1, h2⟩ := steps_get k s ds _ j y hy
    rw [step_length] at h1 h2
    exact ⟨h1, by rw [h2, ht]⟩

theorem signal_withCounters (counters : Signals) (f : Fitted) (k s : Name) (hk : k ≠ kCounters) :
    signal (withCounters counters f) k s = signal f k s := by
  unfold withCounters signal
  split
  · rfl
  · rw [Dict.get?_set, if_neg hk.symm]

theorem signal_counters (counters : Signals) (f : Fitted) (s : Name) (hc : counters ≠ []) :
    signal (withCounters counters f) kCounters s = counters.get? s := by
  unfold withCounters signal
  rw [if_neg hc, Dict.get?_set, if_pos rfl]
  rfl

theorem ok_withCounters (counters : Signals) (hcw : Dict.WF counters) (f : Fitted) (h : ∀ k d, f.get? k = some d → Dict.WF d) :
    ∀ k d, (withCounters counters f).get? k = some d → Dict.WF d := by
  intro k d hd
  unfold withCounters at hd
  split at hd
  · exact h k d hd
  · rw [Dict.get?_set] at hd
    split at hd
    · simp only [Option.some.injEq] at hd; exact hd ▸ hcw
    · exact h k d hd

theorem saved_signal (counters : Signals) (f : Fitted) (fs : List Fitted) (hcw : Dict.WF counters) (hok : ∀ g ∈ f :: fs, Fitted.OK g)
    (k s : Name) (hk : k ∈ [kParameters, kMassfractions] ++ (if counters = [] then [] else [kCounters])) :
    signal (saved counters (f :: fs)) k s = (signal (withCounters counters f) k s).map fun v =>
      (fs.map (withCounters counters)).foldl (fun v f => step v (signal f k s)) v := by
  unfold saved
  simp only [List.map_cons]
  have hnd : ([kParameters, kMassfractions] ++ (if counters = [] then [] else [kCounters])).Nodup := by
    split <;> decide
  rw [fold_get _ hnd k s hk]
  · congr 1
    unfold signal
    rw [copyFirst_get _ _ _ hk]
  · intro g hg
    obtain ⟨g', hg', rfl⟩ := List.mem_map.1 hg
    exact ok_withCounters counters hcw g' (hok g' (List.mem_cons_of_mem _ hg')).2

theorem contributions_withCounters (counters : Signals) (k s : Name) (hk : k ≠ kCounters) (n j : Nat) (fs : List Fitted) :
    contributions (fs.map (withCounters counters)) k s n j = contributions fs k s n j := by
  unfold contributions
  rw [List.filterMap_map]
  congr 1
  funext f
  simp only [Function.comp, signal_withCounters counters f k s hk]

/-- **C71**.  A signal of the fit, saved for the scan: every value is the sum of that value over the
detectors which have this signal (with the same shape). -/
theorem saved_sum (counters : Signals) (f : Fitted) (fs : List Fitted) (hcw : Dict.WF counters) (hok : ∀ g ∈ f :: fs, Fitted.OK g)
    (k s : Name) (hk : k = kParameters ∨ k = kMassfractions) (v : List Val) (hv : signal f k s = some v) :
    ∃ w, signal (saved counters (f :: fs)) k s = some w ∧ w.length = v.length ∧
      ∀ j x, v[j]? = some x → w[j]? = some (total (x :: contributions fs k s v.length j)) := by
  have hkc : k ≠ kCounters := by rcases hk with rfl | rfl <;> decide
  have hmem : k ∈ [kParameters, kMassfractions] ++ (if counters = [] then [] else [kCounters]) := by
    rcases hk with rfl | rfl <;> simp
  rw [saved_signal counters f fs hcw hok k s hmem, signal_withCounters _ _ _ _ hkc, hv]
  refine ⟨_, rfl, ?_, ?_⟩
  · have : ∀ (l : List Fitted) (v : List Val), (l.foldl (fun v f => step v (signal f k s)) v).length = v.length := by
      intro l
      induction l with
      | nil => intro v; rfl
      | cons d l ih => intro v; rw [List.foldl_cons, ih, step_length]
    exact this _ _
  · intro j x hx
    rw [(steps_get k s _ v j x hx).2, contributions_withCounters counters k s hkc]

/-- **Deviation**: a signal that the first detector does not have is lost, whatever the others found. -/
theorem saved_lost (counters : Signals) (f : Fitted) (fs : List Fitted) (hcw : Dict.WF counters) (hok : ∀ g ∈ f :: fs, Fitted.OK g)
    (k s : Name) (hk : k = kParameters ∨ k = kMassfractions) (hv : signal f k s = none) : signal (saved counters (f :: fs)) k s = none := by
  have hkc : k ≠ kCounters := by rcases hk with rfl | rfl <;> decide
  have hmem : k ∈ [kParameters, kMassfractions] ++ (if counters = [] then [] else [kCounters]) := by
    rcases hk with rfl | rfl <;> simp
  rw [saved_signal counters f fs hcw hok k s hmem, signal_withCounters _ _ _ _ hkc, hv]
  rfl

theorem contributions_counters (counters : Signals) (hc : counters ≠ []) (s : Name) (v : List Val) (hv : counters.get? s = some v) (j : Nat) (q : Val)
    (hq : v[j]? = some q) : ∀ fs : List Fitted, contributions (fs.map (withCounters counters)) kCounters s v.length j = List.replicate fs.length q
  | [] => rfl
  | f :: fs => by
    have ih := contributions_counters counters hc s v hv j q hq fs
    unfold contributions at ih ⊢
    rw [List.map_cons, List.filterMap_cons, signal_counters counters f s hc, hv]
    have e1 : ((some v).filter fun w => decide (w.length = v.length)).bind (fun w => w[j]?) = some q := by simp [Option.filter, hq]
    simp only [e1, List.length_cons, List.replicate_succ, ih]

/-- **Deviation**: the counters of the scan are added to the results of every detector, and then the
results of the detectors are added: the saved counter is the counter times the number of detectors. -/
theorem saved_counters (counters : Signals) (f : Fitted) (fs : List Fitted) (hcw : Dict.WF counters) (hok : ∀ g ∈ f :: fs, Fitted.OK g)
    (s : Name) (v : List Val) (hv : counters.get? s = some v) (j : Nat) (q : Rat) (hq : v[j]? = some (some q)) :
    ∃ w, signal (saved counters (f :: fs)) kCounters s = some w ∧ w[j]? = some (some (((f :: fs).length : Rat) * q)) := by
  have hc : counters ≠ [] := by rintro rfl; simp [Dict.get?] at hv
  have hmem : kCounters ∈ [kParameters, kMassfractions] ++ (if counters = [] then [] else [kCounters]) := by
    rw [if_neg hc]; simp
  rw [saved_signal counters f fs hcw hok _ s hmem, signal_counters _ _ _ hc, hv]
  refine ⟨_, rfl, ?_⟩
  rw [(steps_get kCounters s _ v j _ hq).2, contributions_counters counters hc s v hv j _ hq fs]
  have : some q :: List.replicate fs.length (some q) = (List.replicate (fs.length + 1) q).map some := by
    rw [List.map_replicate, List.replicate_succ]
  rw [this, total_some]
  simp

/-- **C71**.  With one detector the counters are saved as they are. -/
theorem saved_counters_one (counters : Signals) (f : Fitted) (hcw : Dict.WF counters) (hok : Fitted.OK f) (s : Name) (v : List Val)
    (hv : counters.get? s = some v) : signal (saved counters [f]) kCounters s = some v := by
  have hc : counters ≠ [] := by rintro rfl; simp [Dict.get?] at hv
  have hmem : kCounters ∈ [kParameters, kMassfractions] ++ (if counters = [] then [] else [kCounters]) := by
    rw [if_neg hc]; simp
  rw [saved_signal counters f [] hcw (by simpa using hok) _ s hmem, signal_counters _ _ _ hc, hv]
  rfl

/-! ## Concrete cases -/

/-- Two detectors: Fe in both, Cu in the second. -/
def fit0 : Fitted := [(kParameters, [(['F', 'e'], [some 1, some 2])])]
def fit1 : Fitted := [(kParameters, [(['F', 'e'], [some 10, none]), (['C', 'u'], [some 5, some 5])])]
def iodet : Signals := [(['i', 't'], [some 100, some 200])]

example : Dict.WF iodet ∧ Dict.WF fit0 ∧ Dict.WF fit1 := by unfold Dict.WF; decide
example : signal (saved iodet [fit0, fit1]) kParameters ['F', 'e'] = some [some 11, none] := by decide +kernel
example : signal (saved iodet [fit0, fit1]) kParameters ['C', 'u'] = none := by decide +kernel
example : signal (saved iodet [fit0, fit1]) kCounters ['i', 't'] = some [some 200, some 400] := by decide +kernel

end SC.Bliss
