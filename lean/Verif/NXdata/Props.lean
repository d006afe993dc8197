import Verif.NXdata.Model
import Mathlib.Tactic.ByContra
import Mathlib.Tactic.Tauto
/-! # C23: signal bookkeeping of NXdata -/
namespace SC.NXdata
open SC.Common

/-! ## specification -/

/-- What a history means, without attributes: the datasets of the group and the signals among them. -/
structure Abs where
  dsets : List Str
  live : List Str

/-- Adding succeeds iff the dataset is to be created and is not there, or is to be taken and is
there; removing removes both. -/
def Abs.step (a : Abs) : Op → Abs
  | .add name create =>
    if create = decide (name ∉ a.dsets) then ⟨name :: a.dsets, name :: a.live⟩ else a
  | .remove name => ⟨a.dsets.filter (fun s => decide (s ≠ name)), a.live.filter (fun s => decide (s ≠ name))⟩
  | .default _ => a
  | .sort _ => a

def Abs.run (a : Abs) (ops : List Op) : Abs := ops.foldl Abs.step a

/-- The two uses the code does not handle: adding a signal again without creating it, and removing
the only signal. -/
def Proper (a : Abs) : Op → Prop
  | .add name create => create = false → name ∈ a.dsets → name ∉ a.live
  | .remove name => name ∈ a.live → ∃ m ∈ a.live, m ≠ name
  | .default _ => True
  | .sort _ => True

/-- ... nowhere in a history. -/
def ProperAll : Abs → List Op → Prop
  | _, [] => True
  | a, op :: ops => Proper a op ∧ ProperAll (a.step op) ops

/-! ## lemmas -/

/-- what always holds of the attributes -/
structure Inv (st : St) : Prop where
  ne : st.aux ≠ some []
  sig : st.aux ≠ none → st.signal ≠ none

theorem inv_fresh (d : List Str) : Inv (fresh d) := ⟨by simp [fresh], by simp [fresh]⟩

theorem names_addAttrs {st : St} (hi : Inv st) (name : Str) :
    names (addAttrs st name) = name :: (st.aux.getD [] ++ st.signal.toList) := by
  unfold names addAttrs
  by_cases h : st.aux.getD [] ++ st.signal.toList = []
  · simp only [h, if_true, Option.toList_some]
    have : st.aux.getD [] = [] := (List.append_eq_nil_iff.1 h).1
    simp [this]
  · simp [h]

theorem inv_addAttrs {st : St} (hi : Inv st) (name : Str) : Inv (addAttrs st name) := by
  unfold addAttrs
  refine ⟨?_, by simp⟩
  simp only
  split
  · exact hi.ne
  · intro h; simp only [Option.some.injEq] at h; contradiction

theorem default_spec_aux {st : St} (hi : Inv st) (name : Str) :
    Inv (defaultSignal st name).1 ∧ (defaultSignal st name).1.dsets = st.dsets ∧
      (defaultSignal st name).2 = decide (name ∈ names st) ∧
      names (defaultSignal st name).1 = if name ∈ names st then
        (if st.signal = some name then names st
         else name :: (names st).filter (fun s => !decide (s = name))) else names st := by
  unfold defaultSignal
  by_cases h1 : st.signal = some name
  · have hm : name ∈ names st := by simp [names, h1]
    simp only [h1, if_true, hm, decide_true, and_self, and_true]
    exact hi
  · simp only [h1, if_false]
    by_cases h2 : name ∈ names st
    · have h2' : name ∈ st.signal.toList ++ st.aux.getD [] := h2
      have hs : st.signal ≠ none := by
        intro hn
        have : st.aux = none := by
          by_contra ha; exact hi.sig ha hn
        simp [names, hn, this] at h2
      obtain ⟨s, hs⟩ := Option.ne_none_iff_exists'.1 hs
      have hne : (st.signal.toList ++ st.aux.getD []).filter (fun s => !decide (s = name)) ≠ [] := by
        have hsn : s ≠ name := fun h => h1 (by rw [hs, h])
        simp [hs, hsn]
      simp only [h2', not_true_eq_false, if_false, hne, h2, if_true, decide_true, true_and]
      refine ⟨⟨?_, by simp⟩, ?_⟩
      · simp only [ne_eq, Option.some.injEq]; exact hne
      · simp [names]
    · have h2' : name ∉ st.signal.toList ++ st.aux.getD [] := h2
      simp only [h2', not_false_eq_true, if_true, h2, if_false, decide_false, true_and, and_true]
      exact hi

theorem remove_spec_aux {st : St} (hi : Inv st) (name : Str) :
    ∃ st', removeSignal st name = some st' ∧ Inv st' ∧
      st'.dsets = st.dsets.filter (fun s => !decide (s = name)) ∧
      (st.aux = none → names st' = names st) ∧
      (st.aux ≠ none → st.signal = some name → (names st').Perm (st.aux.getD []) ) ∧
      (st.aux ≠ none → st.signal ≠ some name → names st' = (names st).filter (fun s => !decide (s = name))) := by
  unfold removeSignal
  simp only
  cases ha : st.aux with
  | none =>
    simp only [Option.some.injEq, exists_eq_left']
    refine ⟨⟨by simp, by simp⟩, trivial, fun _ => by simp [names, ha], by simp, by simp⟩
  | some l =>
    have hl : l ≠ [] := by rintro rfl; exact hi.ne ha
    obtain ⟨s, hs⟩ := Option.ne_none_iff_exists'.1 (hi.sig (by simp [ha]))
    obtain ⟨last, hlast⟩ : ∃ x, l.getLast? = some x := ⟨_, List.getLast?_eq_getLast_of_ne_nil hl⟩
    have hdl : l.dropLast ++ [last] = l := by
      rw [List.getLast?_eq_getLast_of_ne_nil hl, Option.some.injEq] at hlast
      rw [← hlast]; exact List.dropLast_append_getLast hl
    simp only [hs]
    by_cases hsn : s = name
    · subst hsn
      simp only [if_true, hlast, Option.some.injEq, exists_eq_left']
      refine ⟨⟨?_, by simp⟩, trivial, by simp, fun _ _ => ?_, by simp⟩
      · simp only; split
        · simp
        · rename_i h; simpa using h
      · have hn : (if l.dropLast = [] then none else some l.dropLast : Option (List Str)).getD [] = l.dropLast := by
          split
          · rename_i h; rw [h]; rfl
          · rfl
        simp only [names, hn, Option.getD_some, Option.toList_some]
        conv_rhs => rw [← hdl]
        exact (List.perm_append_comm).symm.trans (List.Perm.refl _) |>.symm.symm
    · simp only [hsn, if_false, Option.some.injEq, exists_eq_left']
      refine ⟨⟨?_, by simp⟩, trivial, by simp, by simp, fun _ _ => ?_⟩
      · simp only; split
        · simp
        · rename_i h; simpa using h
      · have hn : (if l.filter (fun s => !decide (s = name)) = [] then none
            else some (l.filter (fun s => !decide (s = name))) : Option (List Str)).getD [] =
            l.filter (fun s => !decide (s = name)) := by
          split
          · rename_i h; rw [h]; rfl
          · rfl
        simp only [names, hn, hs, ha, Option.getD_some, Option.toList_some]
        simp [hsn]

theorem set_perm {st : St} (hi : Inv st) (hs : st.signal ≠ none) {l : List Str} (hp : l.Perm (names st)) :
    names (setSignals st l) = l ∧ Inv (setSignals st l) ∧ (setSignals st l).dsets = st.dsets ∧
      (setSignals st l).signal = l.head? ∧ l ≠ [] := by
  obtain ⟨s, hs⟩ := Option.ne_none_iff_exists'.1 hs
  cases l with
  | nil => simp [names, hs] at hp
  | cons a l =>
    simp only [setSignals, names, Option.toList_some, List.head?_cons, true_and, ne_eq, reduceCtorEq,
      not_false_eq_true, and_true]
    by_cases hl : l = []
    · subst hl
      simp only [if_true]
      have hlen := hp.length_eq
      simp only [names, hs, Option.toList_some, List.length_cons, List.length_nil, List.length_append] at hlen
      have hx : st.aux.getD [] = [] := List.eq_nil_of_length_eq_zero (by omega)
      exact ⟨by simp [hx], ⟨hi.ne, by simp⟩⟩
    · simp only [hl, if_false, Option.getD_some]
      exact ⟨rfl, ⟨by simpa using hl, by simp⟩⟩

theorem sort_eq_iff {l m : List Str} : stableSort id l = stableSort id m ↔ l.Perm m := by
  constructor
  · intro h; exact (stableSort_perm id l).symm.trans (h ▸ stableSort_perm id m)
  · intro h; exact stableSort_perm_eq id l m h (fun _ _ _ _ h => h)

theorem sort_spec_aux {st : St} (hi : Inv st) (other : Option (List Str)) {st' : St}
    (h : sortSignals st other = some st') :
    Inv st' ∧ st'.dsets = st.dsets ∧ (names st').Perm (names st) := by
  unfold sortSignals at h
  cases hs : st.signal with
  | none => rw [hs] at h; simp at h
  | some s =>
    have hs' : st.signal ≠ none := by simp [hs]
    rw [hs] at h
    cases other with
    | none =>
      simp only [Option.some.injEq] at h
      subst h
      have hp := stableSort_perm id (names st)
      obtain ⟨h1, h2, h3, _⟩ := set_perm hi hs' hp
      exact ⟨h2, h3, by rw [h1]; exact hp⟩
    | some o =>
      simp only at h
      split at h
      · rename_i ho
        simp only [Option.some.injEq] at h
        subst h
        have hp := sort_eq_iff.1 ho
        obtain ⟨h1, h2, h3, _⟩ := set_perm hi hs' hp
        exact ⟨h2, h3, by rw [h1]; exact hp⟩
      · simp only [Option.some.injEq] at h
        subst h
        exact ⟨hi, rfl, List.Perm.refl _⟩

theorem addSignal_eq (st : St) (name : Str) (create : Bool) :
    (∃ st', addSignal st name create = some st' ∧ create = decide (name ∉ st.dsets) ∧
        st'.signal = (addAttrs st name).signal ∧ st'.aux = (addAttrs st name).aux ∧
        ∀ n, n ∈ st'.dsets ↔ n = name ∨ n ∈ st.dsets) ∨
      (addSignal st name create = none ∧ create ≠ decide (name ∉ st.dsets)) := by
  unfold addSignal
  by_cases hm : name ∈ st.dsets <;> cases create
  · refine Or.inl ⟨_, by simp [hm], by simp [hm], rfl, rfl, ?_⟩
    intro n; constructor
    · exact Or.inr
    · rintro (rfl | h)
      · exact hm
      · exact h
  · exact Or.inr (by simp [hm])
  · exact Or.inr (by simp [hm])
  · refine Or.inl ⟨addAttrs { st with dsets := st.dsets ++ [name] } name, by simp [hm], by simp [hm],
      rfl, rfl, ?_⟩
    intro n; simp [addAttrs, or_comm]

theorem inv_step {st : St} (hi : Inv st) (op : Op) : Inv (step st op) := by
  cases op with
  | add name create =>
    rcases addSignal_eq st name create with ⟨st', h, _, h1, h2, _⟩ | ⟨h, _⟩
    · have := inv_addAttrs hi name
      simp only [step, h, Option.getD_some]
      exact ⟨h2 ▸ this.ne, by rw [h1, h2]; exact this.sig⟩
    · simpa [step, h] using hi
  | default name => exact (default_spec_aux hi name).1
  | remove name =>
    obtain ⟨st', h, h', _⟩ := remove_spec_aux hi name
    simpa [step, h] using h'
  | sort other =>
    cases h : sortSignals st other with
    | none => simpa [step, h] using hi
    | some st' => simpa [step, h] using (sort_spec_aux hi other h).1

theorem inv_run {st : St} (hi : Inv st) (ops : List Op) : Inv (run st ops) := by
  induction ops generalizing st with
  | nil => exact hi
  | cons op ops ih => exact ih (inv_step hi op)

theorem inv_of_history (d : List Str) (ops : List Op) : Inv (run (fresh d) ops) :=
  inv_run (inv_fresh d) ops

/-- the datasets are those of the history -/
def SameSets (st : St) (a : Abs) : Prop := ∀ n, n ∈ st.dsets ↔ n ∈ a.dsets

theorem dec_same {st : St} {a : Abs} (hd : SameSets st a) (name : Str) :
    decide (name ∉ st.dsets) = decide (name ∉ a.dsets) := decide_eq_decide.2 (not_congr (hd name))

theorem names_add {st st' : St} (hi : Inv st) {name : Str}
    (h1 : st'.signal = (addAttrs st name).signal) (h2 : st'.aux = (addAttrs st name).aux) :
    names st' = name :: (st.aux.getD [] ++ st.signal.toList) := by
  rw [← names_addAttrs hi name, names, names, h1, h2]

theorem dsets_step {st : St} {a : Abs} (hi : Inv st) (hd : SameSets st a) (op : Op) :
    SameSets (step st op) (a.step op) := by
  intro n
  cases op with
  | add name create =>
    rcases addSignal_eq st name create with ⟨st', h, hc, _, _, h3⟩ | ⟨h, hc⟩
    · rw [dec_same hd name] at hc
      simp only [step, h, Option.getD_some, h3, Abs.step, if_pos hc, List.mem_cons, hd n]
    · rw [dec_same hd name] at hc
      simp only [step, h, Option.getD_none, Abs.step, if_neg hc, hd n]
  | default name => simp [step, Abs.step, (default_spec_aux hi name).2.1, hd n]
  | remove name =>
    obtain ⟨st', h, _, h', _⟩ := remove_spec_aux hi name
    simp [step, h, h', Abs.step, hd n]
  | sort other =>
    cases h : sortSignals st other with
    | none => simp [step, h, Abs.step, hd n]
    | some st' => simp [step, h, Abs.step, (sort_spec_aux hi other h).2.1, hd n]

/-- the signals of the history are in the attributes -/
theorem live_step {st : St} {a : Abs} (hi : Inv st) (hd : SameSets st a)
    (hl : ∀ n ∈ a.live, n ∈ names st) (op : Op) : ∀ n ∈ (a.step op).live, n ∈ names (step st op) := by
  intro n hn
  cases op with
  | add name create =>
    rcases addSignal_eq st name create with ⟨st', h, hc, h1, h2, _⟩ | ⟨h, hc⟩
    · rw [dec_same hd name] at hc
      simp only [step, h, Option.getD_some, names_add hi h1 h2]
      simp only [Abs.step, if_pos hc, List.mem_cons] at hn
      rcases hn with rfl | hn
      · simp
      · have := hl n hn
        simp only [names, List.mem_append] at this
        simp only [List.mem_cons, List.mem_append]; tauto
    · rw [dec_same hd name] at hc
      simp only [Abs.step, if_neg hc] at hn
      simpa [step, h] using hl n hn
  | default name =>
    have hn := hl n hn
    simp only [step, (default_spec_aux hi name).2.2.2]
    split
    · split
      · exact hn
      · by_cases hnn : n = name
        · simp [hnn]
        · simp [hnn, hn]
    · exact hn
  | remove name =>
    simp only [Abs.step, List.mem_filter, decide_eq_true_eq] at hn
    have hm := hl n hn.1
    obtain ⟨st', h, _, _, h0, h1, h2⟩ := remove_spec_aux hi name
    simp only [step, h, Option.getD_some]
    by_cases ha : st.aux = none
    · rw [h0 ha]; exact hm
    · by_cases hs : st.signal = some name
      · rw [(h1 ha hs).mem_iff]
        simp only [names, hs, Option.toList_some, List.mem_append, List.mem_singleton] at hm
        exact hm.resolve_left hn.2
      · rw [h2 ha hs]; simp [hm, hn.2]
  | sort other =>
    have hn := hl n hn
    cases h : sortSignals st other with
    | none => simpa [step, h] using hn
    | some st' => simpa [step, h] using (sort_spec_aux hi other h).2.2.mem_iff.2 hn

theorem agree_step {st : St} {a : Abs} (hi : Inv st) (hd : SameSets st a)
    (hl : ∀ n, n ∈ names st ↔ n ∈ a.live) (hnd : (names st).Nodup) (op : Op) (hp : Proper a op)
    (hsub : ∀ n ∈ a.live, n ∈ a.dsets) :
    (∀ n, n ∈ names (step st op) ↔ n ∈ (a.step op).live) ∧ (names (step st op)).Nodup ∧
      ∀ n ∈ (a.step op).live, n ∈ (a.step op).dsets := by
  cases op with
  | add name create =>
    rcases addSignal_eq st name create with ⟨st', h, hc, h1, h2, _⟩ | ⟨h, hc⟩
    · rw [dec_same hd name] at hc
      have hnl : name ∉ a.live := by
        by_cases hm : name ∈ a.dsets
        · exact hp (by simp [hc, hm]) hm
        · exact fun h => hm (hsub _ h)
      have hperm : (st.aux.getD [] ++ st.signal.toList).Perm (names st) := List.perm_append_comm
      simp only [step, h, Option.getD_some, names_add hi h1 h2, Abs.step, if_pos hc]
      refine ⟨fun n => ?_, ?_, ?_⟩
      · rw [List.mem_cons, hperm.mem_iff, hl n, List.mem_cons]
      · rw [List.nodup_cons, hperm.mem_iff, hperm.nodup_iff, hl]
        exact ⟨hnl, hnd⟩
      · intro n hn
        rcases List.mem_cons.1 hn with rfl | hn
        · simp
        · exact List.mem_cons_of_mem _ (hsub n hn)
    · rw [dec_same hd name] at hc
      simp only [step, h, Option.getD_none, Abs.step, if_neg hc]
      exact ⟨hl, hnd, hsub⟩
  | default name =>
    simp only [step, (default_spec_aux hi name).2.2.2, Abs.step]
    refine ⟨?_, ?_, hsub⟩
    · intro n
      split
      · rename_i hm
        split
        · exact hl n
        · rw [← hl n]
          by_cases hnn : n = name
          · subst hnn; simp [hm]
          · simp [hnn]
      · exact hl n
    · split
      · split
        · exact hnd
        · rw [List.nodup_cons]
          exact ⟨by simp, hnd.filter _⟩
      · exact hnd
  | remove name =>
    obtain ⟨st', h, _, _, h0, h1, h2⟩ := remove_spec_aux hi name
    simp only [step, h, Option.getD_some, Abs.step]
    refine ⟨?_, ?_, ?_⟩
    · intro n
      by_cases ha : st.aux = none
      · rw [h0 ha, hl n]
        simp only [List.mem_filter, decide_eq_true_eq]
        refine ⟨fun hn => ⟨hn, ?_⟩, fun hn => hn.1⟩
        rintro rfl
        obtain ⟨m, hm, hmn⟩ := hp hn
        rw [← hl, names, ha] at hm
        rw [← hl, names, ha] at hn
        simp only [Option.getD_none, List.append_nil, Option.mem_toList] at hm hn
        rw [hm] at hn
        exact hmn (Option.some.inj hn)
      · by_cases hs : st.signal = some name
        · rw [(h1 ha hs).mem_iff]
          simp only [List.mem_filter, decide_eq_true_eq, ← hl n]
          have hnd' := hnd
          simp only [names, hs, Option.toList_some, List.singleton_append, List.nodup_cons] at hnd'
          simp only [names, hs, Option.toList_some, List.singleton_append, List.mem_cons]
          constructor
          · intro hn; exact ⟨Or.inr hn, fun he => hnd'.1 (he ▸ hn)⟩
          · rintro ⟨h | h, h'⟩
            · exact absurd h h'
            · exact h
        · rw [h2 ha hs]; simp [hl n]
    · by_cases ha : st.aux = none
      · rw [h0 ha]; exact hnd
      · by_cases hs : st.signal = some name
        · rw [(h1 ha hs).nodup_iff]
          exact (List.nodup_append.1 hnd).2.1
        · rw [h2 ha hs]; exact hnd.filter _
    · intro n hn
      simp only [List.mem_filter] at hn ⊢
      exact ⟨hsub n hn.1, hn.2⟩
  | sort other =>
    cases h : sortSignals st other with
    | none => simp only [step, h, Abs.step]; exact ⟨hl, hnd, hsub⟩
    | some st' =>
      have hp := (sort_spec_aux hi other h).2.2
      simp only [step, h, Abs.step]
      exact ⟨fun n => by rw [Option.getD_some, hp.mem_iff, hl n], by rw [Option.getD_some, hp.nodup_iff]; exact hnd, hsub⟩

theorem agree_run {st : St} {a : Abs} (hi : Inv st) (hd : SameSets st a)
    (hl : ∀ n, n ∈ names st ↔ n ∈ a.live) (hnd : (names st).Nodup)
    (hsub : ∀ n ∈ a.live, n ∈ a.dsets) (ops : List Op) (hp : ProperAll a ops) :
    (∀ n, n ∈ names (run st ops) ↔ n ∈ (a.run ops).live) ∧ (names (run st ops)).Nodup := by
  induction ops generalizing st a with
  | nil => exact ⟨hl, hnd⟩
  | cons op ops ih =>
    obtain ⟨h1, h2, h3⟩ := agree_step hi hd hl hnd op hp.1 hsub
    exact ih (inv_step hi op) (dsets_step hi hd op) h1 h2 h3 hp.2

theorem signal_of_names {st : St} (hi : Inv st) {n : Str} (hn : n ∈ names st) :
    ∃ s, st.signal = some s ∧ s ∈ names st := by
  cases hs : st.signal with
  | none =>
    have ha : st.aux = none := by by_contra ha; exact hi.sig ha hs
    simp [names, hs, ha] at hn
  | some s => exact ⟨s, rfl, by simp [names, hs]⟩

/-! ## the property -/

/-- **C23 (partial).**  After any history in which no signal is added twice and the only signal is
never removed, started from a group holding any datasets but no signals: the signals are pairwise
distinct, they are exactly those of the abstract history, and the default is one of them whenever
there is one.  Missing: the two excluded uses, for which it is false (see below). -/
theorem bookkeeping_partial (d : List Str) (ops : List Op) (hp : ProperAll ⟨d, []⟩ ops) :
    (names (run (fresh d) ops)).Nodup ∧
      (∀ n, n ∈ names (run (fresh d) ops) ↔ n ∈ (Abs.run ⟨d, []⟩ ops).live) ∧
      ((Abs.run ⟨d, []⟩ ops).live ≠ [] →
        ∃ s, (run (fresh d) ops).signal = some s ∧ s ∈ (Abs.run ⟨d, []⟩ ops).live) := by
  obtain ⟨h1, h2⟩ := agree_run (inv_fresh d) (a := ⟨d, []⟩) (fun n => Iff.rfl)
    (by simp [names, fresh]) (by simp [names, fresh]) (by simp) ops hp
  refine ⟨h2, h1, fun hne => ?_⟩
  obtain ⟨n, hn⟩ := List.exists_mem_of_ne_nil _ hne
  obtain ⟨s, hs, hs'⟩ := signal_of_names (inv_of_history d ops) ((h1 n).2 hn)
  exact ⟨s, hs, (h1 s).1 hs'⟩

/-- **C23.**  After any history whatever no signal of the history is lost, and when there is one there
is a default signal. -/
theorem no_signal_lost (d : List Str) (ops : List Op) :
    (∀ n ∈ (Abs.run ⟨d, []⟩ ops).live, n ∈ names (run (fresh d) ops)) ∧
      ((Abs.run ⟨d, []⟩ ops).live ≠ [] → (run (fresh d) ops).signal ≠ none) := by
  have key : ∀ (ops : List Op) (st : St) (a : Abs), Inv st → SameSets st a →
      (∀ n ∈ a.live, n ∈ names st) → ∀ n ∈ (a.run ops).live, n ∈ names (run st ops) := by
    intro ops
    induction ops with
    | nil => intro st a _ _ hl; exact hl
    | cons op ops ih =>
      intro st a hi hd hl
      exact ih _ _ (inv_step hi op) (dsets_step hi hd op) (live_step hi hd hl op)
  have hk := key ops (fresh d) ⟨d, []⟩ (inv_fresh d) (fun _ => Iff.rfl) (by simp)
  refine ⟨hk, fun hne => ?_⟩
  obtain ⟨n, hn⟩ := List.exists_mem_of_ne_nil _ hne
  obtain ⟨s, hs, _⟩ := signal_of_names (inv_of_history d ops) (hk n hn)
  simp [hs]

/-- **C23.**  After any history a new signal is the default, and the signals before it are the auxiliary
signals, the default before it last; it is refused exactly when it is to be created and there or to be
taken and not there. -/
theorem add_is_default (d : List Str) (ops : List Op) (name : Str) (create : Bool) :
    (addSignal (run (fresh d) ops) name create = none ↔
        create ≠ decide (name ∉ (run (fresh d) ops).dsets)) ∧
      ∀ st', addSignal (run (fresh d) ops) name create = some st' →
        st'.signal = some name ∧ name ∈ st'.dsets ∧
        st'.aux.getD [] = (run (fresh d) ops).aux.getD [] ++ (run (fresh d) ops).signal.toList := by
  rcases addSignal_eq (run (fresh d) ops) name create with ⟨st', h, hc, h1, h2, h3⟩ | ⟨h, hc⟩
  · refine ⟨⟨fun hn => by rw [h] at hn; simp at hn, fun hn => absurd hc hn⟩, ?_⟩
    intro st'' h'
    rw [h, Option.some.injEq] at h'
    subst h'
    refine ⟨by rw [h1]; rfl, (h3 name).2 (Or.inl rfl), ?_⟩
    have hn := names_add (inv_of_history d ops) h1 h2
    rw [names, h1] at hn
    simpa [addAttrs] using hn
  · exact ⟨⟨fun _ => hc, fun _ => h⟩, by simp [h]⟩

/-- **C23.**  After any history making a signal the default succeeds exactly when it is a signal; then
it is the default, the set of signals is as before and no duplicate appears.  Otherwise nothing
changes. -/
theorem default_signal_spec (d : List Str) (ops : List Op) (name : Str) :
    let st := run (fresh d) ops
    ((defaultSignal st name).2 = true ↔ name ∈ names st) ∧
      (name ∉ names st → (defaultSignal st name).1 = st) ∧
      (name ∈ names st → (defaultSignal st name).1.signal = some name) ∧
      (∀ n, n ∈ names (defaultSignal st name).1 ↔ n ∈ names st) ∧
      ((names st).Nodup → (names (defaultSignal st name).1).Perm (names st)) := by
  intro st
  have hi : Inv st := inv_of_history d ops
  obtain ⟨_, _, h3, h4⟩ := default_spec_aux hi name
  have hset : ∀ n, n ∈ names (defaultSignal st name).1 ↔ n ∈ names st := by
    intro n
    rw [h4]
    split
    · rename_i hm
      split
      · rfl
      · by_cases hnn : n = name
        · subst hnn; simp [hm]
        · simp [hnn]
    · rfl
  refine ⟨by rw [h3]; simp, ?_, ?_, hset, ?_⟩
  · intro h
    unfold defaultSignal
    have h1 : st.signal ≠ some name := fun hs => h (by simp [names, hs])
    have h2 : name ∉ st.signal.toList ++ st.aux.getD [] := h
    simp [h1, h2]
  · intro h
    unfold defaultSignal
    have h2 : name ∈ st.signal.toList ++ st.aux.getD [] := h
    by_cases h1 : st.signal = some name
    · simp [h1]
    · simp only [h1, if_false, h2, not_true_eq_false]
  · intro hnd
    have hnd' : (names (defaultSignal st name).1).Nodup := by
      rw [h4]
      split
      · split
        · exact hnd
        · rw [List.nodup_cons]; exact ⟨by simp, hnd.filter _⟩
      · exact hnd
    exact (List.perm_ext_iff_of_nodup hnd' hnd).2 hset

/-- **C23.**  After any history removing a signal does not raise; when it is the default and there is
another, the last auxiliary signal becomes the default and the others keep their order; when it is not
the default, the default stays. -/
theorem remove_signal_spec (d : List Str) (ops : List Op) (name : Str) :
    let st := run (fresh d) ops
    ∃ st', removeSignal st name = some st' ∧ name ∉ st'.dsets ∧
      (∀ l last, st.signal = some name → st.aux = some (l ++ [last]) →
        st'.signal = some last ∧ st'.aux.getD [] = l) ∧
      (st.signal ≠ some name → st'.signal = st.signal ∧
        st'.aux.getD [] = (st.aux.getD []).filter (fun s => decide (s ≠ name))) := by
  intro st
  have hi : Inv st := inv_of_history d ops
  obtain ⟨st', h, _, h0, _⟩ := remove_spec_aux hi name
  refine ⟨st', h, by simp [h0], ?_, ?_⟩
  · intro l last hs ha
    simp only [removeSignal, ha, hs, if_true, List.getLast?_append, List.getLast?_singleton,
      List.dropLast_concat, Option.or_some, Option.some_or, Option.some.injEq, Option.getD_none,
      List.getLast?_concat] at h
    subst h
    refine ⟨rfl, ?_⟩
    simp only
    split
    · rename_i h; rw [h]; rfl
    · rfl
  · intro hs
    unfold removeSignal at h
    cases ha : st.aux with
    | none => simp only [ha, Option.some.injEq] at h; subst h; simp [ha]
    | some l =>
      obtain ⟨s, hs'⟩ := Option.ne_none_iff_exists'.1 (hi.sig (by simp [ha]))
      have hsn : s ≠ name := fun h => hs (by rw [hs', h])
      simp only [ha, hs', hsn, if_false, Option.some.injEq] at h
      subst h
      refine ⟨hs'.symm, ?_⟩
      simp only [Option.getD_some, decide_not]
      split
      · rename_i h; rw [h]; rfl
      · rfl

/-- **C23.**  After any history with a default signal, sorting orders all signals by name, the first
being the default; with another group, the order is that of the other group when it has the same
signals and nothing happens when it has not. -/
theorem sort_signals_spec (d : List Str) (ops : List Op) (hs : (run (fresh d) ops).signal ≠ none) :
    let st := run (fresh d) ops
    (∃ st', sortSignals st none = some st' ∧ (names st').Perm (names st) ∧
        (names st').Pairwise (· ≤ ·) ∧ st'.signal = (names st').head? ∧ st'.dsets = st.dsets) ∧
    ∀ o, (o.Perm (names st) → ∃ st', sortSignals st (some o) = some st' ∧ names st' = o ∧
          st'.signal = o.head? ∧ st'.dsets = st.dsets) ∧
      (¬ o.Perm (names st) → sortSignals st (some o) = some st) := by
  intro st
  have hi : Inv st := inv_of_history d ops
  obtain ⟨s, hs'⟩ := Option.ne_none_iff_exists'.1 hs
  have hs'' : st.signal = some s := hs'
  refine ⟨?_, fun o => ⟨fun ho => ?_, fun ho => ?_⟩⟩
  · have hp := stableSort_perm id (names st)
    obtain ⟨h1, _, h3, h4, _⟩ := set_perm hi hs hp
    refine ⟨setSignals st (stableSort id (names st)), by simp [sortSignals, hs''], ?_, ?_, ?_, h3⟩
    · rw [h1]; exact hp
    · rw [h1]; exact stableSort_sorted id (names st)
    · rw [h1]; exact h4
  · obtain ⟨h1, _, h3, h4, _⟩ := set_perm hi hs ho
    exact ⟨setSignals st o, by simp [sortSignals, hs'', sort_eq_iff.2 ho], h1, h4, h3⟩
  · have : ¬ stableSort id o = stableSort id (names st) := fun h => ho (sort_eq_iff.1 h)
    simp [sortSignals, hs'', this]

/-! ## set_default -/

theorem setDefaultLoop_spec (s : Str) : ∀ (ds : List St) (sel : Option Nat) (i : Nat),
    ∃ sel', setDefaultLoop (some s) sel i ds =
        some (ds.map (fun d => (defaultSignal d s).1), sel') ∧
      ((∀ d ∈ ds, (defaultSignal d s).2 = false) → sel' = sel) ∧
      (∀ j, sel' = some j → sel = some j ∨ ∃ k d, j = i + k ∧ ds[k]? = some d ∧ (defaultSignal d s).2 = true) ∧
      ∀ (k : Nat) d, ds[k]? = some d → (defaultSignal d s).2 = true → ∃ j, sel' = some (i + j) ∧ k ≤ j := by
  intro ds
  induction ds with
  | nil => intro sel i; exact ⟨sel, rfl, fun _ => rfl, fun j h => Or.inl h, by simp⟩
  | cons d ds ih =>
    intro sel i
    obtain ⟨sel', h1, h2, h3, h4⟩ := ih (if (defaultSignal d s).2 then some i else sel) (i + 1)
    refine ⟨sel', by simp [setDefaultLoop, h1], ?_, ?_, ?_⟩
    · intro h
      rw [h2 (fun d hd => h d (List.mem_cons_of_mem _ hd)), h d (by simp)]
      simp
    · intro j hj
      rcases h3 j hj with h | ⟨k, d', hk, hd', hb⟩
      · split at h
        · rename_i hb
          simp only [Option.some.injEq] at h
          exact Or.inr ⟨0, d, by omega, by simp, hb⟩
        · exact Or.inl h
      · exact Or.inr ⟨k + 1, d', by omega, by simpa using hd', hb⟩
    · intro k d' hk hb
      cases k with
      | zero =>
        simp only [List.getElem?_cons_zero, Option.some.injEq] at hk
        subst hk
        rw [if_pos hb] at h1 h2 h3
        by_cases hall : ∀ d ∈ ds, (defaultSignal d s).2 = false
        · exact ⟨0, by rw [h2 hall]; rfl, le_refl 0⟩
        · have : ∃ d ∈ ds, (defaultSignal d s).2 = true := by
            by_contra hc
            apply hall
            intro d hd
            cases hq : (defaultSignal d s).2 with
            | false => rfl
            | true => exact absurd ⟨d, hd, hq⟩ hc
          obtain ⟨d'', hd'', hb''⟩ := this
          obtain ⟨k, hk⟩ := List.getElem?_of_mem hd''
          obtain ⟨j, hj, _⟩ := h4 k d'' hk hb''
          exact ⟨j + 1, by rw [hj]; congr 1; omega, by omega⟩
      | succ k =>
        obtain ⟨j, hj, hkj⟩ := h4 k d' (by simpa using hk) hb
        exact ⟨j + 1, by rw [hj]; congr 1; omega, by omega⟩

/-- **C23.**  Setting a default signal for several groups, each with any history: every group keeps its
signals, every group that has the signal gets it as default, the others are unchanged, and the group
that is marked is the last one having it (none when no group has it). -/
theorem set_default_spec (s : Str) (hist : List (List Str × List Op)) :
    let gs := hist.map fun h => run (fresh h.1) h.2
    ∃ gs' sel, setDefault (some s) gs = some (gs', sel) ∧ gs'.length = gs.length ∧
      (∀ (k : Nat) g g', gs[k]? = some g → gs'[k]? = some g' →
        (∀ n, n ∈ names g' ↔ n ∈ names g) ∧ (s ∈ names g → g'.signal = some s) ∧
          (s ∉ names g → g' = g)) ∧
      (∀ j, sel = some j → ∃ g, gs[j]? = some g ∧ s ∈ names g) ∧
      (∀ (k : Nat) g, gs[k]? = some g → s ∈ names g → ∃ j, sel = some j ∧ k ≤ j) := by
  intro gs
  obtain ⟨sel, h1, h2, h3, h4⟩ := setDefaultLoop_spec s gs none 0
  have hh : ∀ g ∈ gs, ∃ d ops, g = run (fresh d) ops := by
    intro g hg
    obtain ⟨h, _, rfl⟩ := List.mem_map.1 hg
    exact ⟨h.1, h.2, rfl⟩
  refine ⟨_, sel, h1, by simp, ?_, ?_, ?_⟩
  · intro k g g' hg hg'
    obtain ⟨d, ops, rfl⟩ := hh g (List.mem_of_getElem? hg)
    rw [List.getElem?_map, hg, Option.map_some, Option.some.injEq] at hg'
    subst hg'
    obtain ⟨_, ha, hb, hc, _⟩ := default_signal_spec d ops s
    exact ⟨hc, hb, ha⟩
  · intro j hj
    rcases h3 j hj with h | ⟨k, g, hk, hg, hb⟩
    · simp at h
    · obtain ⟨d, ops, rfl⟩ := hh g (List.mem_of_getElem? hg)
      exact ⟨_, by rw [hk, Nat.zero_add]; exact hg, (default_signal_spec d ops s).1.1 hb⟩
  · intro k g hg hs
    obtain ⟨d, ops, rfl⟩ := hh g (List.mem_of_getElem? hg)
    obtain ⟨j, hj, hkj⟩ := h4 k _ hg ((default_signal_spec d ops s).1.2 hs)
    exact ⟨j, by rw [hj, Nat.zero_add], hkj⟩

/-- **C23.**  Without a default signal the one of the first group is used; it raises when that group
has none. -/
theorem set_default_none (g : St) (gs : List St) :
    (g.signal = none → setDefault none (g :: gs) = none) ∧
      ∀ s, g.signal = some s → setDefault none (g :: gs) = setDefault (some s) (g :: gs) := by
  refine ⟨fun h => by simp [setDefault, setDefaultLoop, h], fun s h => ?_⟩
  simp [setDefault, setDefaultLoop, h, defaultSignal]

/-! ## where the code departs from the property -/

private abbrev sA : Str := ['a']
private abbrev sB : Str := ['b']
private abbrev sC : Str := ['c']

/-- Adding a signal again without data (as the code does for a dataset that already exists) duplicates
it; removing it then leaves the default naming a dataset that is gone. -/
theorem readd_duplicates :
    (names (run (fresh []) [.add sA true, .add sA false]) = [sA, sA]) ∧
      run (fresh []) [.add sA true, .add sA false, .remove sA] = ⟨some sA, none, []⟩ := by decide

/-- Removing the only signal leaves the default naming a dataset that is gone; it stays an auxiliary
signal when another is added (when it is added: without axes, looking up the shape of the missing
default raises first). -/
theorem remove_only_stale :
    run (fresh []) [.add sA true, .remove sA] = ⟨some sA, none, []⟩ ∧
      run (fresh []) [.add sA true, .remove sA, .add sB true] = ⟨some sB, some [sA], [sB]⟩ := by decide

/-- The property as stated is false. -/
theorem bookkeeping_false :
    ¬ ∀ (d : List Str) (ops : List Op), (names (run (fresh d) ops)).Nodup ∧
      (∀ n, n ∈ names (run (fresh d) ops) ↔ n ∈ (Abs.run ⟨d, []⟩ ops).live) := by
  intro h
  have := (h [] [.add sA true, .remove sA]).2 sA
  revert this
  decide

/-- Sorting a group without signals raises. -/
theorem sort_none_raises (d : List Str) (o : Option (List Str)) : sortSignals (fresh d) o = none := rfl

/-! ## concrete cases -/

example : ProperAll ⟨[sC], []⟩ [.add sB true, .add sA true, .add sC false, .default sA, .remove sA, .sort none] := by
  refine ⟨?_, ?_, ?_, trivial, ?_, trivial, trivial⟩
  · intro h; simp at h
  · intro h; simp at h
  · intro _ _; simp [Abs.step]
  · intro _; exact ⟨sB, by decide, by decide⟩

example : run (fresh [sC]) [.add sB true, .add sA true, .add sC false] =
    ⟨some sC, some [sB, sA], [sC, sB, sA]⟩ := by decide
example : run (fresh [sC]) [.add sB true, .add sA true, .add sC false, .default sA] =
    ⟨some sA, some [sC, sB], [sC, sB, sA]⟩ := by decide
example : run (fresh [sC]) [.add sB true, .add sA true, .add sC false, .default sA, .remove sA] =
    ⟨some sB, some [sC], [sC, sB]⟩ := by decide
example : (run (fresh []) [.add sB true, .add sC true, .add sA true, .sort none]) =
    ⟨some sA, some [sB, sC], [sB, sC, sA]⟩ := by decide
example : (run (fresh []) [.add sB true, .add sA true, .sort (some [sB, sA])]) =
    ⟨some sB, some [sA], [sB, sA]⟩ := by decide
example : (setDefault (some sA) [run (fresh []) [.add sA true, .add sB true],
    run (fresh []) [.add sB true]]).map (·.2) = some (some 0) := by decide

end SC.NXdata
