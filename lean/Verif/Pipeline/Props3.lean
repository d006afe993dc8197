import Verif.Pipeline.Props2
/-! # The pipelines (C35) -/

namespace SC.Pipeline

/-- Every task depends on the one before; `task` is the last one. -/
structure Chain (x : List Spec × Nat) : Prop where
  deps : ∀ (k : Nat) (t : Spec), x.1[k]? = some t → t.dep = if k = 0 then none else some (k - 1)
  last : x.2 + 1 = x.1.length

theorem chain_append {x : List Spec × Nat} (h : Chain x) (m : Method) (n : Str) (p : Option Str) :
    Chain (x.1 ++ [⟨m, some x.2, n, p⟩], x.1.length) := by
  refine ⟨fun k t ht => ?_, by simp⟩
  have hl := h.last
  dsimp only at ht
  by_cases hk : k < x.1.length
  · rw [List.getElem?_append_left hk] at ht
    exact h.deps k t ht
  · rw [List.getElem?_append_right (by omega)] at ht
    have : k - x.1.length = 0 := by
      by_contra hne
      rw [List.getElem?_eq_none (by simp; omega)] at ht
      simp at ht
    rw [this] at ht
    simp only [List.getElem?_cons_zero, Option.some.injEq] at ht
    subst ht
    have h1 : ¬ k = 0 := by omega
    simp only [if_neg h1, Option.some.injEq]
    omega

theorem chosen (g : Option Str) (c : Option Str) : ensure g c = choose g c := by
  cases g <;> rfl

theorem step_eq (common : Option Str) (m : Method) (g : Option Given) (x : List Spec × Nat) :
    step common m g x = some (x.1 ++ g.toList.map (fun g => ⟨m, some x.2, g.name.getD m.str, choose g.outputparent common⟩),
      if g.isSome then x.1.length else x.2) := by
  cases g with
  | none => simp [step]
  | some g =>
    simp [step, create, chosen]

theorem chain_step {common : Option Str} {m : Method} {g : Option Given} {x y : List Spec × Nat} (h : Chain x)
    (hy : step common m g x = some y) : Chain y := by
  rw [step_eq] at hy
  simp only [Option.some.injEq] at hy
  subst hy
  cases g with
  | none => simpa using h
  | some g => exact chain_append h _ _ _

/-- The tasks without the last two steps. -/
theorem fluoxas_eq (c : Fluoxas) (l : List Spec) (h : fluoxas c = some l) :
    ∃ x : List Spec × Nat, Chain x ∧ (∀ t ∈ x.1, t.method ≠ .crop) ∧
      l = x.1 ++ (c.replacenan.toList.map fun g => ⟨.replace, some x.2, g.name.getD Method.replace.str, choose g.outputparent c.common⟩) ++
        (c.crop.toList.map fun g => ⟨.crop, some x.2, g.name.getD Method.crop.str, choose g.outputparent c.common⟩) ∧
      (c.prenormalize = none → (x.1.map fun t => (t.method, t.name, t.outputparent)) =
        (c.geometry.toList.map fun p => (.xrfgeometry, Method.xrfgeometry.str, p)) ++
        [(.pymca, Method.pymca.str, choose c.pymca c.common)] ++
        (c.resample.toList.map fun g => g.wants .resample Method.resample.str c.common) ++
        (c.align.toList.map fun g => g.wants .align Method.align.str c.common) ++
        (c.postnormalize.toList.map fun g => g.wants .expression (['p', 'o', 's', 't'] ++ sNormalize) c.common)) := by
  unfold fluoxas at h
  simp only [Option.bind_eq_some_iff, Option.map_eq_some_iff] at h
  obtain ⟨x0, h0, x1, ⟨l1, h1, rfl⟩, x2, h2, x3, h3, x4, h4, x5, h5, x6, h6, x7, h7, rfl⟩ := h
  -- the first tasks
  have c1 : Chain (l1, x0.1.length) ∧ (∀ t ∈ l1, t.method = .xrfgeometry ∨ t.method = .pymca) ∧
      (l1.map fun t => (t.method, t.name, t.outputparent)) =
        (c.geometry.toList.map fun p => (.xrfgeometry, Method.xrfgeometry.str, p)) ++
        [(.pymca, Method.pymca.str, choose c.pymca c.common)] := by
    unfold create at h1
    split at h1
    · simp at h1
    · simp only [Option.some.injEq] at h1
      rw [chosen] at h1
      subst h1
      rcases hg : c.geometry with _ | p
      · rw [hg] at h0
        simp only [Option.some.injEq] at h0
        subst h0
        refine ⟨⟨?_, rfl⟩, by simp, by simp⟩
        intro k t ht
        rcases k with _ | k
        · simp at ht; subst ht; rfl
        · simp at ht
      · rw [hg] at h0
        simp only [create, Option.map_eq_some_iff] at h0
        obtain ⟨l0, h0, rfl⟩ := h0
        split at h0
        · simp at h0
        · simp only [List.nil_append, Option.some.injEq] at h0
          subst h0
          refine ⟨⟨?_, rfl⟩, by simp, by simp⟩
          intro k t ht
          rcases k with _ | _ | k
          · simp at ht; subst ht; rfl
          · simp at ht; subst ht; rfl
          · simp at ht
  obtain ⟨c1, m1, e1⟩ := c1
  have c2 : Chain x2 ∧ (∀ t ∈ x2.1, t.method ≠ .crop) ∧ (c.prenormalize = none → x2.1 = l1) := by
    rcases hp : c.prenormalize with _ | g
    · rw [hp] at h2
      simp only [Option.some.injEq] at h2
      subst h2
      exact ⟨c1, fun t ht => by rcases m1 t ht with h | h <;> simp [h], fun _ => rfl⟩
    · rw [hp] at h2
      simp only [create, Option.isNone_some, Bool.false_and, Bool.false_eq_true, if_false, Option.map_some, Option.some.injEq] at h2
      subst h2
      refine ⟨chain_append c1 _ _ _, ?_, by simp⟩
      intro t ht
      rcases List.mem_append.1 ht with ht | ht
      · rcases m1 t ht with h | h <;> simp [h]
      · rw [List.mem_singleton.1 ht]; simp
  obtain ⟨c2, m2, e2⟩ := c2
  have c3 := chain_step c2 h3
  have c4 := chain_step c3 h4
  have c5 := chain_step c4 h5
  rw [step_eq, Option.some.injEq] at h3 h4 h5
  refine ⟨x5, c5, ?_, ?_, ?_⟩
  · rw [← h5, ← h4, ← h3]
    intro t ht
    simp only [List.mem_append, List.mem_map] at ht
    rcases ht with ((ht | ⟨g, _, rfl⟩) | ⟨g, _, rfl⟩) | ⟨g, _, rfl⟩
    · exact m2 t ht
    · simp
    · simp
    · simp
  · unfold leaf at h6 h7
    rw [step_eq, Option.map_some, Option.some.injEq] at h6 h7
    rw [← h7, ← h6]
  · intro hp
    rw [← h5, ← h4, ← h3, e2 hp]
    simp only [List.map_append, List.map_map, e1]
    rfl

/-- C35: the tasks of the fluoxas pipeline depend on the one before. -/
theorem fluoxas_chained {c : Fluoxas} {l : List Spec} (h : fluoxas c = some l) : Chained c.replacenan.isSome l := by
  obtain ⟨x, hx, hm, rfl, -⟩ := fluoxas_eq c l h
  intro k t ht
  have hl := hx.last
  by_cases hk : k < x.1.length
  · rw [List.append_assoc, List.getElem?_append_left hk] at ht
    rw [hx.deps k t ht]
    have : t.method ≠ .crop := hm t (List.mem_of_getElem? ht)
    simp [this]
  · rw [List.append_assoc, List.getElem?_append_right (by omega)] at ht
    obtain ⟨j, hj⟩ : ∃ j, k = x.1.length + j := ⟨k - x.1.length, by omega⟩
    subst hj
    rw [Nat.add_sub_cancel_left] at ht
    have h0 : ¬ x.1.length + j = 0 := by omega
    rw [if_neg h0]
    rcases hr : c.replacenan with _ | g <;> rcases hc : c.crop with _ | g' <;> rw [hr, hc] at ht
    · simp at ht
    · rcases j with _ | j
      · simp at ht; subst ht; simp; omega
      · simp at ht
    · rcases j with _ | j
      · simp at ht; subst ht; simp; omega
      · simp at ht
    · rcases j with _ | _ | j
      · simp at ht; subst ht; simp; omega
      · simp at ht; subst ht; simp; omega
      · simp at ht

/-- C35: the tasks are those of the steps that were asked for, in order and with the names and
places asked for, when there is no normalization before alignment and the place of the
calibration is given. -/
theorem fluoxas_steps_partial {c : Fluoxas} {l : List Spec} (h : fluoxas c = some l) (hp : c.prenormalize = none)
    (hg : ∀ p, c.geometry = some p → p.isSome) : (l.map fun t => (t.method, t.name, t.outputparent)) = c.wants := by
  obtain ⟨x, -, -, rfl, he⟩ := fluoxas_eq c l h
  have : (c.geometry.toList.map fun p => (Method.xrfgeometry, Method.xrfgeometry.str, p)) =
      c.geometry.toList.map fun p => (Method.xrfgeometry, Method.xrfgeometry.str, choose p c.common) := by
    rcases hc : c.geometry with _ | p
    · rfl
    · simp [choose, hg p hc]
  rw [List.map_append, List.map_append, he hp, this]
  simp only [Fluoxas.wants, hp, Option.toList_none, List.map_nil, List.append_nil, List.map_map]
  rfl

/-- C35: the pipeline can be made exactly when the first task gets a place. -/
theorem fluoxas_exists (c : Fluoxas) :
    (fluoxas c).isSome ↔ (∃ p, c.geometry = some (some p)) ∨ (c.geometry = none ∧ (choose c.pymca c.common).isSome) := by
  unfold fluoxas
  simp only [step_eq, leaf, chosen, Option.map_some, Option.bind_some]
  rcases c.geometry with _ | _ | p <;> rcases c.prenormalize with _ | g <;>
    rcases hq : choose c.pymca c.common with _ | q <;> simp [create]

theorem earlier_of_chained {b : Bool} {l : List Spec} (h : Chained b l) : Earlier l := by
  intro k t ht d hd
  rw [h k t ht] at hd
  split at hd
  · simp at hd
  · split at hd
    · simp only [Option.some.injEq] at hd; omega
    · simp only [Option.some.injEq] at hd; omega

variable {S : Type} (E : Env S)

theorem ordered_of_earlier {l : List Spec} (h : Earlier l) (hf : Follows E l) (w : S) : Ordered E (List.range l.length) w := by
  intro pre i post he d hd
  right
  rw [hf i] at hd
  simp only [Option.mem_toList, Option.mem_def, Option.map_eq_some_iff, Option.bind_eq_some_iff] at hd
  obtain ⟨j, ⟨t, ht, hj⟩, rfl⟩ := hd
  refine ⟨j, ?_, rfl⟩
  have hji := h i t ht j hj
  have hpos : pre.length = i := by
    have h1 : (List.range l.length)[pre.length]? = some i := by rw [he]; simp
    rw [List.getElem?_eq_some_iff] at h1
    obtain ⟨_, h1⟩ := h1
    simpa using h1
  have h2 : (List.range l.length)[j]? = pre[j]? := by rw [he, List.getElem?_append_left (by omega)]
  have h3 : (List.range l.length)[j]? = some j := by
    rw [List.getElem?_range]
    have : i < l.length := by rw [List.getElem?_eq_some_iff] at ht; exact ht.1
    omega
  rw [h3] at h2
  exact List.mem_of_getElem? h2.symm

/-- C35: the fluoxas pipeline succeeds when all its tasks work. -/
theorem fluoxas_succeeds {c : Fluoxas} {l : List Spec} (h : fluoxas c = some l) (hf : Follows E l) (hk : Keeps E)
    (hw : ∀ i < l.length, Works E i) {st : St S} (hs : Sound E st) :
    ∃ st', runSequential E (List.range l.length) st = (.returned true, st') ∧
      ∀ i < l.length, E.out i st'.world = true := by
  obtain ⟨st', hst⟩ := succeeds E hk hs (fun i hi => hw i (List.mem_range.1 hi))
    (ordered_of_earlier E (earlier_of_chained (fluoxas_chained h)) hf st.world)
  exact ⟨st', hst, fun i hi => all_done E hk hs hst i (List.mem_range.2 hi)⟩

/-! ## Full-field spectroscopy -/

/-- C35: the tasks of the full-field pipeline depend on the one before. -/
theorem ffxas_chained (parent : Str) (c : Ffxas) : Chained false (ffxas parent c) := by
  intro k t ht
  unfold ffxas at ht
  revert ht
  generalize (c.normalize.getD false && !c.onload) = a
  generalize c.align = b
  generalize c.crop = d
  intro ht
  cases a <;> cases b <;> cases d <;> rcases k with _ | _ | _ | _ | k <;> simp at ht <;> subst ht <;> simp

/-- C35: the steps of the full-field pipeline, in order. -/
theorem ffxas_steps (parent : Str) (c : Ffxas) :
    (ffxas parent c).map (fun t => (t.method, t.name)) = c.steps.map (fun x => (x.1, processName x.2)) := by
  obtain ⟨n, o, a, d⟩ := c
  rcases n with _ | _ | _ <;> rcases o with _ | _ | _ <;> cases a <;> cases d <;>
    simp [ffxas, Ffxas.onload, Ffxas.steps]

/-- C35: the full-field pipeline succeeds when all its tasks work. -/
theorem ffxas_succeeds (parent : Str) (c : Ffxas) (hf : Follows E (ffxas parent c)) (hk : Keeps E)
    (hw : ∀ i < (ffxas parent c).length, Works E i) {st : St S} (hs : Sound E st) :
    ∃ st', runSequential E (List.range (ffxas parent c).length) st = (.returned true, st') ∧
      ∀ i < (ffxas parent c).length, E.out i st'.world = true := by
  obtain ⟨st', hst⟩ := succeeds E hk hs (fun i hi => hw i (List.mem_range.1 hi))
    (ordered_of_earlier E (earlier_of_chained (ffxas_chained parent c)) hf st.world)
  exact ⟨st', hst, fun i hi => all_done E hk hs hst i (List.mem_range.2 hi)⟩

/-- C35: the data are normalized exactly once when this is wanted, and not otherwise, except
when nothing was said about normalization and it should not be done while loading. -/
theorem ffxas_normalized_iff (parent : Str) (c : Ffxas) :
    normalizations parent c = (if c.wanted then 1 else 0) ↔ ¬ (c.normalize = none ∧ c.normalizeonload = some false) := by
  obtain ⟨n, o, a, d⟩ := c
  rcases n with _ | _ | _ <;> rcases o with _ | _ | _ <;> cases a <;> cases d <;>
    simp [normalizations, ffxas, Ffxas.onload, Ffxas.wanted]

end SC.Pipeline
