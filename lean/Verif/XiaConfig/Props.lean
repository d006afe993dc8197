import Verif.XiaConfig.Spec
import Verif.Naming.Lemmas
import Mathlib.Tactic.Common
/-! # Scoped settings of XIA data (C34) -/

namespace SC.XiaConfig

variable {W α β : Type}

theorem enter_indexing (k : Scope) (c : Config) : (k.enter c).indexing = k.inside c.indexing := by
  cases k <;> rfl

theorem enter_freeze (k : Scope) (c : Config) : (k.enter c).freeze = true := rfl

/-- C34: whatever is done in the block, when it doesn't raise the indexing settings are back. -/
theorem scope_restores (k : Scope) (m : M W α) (s : Config × W) {a : α} {c : Config} {w : W}
    (h : scope k m s = (.ok a, c, w)) : c.indexing = s.1.indexing := by
  unfold scope at h
  split at h
  · simp only [Prod.mk.injEq] at h
    rw [← h.2.1]
  · simp at h

/-- In the block the settings are those of the scope; the value of the block is returned, and of
the settings only the indexing is restored. -/
theorem scope_value (k : Scope) (m : M W α) (c c' : Config) (w w' : W) (a : α)
    (h : m (k.enter c, w) = (.ok a, c', w')) :
    scope k m (c, w) = (.ok a, { c' with indexing := c.indexing }, w') := by
  simp [scope, h]

/-- C34: after an exception nothing is restored: the settings are those where it was raised. -/
theorem scope_raised (k : Scope) (m : M W α) (c c' : Config) (w w' : W) :
    scope k m (c, w) = (.raised, c', w') ↔ m (k.enter c, w) = (.raised, c', w') := by
  unfold scope
  generalize hm : m (k.enter c, w) = x
  obtain ⟨r, c1, w1⟩ := x
  cases r <;> simp

/-- C34: after a loop over the detectors, left in any way, the selected detectors are as before. -/
theorem iter_restores (labels : List Str) (body : Str → M W (Option β)) (s : Config × W) :
    (iterDetectors labels body s).2.1.exclude = s.1.exclude ∧
    (iterDetectors labels body s).2.1.incl = s.1.incl := ⟨rfl, rfl⟩

/-! ## Each detector alone -/

theorem prefix_xia (s : Str) : ['x', 'i', 'a'].isPrefixOf ('x' :: 'i' :: 'a' :: s) = true := by
  simp [List.isPrefixOf]

theorem parselabel_xia (s : Str) : (Xia.xiaparselabel ('x' :: 'i' :: 'a' :: s)).2 = s := by
  simp [Xia.xiaparselabel]

theorem toLabel_two (a b : Char) : (Det.name [a, b]).toLabel = ['x', 'i', 'a', a, b] := by
  simp only [Det.toLabel]
  split
  · rename_i h
    simp only [isDigits, List.isEmpty_cons, Bool.not_false, Bool.true_and, List.all_eq_true] at h
    have := Naming.pad_self (d := [a, b]) (by simp) h
    simp only [List.length_cons, List.length_nil, Nat.zero_add, Nat.reduceAdd] at this
    rw [this]
    rfl
  · split
    · rename_i h
      simp [List.isPrefixOf] at h
    · rfl

/-- C34: the visited detectors are those of the files that are not excluded and, when there is an
include list, are on it. -/
theorem used_iff (labels : List Str) (hl : ∀ l ∈ labels, IsSpectraLabel l) (c : Config) (a b : Char) :
    [a, b] ∈ detectorsUsed labels c ↔ ['x', 'i', 'a', a, b] ∈ labels ∧
      (∀ x ∈ c.exclude, Det.toLabel x ≠ ['x', 'i', 'a', a, b]) ∧
      (c.incl = [] ∨ ∃ x ∈ c.incl, Det.toLabel x = ['x', 'i', 'a', a, b]) := by
  have hsel : ['x', 'i', 'a', a, b] ∈ selectLabels labels c.exclude c.incl ↔ ['x', 'i', 'a', a, b] ∈ labels ∧
      (∀ x ∈ c.exclude, Det.toLabel x ≠ ['x', 'i', 'a', a, b]) ∧
      (c.incl = [] ∨ ∃ x ∈ c.incl, Det.toLabel x = ['x', 'i', 'a', a, b]) := by
    unfold selectLabels
    dsimp only
    have hflip : ∀ x : Det, (['x', 'i', 'a', a, b] = Det.toLabel x) = (Det.toLabel x = ['x', 'i', 'a', a, b]) :=
      fun x => propext ⟨Eq.symm, Eq.symm⟩
    cases labels with
    | nil => simp
    | cons l0 ls =>
      cases c.exclude with
      | nil =>
        cases c.incl with
        | nil => simp
        | cons i is => simp [hflip]
      | cons e es =>
        cases c.incl with
        | nil => simp [hflip]
        | cons i is => simp [and_assoc, hflip]
  rw [← hsel]
  unfold detectorsUsed
  rw [List.mem_map]
  constructor
  · rintro ⟨l, h1, h2⟩
    have hsub : l ∈ labels := by
      revert h1
      unfold selectLabels
      dsimp only
      split_ifs
      · exact fun h => h
      · exact fun h => h
      · exact fun h => (List.mem_filter.1 h).1
      · exact fun h => (List.mem_filter.1 h).1
      · exact fun h => (List.mem_filter.1 h).1
    obtain ⟨a', b', rfl⟩ := hl l hsub
    rw [parselabel_xia] at h2
    simp only [List.cons.injEq, and_true] at h2
    obtain ⟨rfl, rfl⟩ := h2
    exact h1
  · intro h
    exact ⟨_, h, by rw [parselabel_xia]⟩

/-- C34: inside the loop exactly the detector of the iteration is selected. -/
theorem iter_alone (labels : List Str) (hl : ∀ l ∈ labels, IsSpectraLabel l) (hn : labels.Nodup)
    (c c' : Config) (d : Str) (hd : d ∈ detectorsUsed labels c) (h1 : c'.exclude = [])
    (h2 : c'.incl = [.name d]) : detectorsUsed labels c' = [d] := by
  have hsub : selectLabels labels c.exclude c.incl ⊆ labels := by
    unfold selectLabels
    dsimp only
    split_ifs
    · exact fun _ h => h
    · exact fun _ h => h
    · exact List.filter_subset_self _
    · exact List.filter_subset_self _
    · exact List.filter_subset_self _
  obtain ⟨l, hl1, rfl⟩ := List.mem_map.1 hd
  have hl2 := hsub hl1
  obtain ⟨a, b, rfl⟩ := hl l hl2
  rw [parselabel_xia] at h2 ⊢
  have hne : labels.isEmpty = false := by
    cases labels with
    | nil => simp at hl2
    | cons => rfl
  have : selectLabels labels c'.exclude c'.incl = [['x', 'i', 'a', a, b]] := by
    rw [h1, h2]
    unfold selectLabels
    simp only [List.map_nil, List.map_cons, toLabel_two, hne, List.isEmpty_nil, List.isEmpty_cons,
      Bool.and_false, Bool.false_eq_true, if_false, if_true, List.mem_singleton]
    have h3 : labels.filter (fun x => decide (x = ['x', 'i', 'a', a, b])) =
        List.replicate (labels.count ['x', 'i', 'a', a, b]) ['x', 'i', 'a', a, b] := by
      exact List.filter_eq ['x', 'i', 'a', a, b]
    rw [h3, List.count_eq_one_of_mem hn hl2]
    rfl
  unfold detectorsUsed
  rw [this]
  simp [parselabel_xia]

theorem detLoop_rule {body : Str → M W (Option β)} {I : List Str → Config × W → Prop}
    (hI : ∀ ds c w x y, I ds (c, w) → I ds ({ c with exclude := x, incl := y }, w))
    (hbody : ∀ pre d c w, I pre (c, w) → c.exclude = [] → c.incl = [.name d] →
      ∀ r c' w', body d (c, w) = (.ok r, c', w') → c'.exclude = [] ∧ I (pre ++ [d]) (c', w'))
    (ds pre : List Str) (c : Config) (w : W) (h0 : I pre (c, w)) (he : c.exclude = [])
    (c' : Config) (w' : W) (h : detLoop body ds (c, w) = (.ok none, c', w')) : I (pre ++ ds) (c', w') := by
  induction ds generalizing pre c w with
  | nil =>
    simp only [detLoop, Prod.mk.injEq, true_and] at h
    obtain ⟨rfl, rfl⟩ := h
    simpa using h0
  | cons d ds ih =>
    simp only [detLoop] at h
    have h1 : I pre ((Setting.incl [.name d]).apply c, w) := by
      have := hI pre c w c.exclude [.name d] h0
      exact this
    split at h
    · rename_i s hb
      obtain ⟨c1, w1⟩ := s
      obtain ⟨h2, h3⟩ := hbody pre d _ w h1 he rfl none c1 w1 hb
      have := ih (pre ++ [d]) c1 w1 h3 h2 h
      simpa using this
    · simp at h
    · simp at h

/-- C34: the loop runs its body once for each detector that was selected before, in their order,
with that detector alone selected: what such steps achieve, the loop achieves. -/
theorem iter_visits (labels : List Str) (body : Str → M W (Option β)) (I : List Str → Config × W → Prop)
    (hI : ∀ ds c w x y, I ds (c, w) → I ds ({ c with exclude := x, incl := y }, w))
    (hbody : ∀ pre d c w, I pre (c, w) → c.exclude = [] → c.incl = [.name d] →
      ∀ r c' w', body d (c, w) = (.ok r, c', w') → c'.exclude = [] ∧ I (pre ++ [d]) (c', w'))
    (c c' : Config) (w w' : W) (h0 : I [] (c, w)) (h : iterDetectors labels body (c, w) = (.ok none, c', w')) :
    I (detectorsUsed labels c) (c', w') := by
  unfold iterDetectors at h
  generalize hx : detLoop body (detectorsUsed labels c) ((Setting.exclude []).apply c, w) = x at h
  obtain ⟨r, c1, w1⟩ := x
  simp only [Prod.mk.injEq] at h
  obtain ⟨rfl, rfl, rfl⟩ := h
  have := detLoop_rule hI hbody _ [] _ w (hI [] c w [] c.incl h0) rfl c1 w1 hx
  exact hI _ _ _ _ _ this

/-! ## Every nesting -/

theorem SameSettings.refl (c : Config) : SameSettings c c := ⟨rfl, rfl, rfl, rfl, rfl, rfl, rfl, rfl, rfl⟩

theorem SameSettings.trans {a b c : Config} (h : SameSettings a b) (h' : SameSettings b c) : SameSettings a c :=
  ⟨h'.1.trans h.1, h'.2.trans h.2, h'.3.trans h.3, h'.4.trans h.4, h'.5.trans h.5, h'.6.trans h.6,
   h'.7.trans h.7, h'.8.trans h.8, h'.9.trans h.9⟩

theorem same_setLevels (c : Config) : SameSettings c (setLevels c) := by
  unfold setLevels
  split <;> exact ⟨rfl, rfl, rfl, rfl, rfl, rfl, rfl, rfl, rfl⟩

/-- Same settings up to the indexing. -/
def SameBut (c c' : Config) : Prop := SameSettings c { c' with indexing := c.indexing }

/-- The loop, when every iteration either restores all settings or raises. -/
theorem detLoop_plain {f : Str → M W Unit} {Q : Str → Config → Config → Prop}
    (h : ∀ d c w, (∃ c', f d (c, w) = (.ok (), c', w) ∧ SameSettings c c') ∨
      (∃ c', f d (c, w) = (.raised, c', w) ∧ SameBut c c' ∧ Q d c c'))
    (ds : List Str) (c : Config) (w : W) :
    (∃ c', detLoop (fun d => M.bind (f d) fun _ => M.pure (none : Option Unit)) ds (c, w) = (.ok none, c', w) ∧
      SameSettings { c with incl := c'.incl } c') ∨
    (∃ c', detLoop (fun d => M.bind (f d) fun _ => M.pure (none : Option Unit)) ds (c, w) = (.raised, c', w) ∧
      SameBut { c with incl := c'.incl } c' ∧ ∃ d c1, c1.indexing = c.indexing ∧ Q d c1 c') := by
  induction ds generalizing c with
  | nil => exact Or.inl ⟨c, rfl, SameSettings.refl _⟩
  | cons d ds ih =>
    simp only [detLoop]
    rcases h d ((Setting.incl [.name d]).apply c) w with ⟨c1, e1, s1⟩ | ⟨c1, e1, s1, q1⟩
    · have e2 : (M.bind (f d) fun _ => M.pure (none : Option Unit)) ((Setting.incl [.name d]).apply c, w) =
          (.ok none, c1, w) := by simp [M.bind, e1, M.pure]
      rw [e2]
      have s1' : SameSettings { c with incl := c1.incl } c1 :=
        ⟨s1.1, s1.2, s1.3, rfl, s1.5, s1.6, s1.7, s1.8, s1.9⟩
      rcases ih c1 with ⟨c2, e3, s2⟩ | ⟨c2, e3, s2, d', c3, i3, q3⟩
      · refine Or.inl ⟨c2, e3, ?_⟩
        exact ⟨s2.1.trans s1'.1, s2.2.trans s1'.2, s2.3.trans s1'.3, rfl, s2.5.trans s1'.5,
          s2.6.trans s1'.6, s2.7.trans s1'.7, s2.8.trans s1'.8, s2.9.trans s1'.9⟩
      · refine Or.inr ⟨c2, e3, ?_, d', c3, i3.trans s1'.1, q3⟩
        exact ⟨rfl, s2.2.trans s1'.2, s2.3.trans s1'.3, rfl, s2.5.trans s1'.5,
          s2.6.trans s1'.6, s2.7.trans s1'.7, s2.8.trans s1'.8, s2.9.trans s1'.9⟩
    · have e2 : (M.bind (f d) fun _ => M.pure (none : Option Unit)) ((Setting.incl [.name d]).apply c, w) =
          (.raised, c1, w) := by simp [M.bind, e1]
      rw [e2]
      refine Or.inr ⟨c1, rfl, ?_, d, (Setting.incl [.name d]).apply c, rfl, q1⟩
      exact ⟨rfl, s1.2, s1.3, rfl, s1.5, s1.6, s1.7, s1.8, s1.9⟩

theorem exec_plain (labels : List Str) (p : Prog) (hp : p.Plain) (c : Config) (w : W) :
    (∃ c', p.exec labels (c, w) = (.ok (), c', w) ∧ SameSettings c c') ∨
    (∃ c', p.exec labels (c, w) = (.raised, c', w) ∧ SameBut c c' ∧
      ∃ path, p.RaisesIn path ∧ c'.indexing = path.foldl (fun i k => k.inside i) c.indexing) := by
  induction p generalizing c w with
  | skip => exact Or.inl ⟨c, rfl, SameSettings.refl c⟩
  | fail => exact Or.inr ⟨c, rfl, SameSettings.refl c, [], .fail, rfl⟩
  | read => exact Or.inl ⟨setLevels c, rfl, same_setLevels c⟩
  | seq p q ihp ihq =>
    obtain ⟨hp, hq⟩ := hp
    simp only [Prog.exec, M.bind]
    rcases ihp hp c w with ⟨c1, e1, s1⟩ | ⟨c1, e1, s1, path, r1, i1⟩
    · rw [e1]
      rcases ihq hq c1 w with ⟨c2, e2, s2⟩ | ⟨c2, e2, s2, path, r2, i2⟩
      · exact Or.inl ⟨c2, e2, s1.trans s2⟩
      · refine Or.inr ⟨c2, e2, ?_, path, .second r2, by rw [i2, s1.1]⟩
        exact ⟨rfl, s2.2.trans s1.2, s2.3.trans s1.3, s2.4.trans s1.4, s2.5.trans s1.5,
          s2.6.trans s1.6, s2.7.trans s1.7, s2.8.trans s1.8, s2.9.trans s1.9⟩
    · rw [e1]
      exact Or.inr ⟨c1, rfl, s1, path, .first r1, i1⟩
  | scope k p ih =>
    simp only [Prog.exec, scope]
    have hk : SameBut (k.enter c) c := by cases k <;> exact ⟨rfl, rfl, rfl, rfl, rfl, rfl, rfl, rfl, rfl⟩
    rcases ih hp (k.enter c) w with ⟨c1, e1, s1⟩ | ⟨c1, e1, s1, path, r1, i1⟩
    · rw [e1]
      refine Or.inl ⟨_, rfl, ?_⟩
      exact ⟨rfl, s1.2.trans hk.2.symm, s1.3.trans hk.3.symm, s1.4.trans hk.4.symm, s1.5.trans hk.5.symm,
        s1.6.trans hk.6.symm, s1.7.trans hk.7.symm, s1.8.trans hk.8.symm, s1.9.trans hk.9.symm⟩
    · rw [e1]
      refine Or.inr ⟨_, rfl, ?_, k :: path, .scope r1, ?_⟩
      · exact ⟨rfl, s1.2.trans hk.2.symm, s1.3.trans hk.3.symm, s1.4.trans hk.4.symm, s1.5.trans hk.5.symm,
        s1.6.trans hk.6.symm, s1.7.trans hk.7.symm, s1.8.trans hk.8.symm, s1.9.trans hk.9.symm⟩
      · rw [i1, enter_indexing]
        rfl
  | each p ih =>
    simp only [Prog.exec, iterDetectors, M.bind]
    have key := detLoop_plain (f := fun d => (p d).exec labels)
      (Q := fun d c c' => ∃ path, (p d).RaisesIn path ∧ c'.indexing = path.foldl (fun i k => k.inside i) c.indexing)
      (fun d c w => ih d (hp d) c w) (detectorsUsed labels c) ((Setting.exclude []).apply c) w
    rcases key with ⟨c1, e1, s1⟩ | ⟨c1, e1, s1, d, c2, i2, path, r, i1⟩
    · rw [e1]
      refine Or.inl ⟨_, rfl, ?_⟩
      exact ⟨s1.1, s1.2, rfl, rfl, s1.5, s1.6, s1.7, s1.8, s1.9⟩
    · rw [e1]
      refine Or.inr ⟨_, rfl, ?_, path, .each r, ?_⟩
      · exact ⟨rfl, s1.2, rfl, rfl, s1.5, s1.6, s1.7, s1.8, s1.9⟩
      · show c1.indexing = _
        rw [i1, i2]
        rfl
  | attempt p ih => exact absurd hp (by simp [Prog.Plain])

/-- C34: any nesting of scopes and loops over the detectors that does not raise leaves all settings
as they were. -/
theorem nesting_restores (labels : List Str) (p : Prog) (hp : p.Plain) (c c' : Config) (w w' : W)
    (h : p.exec labels (c, w) = (.ok (), c', w')) : SameSettings c c' := by
  rcases exec_plain labels p hp c w with ⟨c1, e1, s1⟩ | ⟨c1, e1, _⟩
  · rw [e1] at h
    simp only [Prod.mk.injEq] at h
    rw [← h.2.1]
    exact s1
  · rw [e1] at h
    simp at h

/-- C34: when any nesting raises, the indexing settings are left as inside the scopes around the
place where the exception was raised; the other settings are as they were. -/
theorem nesting_raised (labels : List Str) (p : Prog) (hp : p.Plain) (c c' : Config) (w w' : W)
    (h : p.exec labels (c, w) = (.raised, c', w')) :
    SameSettings c { c' with indexing := c.indexing } ∧
    ∃ path, p.RaisesIn path ∧ c'.indexing = path.foldl (fun i k => k.inside i) c.indexing := by
  rcases exec_plain labels p hp c w with ⟨c1, e1, _⟩ | ⟨c1, e1, s1, x⟩
  · rw [e1] at h
    simp at h
  · rw [e1] at h
    simp only [Prod.mk.injEq, true_and] at h
    rw [← h.1]
    exact ⟨s1, x⟩

/-- C34: the selected detectors are always as before, also with handled and unhandled exceptions. -/
theorem detectors_restored (labels : List Str) (p : Prog) (c : Config) (w : W) :
    (p.exec labels (c, w)).2.1.exclude = c.exclude ∧ (p.exec labels (c, w)).2.1.incl = c.incl := by
  induction p generalizing c w with
  | skip => exact ⟨rfl, rfl⟩
  | fail => exact ⟨rfl, rfl⟩
  | read => exact ⟨(same_setLevels c).3, (same_setLevels c).4⟩
  | seq p q ihp ihq =>
    simp only [Prog.exec, M.bind]
    have h1 := ihp c w
    generalize p.exec labels (c, w) = x at h1
    obtain ⟨r, c1, w1⟩ := x
    cases r with
    | ok a =>
      have h2 := ihq c1 w1
      exact ⟨h2.1.trans h1.1, h2.2.trans h1.2⟩
    | raised => exact h1
  | scope k p ih =>
    simp only [Prog.exec, scope]
    have h1 := ih (k.enter c) w
    have h2 : (k.enter c).exclude = c.exclude ∧ (k.enter c).incl = c.incl := by cases k <;> exact ⟨rfl, rfl⟩
    rw [h2.1, h2.2] at h1
    generalize p.exec labels (k.enter c, w) = x at h1
    obtain ⟨r, c1, w1⟩ := x
    cases r <;> exact h1
  | each p ih =>
    simp only [Prog.exec, iterDetectors, M.bind]
    generalize detLoop _ _ _ = x
    obtain ⟨r, c1, w1⟩ := x
    cases r <;> exact ⟨rfl, rfl⟩
  | attempt p ih =>
    simp only [Prog.exec, M.attempt]
    have h1 := ih c w
    generalize p.exec labels (c, w) = x at h1
    obtain ⟨r, c1, w1⟩ := x
    cases r <;> exact h1

/-! ## The levels stay frozen -/

/-- Once frozen, always frozen, and the levels never change again. -/
def Frozen (c c' : Config) : Prop := c.freeze = true → c'.freeze = true ∧ c'.levels = c.levels

theorem frozen_detLoop {f : Str → M W Unit} (h : ∀ d c w, Frozen c (f d (c, w)).2.1) (ds : List Str)
    (c : Config) (w : W) :
    Frozen c (detLoop (fun d => M.bind (f d) fun _ => M.pure (none : Option Unit)) ds (c, w)).2.1 := by
  induction ds generalizing c w with
  | nil => exact fun h => ⟨h, rfl⟩
  | cons d ds ih =>
    intro hc
    simp only [detLoop, M.bind]
    have h1 := h d ((Setting.incl [.name d]).apply c) w hc
    generalize f d ((Setting.incl [.name d]).apply c, w) = x at h1
    obtain ⟨r, c1, w1⟩ := x
    cases r with
    | ok a =>
      have := ih c1 w1 h1.1
      exact ⟨this.1, this.2.trans h1.2⟩
    | raised => exact h1

/-- C34 (deviation): nothing unfreezes the levels. -/
theorem stays_frozen (labels : List Str) (p : Prog) (c : Config) (w : W) :
    Frozen c (p.exec labels (c, w)).2.1 := by
  induction p generalizing c w with
  | skip => exact fun h => ⟨h, rfl⟩
  | fail => exact fun h => ⟨h, rfl⟩
  | read =>
    intro h
    have : setLevels c = c := by simp [setLevels, h]
    show (setLevels c).freeze = true ∧ (setLevels c).levels = c.levels
    rw [this]
    exact ⟨h, rfl⟩
  | seq p q ihp ihq =>
    intro hc
    simp only [Prog.exec, M.bind]
    have h1 := ihp c w hc
    generalize p.exec labels (c, w) = x at h1
    obtain ⟨r, c1, w1⟩ := x
    cases r with
    | ok a =>
      have h2 := ihq c1 w1 h1.1
      exact ⟨h2.1, h2.2.trans h1.2⟩
    | raised => exact h1
  | scope k p ih =>
    intro hc
    simp only [Prog.exec, scope]
    have h1 := ih (k.enter c) w rfl
    have h2 : (k.enter c).levels = c.levels := by cases k <;> rfl
    rw [h2] at h1
    generalize p.exec labels (k.enter c, w) = x at h1
    obtain ⟨r, c1, w1⟩ := x
    cases r <;> exact h1
  | each p ih =>
    intro hc
    have h1 := frozen_detLoop (f := fun d => (p d).exec labels) (fun d c w => ih d c w) (detectorsUsed labels c)
      ((Setting.exclude []).apply c) w hc
    simp only [Prog.exec, iterDetectors, M.bind] at h1 ⊢
    generalize detLoop _ _ _ = x at h1
    obtain ⟨r, c1, w1⟩ := x
    cases r <;> exact h1
  | attempt p ih =>
    intro hc
    simp only [Prog.exec, M.attempt]
    have h1 := ih c w hc
    generalize p.exec labels (c, w) = x at h1
    obtain ⟨r, c1, w1⟩ := x
    cases r <;> exact h1

/-- C34 (deviation): a scope freezes the levels for good, however it is left. -/
theorem scope_freezes (labels : List Str) (k : Scope) (p : Prog) (c : Config) (w : W) :
    ((Prog.scope k p).exec labels (c, w)).2.1.freeze = true := by
  have h := (stays_frozen labels p (k.enter c) w rfl).1
  simp only [Prog.exec, scope]
  generalize p.exec labels (k.enter c, w) = x at h
  obtain ⟨r, c1, w1⟩ := x
  cases r <;> exact h

end SC.XiaConfig
