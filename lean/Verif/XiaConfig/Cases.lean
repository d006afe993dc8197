import Verif.XiaConfig.Props
/-! # Scoped settings of XIA data: cases and deviations (C34) -/

namespace SC.XiaConfig

/-- C34 (deviation): when the caller handles an exception raised in a block, the settings of the
block stay: statistics were read temporarily, now they are read always. -/
theorem handled_not_restored : ∃ (p : Prog) (c' : Config),
    (Prog.attempt p).exec [] (initial, ()) = (.ok (), c', ()) ∧ initial.indexing.data = true ∧
    initial.indexing.stats = false ∧ c'.indexing.data = false ∧ c'.indexing.stats = true :=
  ⟨.scope .onlystats .fail, Scope.onlystats.enter initial, rfl, rfl, rfl, rfl, rfl⟩

/-- C34 (deviation): a successful block leaves a trace.  After it, asking for data and statistics
does not move the dead time correction to the highest level any more. -/
theorem frozen_after_scope : ∃ (c c1 c2 : Config),
    (Prog.scope .onlydata .read).exec [] (c, ()) = (.ok (), c1, ()) ∧
    Prog.exec [] .read (Setting.dataandstats.apply c1, ()) = (.ok (), c2, ()) ∧ c2.levels.dt = 0 ∧
    (Prog.exec [] .read (Setting.dataandstats.apply c, ())).2.1.levels.dt = 2 :=
  ⟨(Setting.maxlevel 2).apply initial, { (Setting.maxlevel 2).apply initial with freeze := true },
   Setting.dataandstats.apply { (Setting.maxlevel 2).apply initial with freeze := true }, rfl, rfl, rfl, rfl⟩

/-- C34 (deviation): files labelled `mca` have no detector; the loop visits them with nothing
selected. -/
theorem mca_not_selected : detectorsUsed [['m', 'c', 'a']] initial = [[]] ∧
    detectorsUsed [['m', 'c', 'a']] { initial with exclude := [], incl := [.name []] } = [] := by
  decide

def xia00 : Str := ['x', 'i', 'a', '0', '0']
def xia01 : Str := ['x', 'i', 'a', '0', '1']
def xiaS0 : Str := ['x', 'i', 'a', 'S', '0']

/-- Case of `iter_alone`: the hypotheses hold and the first detector is excluded. -/
example : detectorsUsed [xia00, xia01, xiaS0] { initial with exclude := [.num 0] } = [['0', '1'], ['S', '0']] ∧
    detectorsUsed [xia00, xia01, xiaS0] { initial with exclude := [], incl := [.name ['S', '0']] } = [['S', '0']] := by
  decide

example : ∀ l ∈ [xia00, xia01, xiaS0], IsSpectraLabel l := by
  intro l hl
  simp only [List.mem_cons, List.not_mem_nil, or_false] at hl
  rcases hl with rfl | rfl | rfl
  · exact ⟨'0', '0', rfl⟩
  · exact ⟨'0', '1', rfl⟩
  · exact ⟨'S', '0', rfl⟩

/-- Case of `iter_visits`: a body that notes the selected detectors. -/
example : (iterDetectors [xia00, xia01, xiaS0]
    (fun _ s => (Res.ok (none : Option Unit), s.1, s.2 ++ [detectorsUsed [xia00, xia01, xiaS0] s.1]))
    ({ initial with exclude := [.num 0] }, [])) =
    (.ok none, { initial with exclude := [.num 0] }, [[['0', '1']], [['S', '0']]]) := by
  decide

/-- The same with a body that leaves the loop and one that raises. -/
example : (iterDetectors (W := Unit) [xia00, xia01, xiaS0] (fun d s => (Res.ok (some d), s))
    ({ initial with exclude := [.num 0] }, ())) = (.ok (some ['0', '1']), { initial with exclude := [.num 0] }, ()) := by
  decide

example : (iterDetectors (W := Unit) (β := Unit) [xia00, xia01, xiaS0] (fun _ s => (Res.raised, s))
    ({ initial with exclude := [.num 0] }, ())) = (.raised, { initial with exclude := [.num 0] }, ()) := by
  decide

/-- `allstats` (xiaedf.py 1003-1007) that reads, and then `data` for each detector. -/
def nested : Prog :=
  .seq (.scope .onlystats (.scope .allstats .read)) (.each fun _ => .scope .onlydata .read)

/-- Case of `nesting_restores`. -/
example : nested.Plain ∧ ∃ c', nested.exec [xia00, xia01] (initial, ()) = (.ok (), c', ()) ∧ c'.freeze = true :=
  ⟨by simp [nested, Prog.Plain], { initial with freeze := true }, by decide, rfl⟩

/-- Case of `nesting_raised`: reading all statistics fails. -/
example : let p := Prog.scope .onlystats (.scope .allstats (.seq .read .fail))
    p.Plain ∧ p.RaisesIn [.onlystats, .allstats] ∧
    (p.exec [] (initial, ())).1 = .raised ∧ (p.exec [] (initial, ())).2.1.indexing = ⟨false, true, false, false⟩ := by
  exact ⟨by simp [Prog.Plain], .scope (.scope (.second .fail)), rfl, rfl⟩

/-- Case of `scope_restores`: the body itself changes the settings. -/
example : scope .onlydata (M.set (W := Unit) .dataall) (initial, ()) =
    (.ok (), { initial with freeze := true }, ()) := by
  decide

/-- Case of `used_iff` with both lists. -/
example : detectorsUsed [xia00, xia01, xiaS0] { initial with exclude := [.num 0], incl := [.num 0, .num 1] }
    = [['0', '1']] := by decide

end SC.XiaConfig
