import Verif.Qxrf.Props
import Mathlib.Tactic.Linarith
/-! # Property C62, part 2: other setups, copies, all geometries, the devices used for data -/
namespace SC.Qxrf
open SC.Py

/-! ## Other setups -/

theorem geomLoop_frame (l : List GeomArg) (w : World) (acc : List Nat) :
    (geomLoop w acc l).1.diode = w.diode ∧ ∀ g, g ∉ (geomLoop w acc l).2.1 → (geomLoop w acc l).1.geom g = w.geom g := by
  have sub : ∀ (l : List GeomArg) (w : World) (acc : List Nat), ∀ g ∈ acc, g ∈ (geomLoop w acc l).2.1 := by
    intro l
    induction l with
    | nil => intro w acc g hg; exact hg
    | cons x l ih =>
      intro w acc g hg
      cases x with
      | object i => exact ih _ _ _ (List.mem_append_left _ hg)
      | names a d =>
        cases a with
        | none => exact hg
        | some a =>
          cases d with
          | none => exact hg
          | some d => exact ih _ _ _ (List.mem_append_left _ hg)
  induction l generalizing w acc with
  | nil => exact ⟨rfl, fun _ _ => rfl⟩
  | cons x l ih =>
    cases x with
    | object i => exact ih w _
    | names a d =>
      cases a with
      | none => exact ⟨rfl, fun _ _ => rfl⟩
      | some a =>
        cases d with
        | none => exact ⟨rfl, fun _ _ => rfl⟩
        | some d =>
          simp only [geomLoop]
          obtain ⟨h1, h2⟩ := ih (setDetector w a d) (acc ++ [a])
          refine ⟨h1, fun g hg => ?_⟩
          rw [h2 g hg]
          have : g ≠ a := by
            rintro rfl
            exact hg (sub _ _ _ _ (by simp))
          simp [setDetector, Function.update_of_ne this]

theorem update_geom_other (w : World) (s : Setup) (g : Nat) (h : ¬ UsesGeom w s g) :
    (updateDevices w s).geom g = w.geom g := by
  unfold UsesGeom at h
  push_neg at h
  have h2 : ¬ ∃ d, s.diodeI0 = some d ∧ (w.diode d).target = some g := by
    rintro ⟨d, h3, h4⟩
    exact h.2 d h3 h4
  unfold updateDevices
  simp only
  cases s.source with
  | none => simp only; rw [updateDiode_geom, if_neg h2]
  | some o => simp only; rw [setAll_geom, if_neg h.1, updateDiode_geom, if_neg h2]

theorem update_target (w : World) (s : Setup) (d : Nat) : ((updateDevices w s).diode d).target = (w.diode d).target := by
  rw [update_diode]
  split <;> rfl

/-- An assignment changes nothing but the first diode, the geometry of its secondary target and the geometries of this
setup, as they are after it. -/
theorem step_frame (w : World) (s : Setup) (o : Op) :
    (∀ d, ¬ UsesDiode (step w s o).2.1 d → (step w s o).1.diode d = w.diode d) ∧
    (∀ d, ((step w s o).1.diode d).target = (w.diode d).target) ∧
    ∀ g, ¬ UsesGeom w (step w s o).2.1 g → (step w s o).1.geom g = w.geom g := by
  have key : ∀ (s : Setup), (∀ d, ¬ UsesDiode s d → (updateDevices w s).diode d = w.diode d) ∧
      (∀ d, ((updateDevices w s).diode d).target = (w.diode d).target) ∧
      ∀ g, ¬ UsesGeom w s g → (updateDevices w s).geom g = w.geom g := by
    intro s
    refine ⟨fun d hd => ?_, update_target w s, fun g hg => update_geom_other w s g hg⟩
    rw [update_diode, if_neg (show ¬ s.diodeI0 = some d from hd)]
  cases o with
  | simple b => exact key _
  | geoms l =>
    obtain ⟨h1, h2⟩ := geomLoop_frame l w []
    unfold step
    simp only
    rcases hl : geomLoop w [] l with ⟨w', acc, _ | e⟩
    · rw [hl] at h1 h2
      simp only at h1 h2 ⊢
      refine ⟨fun d hd => ?_, fun d => ?_, fun g hg => ?_⟩
      · rw [update_diode, if_neg (show ¬ s.diodeI0 = some d from hd), h1]
      · rw [update_target, h1]
      · rw [update_geom_other]
        · apply h2
          intro hm
          exact hg (Or.inl hm)
        · unfold UsesGeom at hg ⊢
          rw [h1]
          exact hg
    · rw [hl] at h1 h2
      simp only at h1 h2 ⊢
      refine ⟨fun d _ => by rw [h1], fun d => by rw [h1], fun g hg => h2 g fun hm => hg (Or.inl hm)⟩
  | _ a =>
    unfold step
    simp only
    cases generate a with
    | ok o => exact key _
    | error e => exact ⟨fun _ _ => rfl, fun _ => rfl, fun _ _ => rfl⟩

/-- A setup that shares no diode or geometry with this one keeps its devices together. -/
theorem other_setup (w : World) (s s2 : Setup) (o : Op) (hi : InSync w s2)
    (hd : ∀ d, UsesDiode s2 d → ¬ UsesDiode (step w s o).2.1 d)
    (hg : ∀ g, UsesGeom w s2 g → ¬ UsesGeom w (step w s o).2.1 g) : InSync (step w s o).1 s2 := by
  obtain ⟨h1, h2, h3⟩ := step_frame w s o
  constructor
  · intro d hd2
    rw [h1 d (hd d hd2)]
    refine ⟨(hi.1 d hd2).1, (hi.1 d hd2).2.1, fun g hg2 => ?_⟩
    rw [h3 g (hg g (Or.inr ⟨d, hd2, hg2⟩))]
    exact (hi.1 d hd2).2.2 g hg2
  · intro g hg2
    rw [h3 g (hg g (Or.inl hg2))]
    exact hi.2 g hg2

/-- Restoring a saved setup gives the same setup, and nothing happens to its devices. -/
theorem restore_same (w : World) (s : Setup) (hs : s.source ≠ none) (hi : InSync w s) :
    construct w fresh (restore s) = .ok (w, s) := by
  have hgen : ∀ o : Option Nat, generate (.ofObject o) = .ok o := by intro o; cases o <;> rfl
  have hloop : ∀ (l : List Nat) (acc : List Nat), geomLoop w acc (l.map .object) = (w, acc ++ l, none) := by
    intro l
    induction l with
    | nil => intro acc; simp [geomLoop]
    | cons a l ih => intro acc; rw [List.map_cons, geomLoop, ih]; simp
  have hempty : ∀ (o c : Option Nat) (b : Bool), updateDevices w ⟨o, c, b, none, none, []⟩ = w := by
    intro o c b
    unfold updateDevices updateDiode
    simp only
    cases c <;> rfl
  obtain ⟨o, c, b, i, t, gs⟩ := s
  unfold restore assignments
  simp only [construct, step, hgen, fresh, hempty, hloop, List.nil_append]
  rw [update_same w ⟨o, c, b, none, none, gs⟩ hs ⟨by simp, hi.2⟩, update_same w ⟨o, c, b, i, none, gs⟩ hs ⟨hi.1, hi.2⟩,
    update_same w ⟨o, c, b, i, t, gs⟩ hs hi]

/-! ## Where devices don't belong together -/

/-- A world for examples: diode 0 with a secondary target at geometry 9, diode 1 without. -/
def exampleWorld : World where
  diode i := if i = 0 then ⟨['I'], [], false, some 9, 1⟩ else ⟨['T'], [], false, none, 1⟩
  geom _ := ⟨none, none, 0⟩
  opticsCls _ := ['K']
  detGeom _ := none
  area _ := 1

/-- A setup for examples. -/
def exampleOps : List Op :=
  assignments true (.object 3) (.object 4) [.object 5, .names (some 6) (some 2)] (.object 0) (.name (some 1))

/-- Hypotheses can be met. -/
example : ∃ w' s, construct exampleWorld fresh exampleOps = .ok (w', s) ∧ InSync w' s ∧ s.geoms = [5, 6] ∧
    (w'.diode 0).optics = [3] ∧ (w'.geom 9).source = some 4 ∧ (w'.geom 6).source = some 4 := by
  obtain ⟨w', s, h1, h2, _, h4, h5, h6, _, h8⟩ := construct_sync exampleWorld true (.object 3) (.object 4) (.object 0)
    (.name (some 1)) [.object 5, .names (some 6) (some 2)] trivial trivial (by simp) (by simp [GeomArg.Known]) trivial trivial
  have e4 : s.optics = some 3 := by simpa [generate, eq_comm] using h4
  have e5 : s.source = some 4 := by simpa [generate, eq_comm] using h5
  have e6 : s.diodeI0 = some 0 := by simpa [generate, eq_comm] using h6
  have e8 : s.geoms = [5, 6] := by simpa [GeomArg.geom] using h8
  refine ⟨w', s, h1, h2, e8, ?_, ?_, ?_⟩
  · rw [(h2.1 0 e6).1, e4]; rfl
  · have ht : (w'.diode 0).target = some 9 := by
      have : construct exampleWorld fresh exampleOps = .ok (w', s) := h1
      have h9 : (match construct exampleWorld fresh exampleOps with
        | .ok (w, _) => (w.diode 0).target | .error _ => none) = some 9 := by rfl
      rw [this] at h9
      exact h9
    rw [(h2.1 0 e6).2.2 9 ht, e5]
  · rw [h2.2 6 (by rw [e8]; simp), e5]

/-- Taking the source away leaves it in the geometries. -/
theorem no_source : ∃ w s, InSync w s ∧ (step w s (.source .none)).2.2 = none ∧
    (step w s (.source .none)).2.1.source = none ∧ ∀ g ∈ s.geoms, ((step w s (.source .none)).1.geom g).source = some 4 := by
  refine ⟨{ exampleWorld with geom := fun _ => ⟨some 4, none, 0⟩ }, ⟨none, some 4, true, none, none, [5]⟩, ?_, rfl, rfl, ?_⟩
  · exact ⟨by simp, by simp⟩
  · intro g _; rfl

/-- Geometries of which one is not known: the others are there without the source, the ones before are gone. -/
theorem geoms_failed (w : World) (s : Setup) (a : Nat) (h : (w.geom a).source ≠ s.source) :
    (step w s (.geoms [.object a, .names none (some 0)])).2.2 = some .runtimeError ∧
    (step w s (.geoms [.object a, .names none (some 0)])).2.1.geoms = [a] ∧
    ¬ InSync (step w s (.geoms [.object a, .names none (some 0)])).1 (step w s (.geoms [.object a, .names none (some 0)])).2.1 := by
  refine ⟨rfl, rfl, fun hi => ?_⟩
  exact h (hi.2 a (by simp [step, geomLoop]))

/-- The next assignment that does not raise repairs this. -/
theorem geoms_repaired (w : World) (s : Setup) (l : List GeomArg) (o : Op) (ho : o.Known)
    (hs : (step (step w s (.geoms l)).1 (step w s (.geoms l)).2.1 o).2.1.source ≠ none) :
    InSync (step (step w s (.geoms l)).1 (step w s (.geoms l)).2.1 o).1
      (step (step w s (.geoms l)).1 (step w s (.geoms l)).2.1 o).2.1 :=
  step_sync _ _ _ ((step_raises _ _ _).2 ho) hs

/-- A shallow copy has the same diode: other optics for the copy are other optics for the diode of the original. -/
theorem copy_shares (w : World) (s : Setup) (d o : Nat) (hd : s.diodeI0 = some d) (ho : s.optics ≠ some o) :
    ¬ InSync (step w s (.optics (.object o))).1 s := by
  intro hi
  have h1 := (hi.1 d hd).1
  have h2 : ((step w s (.optics (.object o))).1.diode d).optics = [o] := by
    simp only [step, generate]
    rw [update_diode, if_pos hd]
    rfl
  rw [h2] at h1
  cases hx : s.optics with
  | none => rw [hx] at h1; simp at h1
  | some y =>
    rw [hx] at h1
    simp only [Option.toList_some, List.cons.injEq, and_true] at h1
    exact ho (by rw [hx, h1])

/-! ## Attributes of all geometries -/

theorem setPositions_geom (ps : List (Nat × ℚ)) (w : World) (g : Nat) (hn : (ps.map Prod.fst).Nodup) :
    ((ps.foldl (fun w p => { w with geom := Function.update w.geom p.1 { w.geom p.1 with position := p.2 } }) w).geom g) =
      match ps.find? fun p => p.1 == g with
      | some p => { w.geom g with position := p.2 }
      | none => w.geom g := by
  induction ps generalizing w with
  | nil => rfl
  | cons p ps ih =>
    rw [List.map_cons, List.nodup_cons] at hn
    rw [List.foldl_cons, ih _ hn.2, List.find?_cons]
    by_cases h : p.1 = g
    · have hnf : ps.find? (fun q => q.1 == g) = none := by
        rw [List.find?_eq_none]
        intro q hq he
        apply hn.1
        rw [h, ← (beq_iff_eq.1 he)]
        exact List.mem_map_of_mem hq
      simp [h, hnf]
    · have hb : (p.1 == g) = false := by simpa using h
      rw [hb]
      simp only [Function.update_of_ne (Ne.symm h)]

/-- Positions of all geometries are what they are set to. -/
theorem positions_set (w : World) (s : Setup) (l : List ℚ) (hn : s.geoms.Nodup) (hl : l.length = s.geoms.length) :
    positions (setPositions w s l) s = l := by
  unfold positions setPositions
  have hz : (s.geoms.zip l).map Prod.fst = s.geoms := by
    rw [List.map_fst_zip]
    omega
  apply List.ext_getElem
  · simp [hl]
  · intro i h1 h2
    simp only [List.length_map] at h1
    rw [List.getElem_map, setPositions_geom _ _ _ (by rw [hz]; exact hn)]
    have hf : (s.geoms.zip l).find? (fun p => p.1 == s.geoms[i]) = some (s.geoms[i], l[i]) := by
      rw [List.find?_eq_some_iff_getElem]
      refine ⟨by simp, i, by simp; omega, by simp, ?_⟩
      intro j hj
      simp only [List.getElem_zip, Bool.not_eq_eq_eq_not, Bool.not_true, beq_eq_false_iff_ne]
      intro he
      have := (List.Nodup.getElem_inj_iff hn).1 he
      omega
    rw [hf]

/-- Too few positions: the geometries without one keep theirs, no exception. -/
theorem positions_short (w : World) (s : Setup) (l : List ℚ) (hn : s.geoms.Nodup) (i : Nat) (hi : i < s.geoms.length)
    (hl : l.length ≤ i) : (setPositions w s l).geom s.geoms[i] = w.geom s.geoms[i] := by
  unfold setPositions
  have hnz : ((s.geoms.zip l).map Prod.fst).Nodup := by
    have : (s.geoms.zip l).map Prod.fst = s.geoms.take l.length := by
      have : ∀ (a : List Nat) (b : List ℚ), (a.zip b).map Prod.fst = a.take b.length := by
        intro a
        induction a with
        | nil => simp
        | cons x a ih => intro b; cases b <;> simp [ih]
      exact this _ _
    rw [this]
    exact hn.sublist (List.take_sublist ..)
  rw [setPositions_geom _ _ _ hnz]
  have hf : (s.geoms.zip l).find? (fun p => p.1 == s.geoms[i]) = none := by
    rw [List.find?_eq_none]
    intro p hp he
    obtain ⟨j, hj, rfl⟩ := List.getElem_of_mem hp
    simp only [List.getElem_zip, beq_iff_eq] at he
    have := (List.Nodup.getElem_inj_iff hn).1 he
    simp only [List.length_zip] at hj
    omega
  rw [hf]

/-- Two geometries with the same detector: the area of the second is that of both. -/
theorem areas_shared (w : World) (s : Setup) (a b d : Nat) (p q : ℚ) (hs : s.geoms = [a, b])
    (ha : (w.geom a).detector = some d) (hb : (w.geom b).detector = some d) :
    areas (setAreas w s [p, q]) s = [some q, some q] := by
  simp [areas, setAreas, setArea, hs, ha, hb]

/-! ## Devices used for the data -/

/-- The name that the position of a motor tells. -/
def Limits.name (l : Limits) (p : ℚ) : Str := if |p - l.posa| < |p - l.posb| then l.namea else l.nameb

theorem nameLoop_spec (pos : Str → Option ℚ) (l : List (Str × Limits)) (n : Option Str) :
    (∃ a m lim b p, l = a ++ (m, lim) :: b ∧ pos m = some p ∧ lim.name p ≠ [] ∧
      (∀ x ∈ a, ∀ q, pos x.1 = some q → x.2.name q = []) ∧ nameLoop pos n l = (some (lim.name p), true)) ∨
    ((∀ x ∈ l, ∀ q, pos x.1 = some q → x.2.name q = []) ∧
      nameLoop pos n l = (if ∃ x ∈ l, (pos x.1).isSome then some [] else n, false)) := by
  classical
  induction l generalizing n with
  | nil => right; simp [nameLoop]
  | cons x l ih =>
    obtain ⟨m, lim⟩ := x
    unfold nameLoop
    cases hp : pos m with
    | none =>
      simp only
      rcases ih n with ⟨a, m', lim', b, p, h1, h2, h3, h4, h5⟩ | ⟨h1, h2⟩
      · refine Or.inl ⟨(m, lim) :: a, m', lim', b, p, by rw [h1]; rfl, h2, h3, ?_, h5⟩
        intro x hx q hq
        rcases List.mem_cons.1 hx with rfl | hx
        · rw [hp] at hq; cases hq
        · exact h4 x hx q hq
      · refine Or.inr ⟨?_, ?_⟩
        · intro x hx q hq
          rcases List.mem_cons.1 hx with rfl | hx
          · rw [hp] at hq; cases hq
          · exact h1 x hx q hq
        · rw [h2]
          simp [hp]
    | some p =>
      simp only
      have hname : (if |p - lim.posa| < |p - lim.posb| then lim.namea else lim.nameb) = lim.name p := rfl
      rw [hname]
      by_cases hne : lim.name p = []
      · rw [if_neg (by simpa using hne), hne]
        rcases ih (some []) with ⟨a, m', lim', b, p', h1, h2, h3, h4, h5⟩ | ⟨h1, h2⟩
        · refine Or.inl ⟨(m, lim) :: a, m', lim', b, p', by rw [h1]; rfl, h2, h3, ?_, h5⟩
          intro x hx q hq
          rcases List.mem_cons.1 hx with rfl | hx
          · rw [hp] at hq; cases hq; exact hne
          · exact h4 x hx q hq
        · refine Or.inr ⟨?_, ?_⟩
          · intro x hx q hq
            rcases List.mem_cons.1 hx with rfl | hx
            · rw [hp] at hq; cases hq; exact hne
            · exact h1 x hx q hq
          · have h3 : ∃ x ∈ (m, lim) :: l, (pos x.1).isSome = true := ⟨(m, lim), by simp, by simp [hp]⟩
            rw [h2, ite_self, if_pos h3]
      · rw [if_pos hne]
        exact Or.inl ⟨[], m, lim, l, p, rfl, hp, hne, by simp, rfl⟩

/-- The device of an instrument: that of the first motor in a position for a device, else the default, else none
when a motor position is known, else unknown. -/
theorem deviceName_spec (i : DeviceInfo) (pos : Str → Option ℚ) :
    (∃ a m lim b p, i.motors = a ++ (m, lim) :: b ∧ pos m = some p ∧ lim.name p ≠ [] ∧
      (∀ x ∈ a, ∀ q, pos x.1 = some q → x.2.name q = []) ∧ deviceName i pos = some (lim.name p)) ∨
    ((∀ x ∈ i.motors, ∀ q, pos x.1 = some q → x.2.name q = []) ∧
      ((∃ d, i.dflt = some d ∧ deviceName i pos = some d) ∨
       (i.dflt = none ∧ (∃ x ∈ i.motors, (pos x.1).isSome) ∧ deviceName i pos = some []) ∨
       (i.dflt = none ∧ (∀ x ∈ i.motors, pos x.1 = none) ∧ deviceName i pos = none))) := by
  unfold deviceName
  rcases nameLoop_spec pos i.motors none with ⟨a, m, lim, b, p, h1, h2, h3, h4, h5⟩ | ⟨h1, h2⟩
  · exact Or.inl ⟨a, m, lim, b, p, h1, h2, h3, h4, by rw [h5]⟩
  · refine Or.inr ⟨h1, ?_⟩
    rw [h2]
    simp only
    cases i.dflt with
    | some d => exact Or.inl ⟨d, rfl, rfl⟩
    | none =>
      right
      by_cases h : ∃ x ∈ i.motors, (pos x.1).isSome
      · exact Or.inl ⟨rfl, h, if_pos h⟩
      · refine Or.inr ⟨rfl, ?_, if_neg h⟩
        intro x hx
        by_contra hn
        exact h ⟨x, hx, Option.isSome_iff_ne_none.2 hn⟩

/-- The nearer of the two positions tells the device; the second one when they are equally near. -/
theorem limits_nearest (l : Limits) (p : ℚ) :
    (l.name p = l.namea ∧ |p - l.posa| < |p - l.posb|) ∨ (l.name p = l.nameb ∧ |p - l.posb| ≤ |p - l.posa|) := by
  unfold Limits.name
  split
  · next h => exact Or.inl ⟨rfl, h⟩
  · next h => exact Or.inr ⟨rfl, not_lt.1 h⟩

/-- Data are accepted without change exactly when the device that is there is the one used for them. -/
theorem check_keep (C : Classes) (device used : Option Str) (reset : Bool) :
    checkDevice C device used reset = .keep ↔ Agrees C device used := by
  cases used with
  | none => simp [checkDevice, Agrees]
  | some n =>
    cases n with
    | nil =>
      cases device <;> cases reset <;> simp [checkDevice, Agrees, C.noEmpty]
    | cons a n =>
      unfold checkDevice Agrees
      simp only [ne_eq, reduceCtorEq, not_false_eq_true, if_true]
      cases device with
      | none => cases reset <;> cases C.find (a :: n) <;> simp
      | some d =>
        cases C.find (a :: n) with
        | none => simp
        | some c => cases h : C.isinstance c d <;> simp [h]

/-- A device is made only when it is missing, used for the data, known, and devices may be reset. -/
theorem check_create (C : Classes) (device used : Option Str) (reset : Bool) (n : Str) :
    checkDevice C device used reset = .create n ↔
      reset = true ∧ device = none ∧ used = some n ∧ n ≠ [] ∧ (C.find n).isSome := by
  cases used with
  | none => simp [checkDevice]
  | some m =>
    cases m with
    | nil =>
      cases device <;> cases reset <;> simp [checkDevice, C.noEmpty]
      all_goals rintro rfl; simp
    | cons a m =>
      unfold checkDevice
      simp only [ne_eq, reduceCtorEq, not_false_eq_true, if_true]
      cases device with
      | none =>
        cases reset with
        | false => simp
        | true =>
          cases hf : C.find (a :: m) with
          | none =>
            simp only [if_true, reduceCtorEq, Option.some.injEq, true_and, false_iff, not_and]
            rintro rfl _
            simp [hf]
          | some c =>
            simp only [if_true, Check.create.injEq, Option.some.injEq, true_and]
            constructor
            · rintro rfl; exact ⟨rfl, by simp, by simp [hf]⟩
            · exact fun h => h.1
      | some d =>
        cases C.find (a :: m) with
        | none => simp
        | some c => cases h : C.isinstance c d <;> simp [h]

/-- The device made agrees with the data. -/
theorem check_create_agrees (C : Classes) (device used : Option Str) (reset : Bool) (n c : Str)
    (h : checkDevice C device used reset = .create n) (hc : C.find n = some c) (hi : C.isinstance c c = true) :
    Agrees C (some c) used := by
  obtain ⟨_, _, rfl, hn, _⟩ := (check_create C device used reset n).1 h
  cases n with
  | nil => exact absurd rfl hn
  | cons a n => exact ⟨c, c, rfl, hc, hi⟩

/-- Resetting never replaces a device of another class and never takes one away: data of another device or of none are
refused although devices may be reset. -/
theorem reset_refused (C : Classes) (d : Str) (used : Option Str) (reset : Bool) (h : ¬ Agrees C (some d) used) :
    checkDevice C (some d) used reset = .fail := by
  cases hc : checkDevice C (some d) used reset with
  | fail => rfl
  | keep => exact absurd ((check_keep C _ _ _).1 hc) h
  | create n => exact absurd ((check_create C _ _ _ n).1 hc).2.1 (by simp)

/-- The gain is the one asked for, else the one of the data; it is refused when they differ or none is known. -/
theorem gain_spec (close : ℚ → ℚ → Bool) (asked data : Option ℚ) (g : ℚ) :
    chooseGain close asked data = .ok g ↔
      (asked = some g ∧ ∀ x, data = some x → close g x = true) ∨ (asked = none ∧ data = some g) := by
  cases asked with
  | none => cases data <;> simp [chooseGain]
  | some a =>
    cases data with
    | none => simp [chooseGain]
    | some x =>
      simp only [chooseGain, Option.some.injEq, reduceCtorEq, false_and, or_false, forall_eq']
      cases h : close a x
      · simp only [Bool.false_eq_true, if_false, reduceCtorEq, false_iff, not_and]
        rintro rfl; simp [h]
      · simp only [if_true, Except.ok.injEq]
        constructor
        · rintro rfl; exact ⟨rfl, h⟩
        · exact fun h => h.1

/-- The classes for examples: a diode and its subclass. -/
def exampleClasses : Classes where
  find n := if n = ['I'] then some ['I'] else if n = ['J'] then some ['J'] else none
  isinstance a b := a == b || a == ['I']
  noEmpty := by decide

/-- The position of the diode at ID21, configuration.py:225-228, and the cases of a check. -/
example :
    deviceName ⟨[(['s'], ⟨['J'], -20, [], -13/10⟩), (['i'], ⟨['I'], 7, [], 23⟩)], none⟩
      (fun m => if m = ['s'] then some (-1) else if m = ['i'] then some 8 else none) = some ['I'] ∧
    checkDevice exampleClasses (some ['J']) (some ['I']) false = .keep ∧
    checkDevice exampleClasses none (some ['I']) true = .create ['I'] ∧
    checkDevice exampleClasses (some ['I']) (some ['J']) true = .fail ∧
    checkDevice exampleClasses (some ['I']) (some []) true = .fail := by
  refine ⟨?_, by decide, by decide, by decide, by decide⟩
  decide +kernel

end SC.Qxrf
