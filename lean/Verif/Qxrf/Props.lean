import Verif.Qxrf.Spec
/-! # Property C62, part 1: the devices of a setup belong together -/
namespace SC.Qxrf
open SC.Py

/-! ## Setting the source of geometries -/

theorem setAll_diode (l : List Nat) (o : Option Nat) (w : World) :
    (l.foldl (fun w g => setGeomSource w g o) w).diode = w.diode := by
  induction l generalizing w with
  | nil => rfl
  | cons a l ih => rw [List.foldl_cons, ih]; rfl

theorem setAll_rest (l : List Nat) (o : Option Nat) (w : World) :
    (l.foldl (fun w g => setGeomSource w g o) w).opticsCls = w.opticsCls ∧
    (l.foldl (fun w g => setGeomSource w g o) w).detGeom = w.detGeom ∧
    (l.foldl (fun w g => setGeomSource w g o) w).area = w.area := by
  induction l generalizing w with
  | nil => exact ⟨rfl, rfl, rfl⟩
  | cons a l ih => rw [List.foldl_cons]; exact ih _

theorem setAll_geom (l : List Nat) (o : Option Nat) (w : World) (g : Nat) :
    (l.foldl (fun w g => setGeomSource w g o) w).geom g = if g ∈ l then { w.geom g with source := o } else w.geom g := by
  induction l generalizing w with
  | nil => simp
  | cons a l ih =>
    rw [List.foldl_cons, ih]
    unfold setGeomSource
    by_cases h : g = a
    · subst h; simp
    · simp [h, Function.update_of_ne]

theorem updateDiode_diode (w : World) (s : Setup) (d : Nat) :
    (updateDiode w s).diode d =
      if s.diodeI0 = some d then { w.diode d with optics := s.optics.toList, simple := s.simple } else w.diode d := by
  unfold updateDiode
  cases h : s.diodeI0 with
  | none => simp
  | some e =>
    simp only
    by_cases hd : e = d
    · subst hd
      simp only [if_true]
      cases ht : ((setDiodeOptics w e s.optics).diode e).target <;> simp [setDiodeSimple, setDiodeOptics, setGeomSource]
    · have : ¬ (some e = some d) := by simpa using hd
      rw [if_neg this]
      cases ht : ((setDiodeOptics w e s.optics).diode e).target <;>
        simp [setDiodeSimple, setDiodeOptics, setGeomSource, Function.update_of_ne (Ne.symm hd)]

theorem updateDiode_geom (w : World) (s : Setup) (g : Nat) :
    (updateDiode w s).geom g =
      if ∃ d, s.diodeI0 = some d ∧ (w.diode d).target = some g then { w.geom g with source := s.source } else w.geom g := by
  unfold updateDiode
  cases h : s.diodeI0 with
  | none => simp
  | some e =>
    simp only
    have h1 : ((setDiodeOptics w e s.optics).diode e).target = (w.diode e).target := by simp [setDiodeOptics]
    rw [h1]
    cases ht : (w.diode e).target with
    | none => simp [setDiodeSimple, setDiodeOptics, ht]
    | some t =>
      by_cases hg : t = g
      · subst hg
        simp [setDiodeSimple, setDiodeOptics, setGeomSource, ht]
      · have : ¬ ∃ d, some e = some d ∧ (w.diode d).target = some g := by
          rintro ⟨d, h1, h2⟩
          cases h1
          rw [ht] at h2
          exact hg (Option.some.inj h2)
        rw [if_neg this]
        simp [setDiodeSimple, setDiodeOptics, setGeomSource, Function.update_of_ne (Ne.symm hg)]

theorem update_diode (w : World) (s : Setup) (d : Nat) :
    (updateDevices w s).diode d =
      if s.diodeI0 = some d then { w.diode d with optics := s.optics.toList, simple := s.simple } else w.diode d := by
  unfold updateDevices
  simp only
  cases s.source with
  | none => exact updateDiode_diode w s d
  | some o => simp only; rw [setAll_diode]; exact updateDiode_diode w s d

theorem update_geom (w : World) (s : Setup) (h : s.source ≠ none) (g : Nat) [Decidable (UsesGeom w s g)] :
    (updateDevices w s).geom g = if UsesGeom w s g then { w.geom g with source := s.source } else w.geom g := by
  unfold updateDevices
  simp only
  cases hs : s.source with
  | none => exact absurd hs h
  | some o =>
    simp only
    rw [setAll_geom, updateDiode_geom, hs]
    unfold UsesGeom
    by_cases h1 : g ∈ s.geoms
    · simp only [h1, if_true, true_or]
      split <;> rfl
    · simp only [h1, if_false, false_or]

/-- Bringing the devices up to date makes them belong together, whatever they were. -/
theorem update_sync (w : World) (s : Setup) (h : s.source ≠ none) : InSync (updateDevices w s) s := by
  classical
  constructor
  · intro d hd
    rw [update_diode, if_pos hd]
    refine ⟨rfl, rfl, fun g hg => ?_⟩
    have hu : UsesGeom w s g := Or.inr ⟨d, hd, hg⟩
    rw [update_geom w s h, if_pos hu]
  · intro g hg
    have hu : UsesGeom w s g := Or.inl hg
    rw [update_geom w s h, if_pos hu]

/-- Nothing is done to devices that belong together. -/
theorem update_same (w : World) (s : Setup) (h : s.source ≠ none) (hi : InSync w s) : updateDevices w s = w := by
  classical
  have h1 : (updateDevices w s).diode = w.diode := by
    funext d
    rw [update_diode]
    split
    · next hd =>
      have := hi.1 d hd
      rw [← this.1, ← this.2.1]
    · rfl
  have h2 : (updateDevices w s).geom = w.geom := by
    funext g
    rw [update_geom w s h]
    split
    · next hg =>
      have : (w.geom g).source = s.source := by
        rcases hg with hg | ⟨d, hd, hg⟩
        · exact hi.2 g hg
        · exact (hi.1 d hd).2.2 g hg
      rw [← this]
    · rfl
  have h3 : (updateDevices w s).opticsCls = w.opticsCls ∧ (updateDevices w s).detGeom = w.detGeom ∧
      (updateDevices w s).area = w.area := by
    have hd : (updateDiode w s).opticsCls = w.opticsCls ∧ (updateDiode w s).detGeom = w.detGeom ∧
        (updateDiode w s).area = w.area := by
      unfold updateDiode
      cases s.diodeI0 with
      | none => exact ⟨rfl, rfl, rfl⟩
      | some e =>
        simp only
        cases ((setDiodeOptics w e s.optics).diode e).target <;> exact ⟨rfl, rfl, rfl⟩
    unfold updateDevices
    simp only
    cases s.source with
    | none => exact hd
    | some o =>
      have := setAll_rest s.geoms (some o) (updateDiode w s)
      simp only
      exact ⟨this.1.trans hd.1, this.2.1.trans hd.2.1, this.2.2.trans hd.2.2⟩
  cases hw : updateDevices w s
  rw [hw] at h1 h2 h3
  cases w
  simp only at h1 h2 h3
  rw [h1, h2, h3.1, h3.2.1, h3.2.2]

/-! ## Assignments -/

theorem generate_ok (a : Arg) : (∃ o, generate a = .ok o) ↔ a.Known := by
  cases a with
  | none => simp [generate, Arg.Known]
  | object i => simp [generate, Arg.Known]
  | name c => cases c <;> simp [generate, Arg.Known]

theorem generate_err (a : Arg) {e : Err} (h : generate a = .error e) : ¬ a.Known := by
  intro hk
  obtain ⟨o, ho⟩ := (generate_ok a).2 hk
  rw [ho] at h
  cases h

theorem geomLoop_known (l : List GeomArg) (h : ∀ x ∈ l, x.Known) (w : World) (acc : List Nat) :
    ∃ w', geomLoop w acc l = (w', acc ++ l.filterMap GeomArg.geom, none) := by
  induction l generalizing w acc with
  | nil => exact ⟨w, by simp [geomLoop]⟩
  | cons x l ih =>
    have hl := fun y hy => h y (List.mem_cons_of_mem _ hy)
    have hx := h x (List.mem_cons_self ..)
    cases x with
    | object i =>
      obtain ⟨w', hw⟩ := ih hl w (acc ++ [i])
      exact ⟨w', by simp only [geomLoop]; rw [hw]; simp [GeomArg.geom]⟩
    | names g d =>
      unfold GeomArg.Known at hx
      obtain ⟨g, rfl⟩ := Option.isSome_iff_exists.1 hx.1
      obtain ⟨d, rfl⟩ := Option.isSome_iff_exists.1 hx.2
      obtain ⟨w', hw⟩ := ih hl (setDetector w g d) (acc ++ [g])
      exact ⟨w', by simp only [geomLoop]; rw [hw]; simp [GeomArg.geom]⟩

theorem geomLoop_unknown (l : List GeomArg) (h : ¬ ∀ x ∈ l, x.Known) (w : World) (acc : List Nat) :
    (geomLoop w acc l).2.2 = some .runtimeError := by
  induction l generalizing w acc with
  | nil => exact absurd (by simp) h
  | cons x l ih =>
    cases x with
    | object i =>
      simp only [geomLoop]
      exact ih (fun hl => h (by simpa [GeomArg.Known] using hl)) ..
    | names g d =>
      cases g with
      | none => rfl
      | some g =>
        cases d with
        | none => rfl
        | some d =>
          simp only [geomLoop]
          exact ih (fun hl => h (by simpa [GeomArg.Known] using hl)) ..

/-- An assignment raises exactly when a name is not known. -/
theorem step_raises (w : World) (s : Setup) (o : Op) : (step w s o).2.2 = none ↔ o.Known := by
  cases o with
  | simple b => simp [step, Op.Known]
  | geoms l =>
    unfold step
    simp only [Op.Known]
    constructor
    · intro h
      by_contra hk
      have := geomLoop_unknown l hk w []
      rcases hg : geomLoop w [] l with ⟨w', acc, e⟩
      rw [hg] at this h
      simp only at this
      subst this
      simp at h
    · intro hk
      obtain ⟨w', hw⟩ := geomLoop_known l hk w []
      rw [hw]
  | _ a =>
    unfold step
    simp only [Op.Known]
    cases hg : generate a with
    | ok o => simp only [true_iff]; exact (generate_ok a).1 ⟨o, hg⟩
    | error e => simp only [reduceCtorEq, false_iff]; exact generate_err a hg

/-- An assignment that does not raise leaves devices that belong together, whatever happened before. -/
theorem step_sync (w : World) (s : Setup) (o : Op) (hk : (step w s o).2.2 = none)
    (hs : (step w s o).2.1.source ≠ none) : InSync (step w s o).1 (step w s o).2.1 := by
  cases o with
  | simple b => exact update_sync _ _ hs
  | geoms l =>
    unfold step at hk hs ⊢
    simp only at hk hs ⊢
    rcases hl : geomLoop w [] l with ⟨w', acc, _ | e⟩
    · rw [hl] at hs
      exact update_sync _ _ hs
    · rw [hl] at hk
      simp at hk
  | _ a =>
    unfold step at hk hs ⊢
    simp only at hk hs ⊢
    cases hg : generate a with
    | ok o => rw [hg] at hs; exact update_sync _ _ hs
    | error e => rw [hg] at hk; simp at hk

/-- An assignment that raises changes nothing, unless it is one of geometries. -/
theorem step_failed (w : World) (s : Setup) (o : Op) (hk : ¬ o.Known) (hg : ∀ l, o ≠ .geoms l) :
    (step w s o).1 = w ∧ (step w s o).2.1 = s := by
  cases o with
  | simple b => exact absurd trivial hk
  | geoms l => exact absurd rfl (hg l)
  | _ a =>
    unfold step
    simp only
    cases hx : generate a with
    | ok o => exact absurd ((generate_ok a).1 ⟨o, hx⟩) hk
    | error e => exact ⟨rfl, rfl⟩

theorem step_source (w : World) (s : Setup) (o : Op) (ho : o.Harmless) (hs : s.source ≠ none) :
    (step w s o).2.1.source ≠ none := by
  cases o with
  | simple b => exact hs
  | geoms l =>
    unfold step
    simp only
    rcases geomLoop w [] l with ⟨w', acc, _ | e⟩ <;> exact hs
  | source a =>
    unfold step
    simp only
    cases a with
    | none => exact absurd rfl ho
    | object i => simp [generate]
    | name c => cases c <;> simp [generate, hs]
  | _ a =>
    unfold step
    simp only
    cases generate a <;> exact hs

/-- Devices that belong together do so after every history of assignments, also failing ones, unless the source is
taken away or a geometry cannot be made. -/
theorem run_sync (ops : List Op) (ho : ∀ o ∈ ops, o.Harmless) (w : World) (s : Setup) (hs : s.source ≠ none)
    (hi : InSync w s) : InSync (run w s ops).1 (run w s ops).2 := by
  induction ops generalizing w s with
  | nil => exact hi
  | cons o ops ih =>
    have h1 := ho o (List.mem_cons_self ..)
    unfold run
    simp only
    apply ih (fun x hx => ho x (List.mem_cons_of_mem _ hx))
    · exact step_source w s o h1 hs
    · by_cases hk : o.Known
      · exact step_sync w s o ((step_raises w s o).2 hk) (step_source w s o h1 hs)
      · by_cases hg : ∃ l, o = .geoms l
        · obtain ⟨l, rfl⟩ := hg
          exact absurd h1 hk
        · have := step_failed w s o hk (fun l hl => hg ⟨l, hl⟩)
          rw [this.1, this.2]
          exact hi

/-- What an argument stands for. -/
theorem generate_known (a : Arg) (o : Option Nat) : generate a = .ok o ↔
    (a = .none ∧ o = none) ∨ ∃ i, o = some i ∧ (a = .object i ∨ a = .name (some i)) := by
  cases a with
  | none => simp [generate, eq_comm]
  | object i => simp [generate, eq_comm]
  | name c => cases c <;> simp [generate, eq_comm]

theorem construct_cons (w : World) (s : Setup) (o : Op) (r : List Op) (h : (step w s o).2.2 = none) :
    construct w s (o :: r) = construct (step w s o).1 (step w s o).2.1 r := by
  conv_lhs => unfold construct
  rcases hx : step w s o with ⟨w', s', e⟩
  rw [hx] at h
  simp only at h
  subst h
  rfl

/-- A setup is created exactly when every name it is given is known; otherwise it raises. -/
theorem construct_iff (ops : List Op) (w : World) (s : Setup) :
    (∃ r, construct w s ops = .ok r) ↔ ∀ o ∈ ops, o.Known := by
  induction ops generalizing w s with
  | nil => simp [construct]
  | cons o ops ih =>
    by_cases ho : o.Known
    · rw [construct_cons w s o ops ((step_raises w s o).2 ho), ih]
      simp [ho]
    · have h : ∃ e, construct w s (o :: ops) = .error e := by
        conv => enter [1, e, 1]; unfold construct
        rcases hx : step w s o with ⟨w', s', e⟩
        cases e with
        | none => exact absurd ((step_raises w s o).1 (by rw [hx])) ho
        | some e => exact ⟨e, rfl⟩
      obtain ⟨e, he⟩ := h
      rw [he]
      simp [ho]

/-- A new setup has the attributes it is given, and its devices belong together. -/
theorem construct_sync (w : World) (simple : Bool) (optics source I0 It : Arg) (geoms : List GeomArg)
    (ho : optics.Known) (hs : source.Known) (hs' : source ≠ .none) (hg : ∀ x ∈ geoms, x.Known) (h0 : I0.Known) (ht : It.Known) :
    ∃ w' s, construct w fresh (assignments simple optics source geoms I0 It) = .ok (w', s) ∧ InSync w' s ∧
      s.simple = simple ∧ generate optics = .ok s.optics ∧ generate source = .ok s.source ∧
      generate I0 = .ok s.diodeI0 ∧ generate It = .ok s.diodeIt ∧ s.geoms = geoms.filterMap GeomArg.geom := by
  obtain ⟨o, ho⟩ := (generate_ok _).2 ho
  obtain ⟨c, hc⟩ := (generate_ok _).2 hs
  obtain ⟨i, hi⟩ := (generate_ok _).2 h0
  obtain ⟨t, ht⟩ := (generate_ok _).2 ht
  have hc' : c ≠ none := by
    rcases (generate_known _ _).1 hc with ⟨h, _⟩ | ⟨k, rfl, _⟩
    · exact absurd h hs'
    · simp
  obtain ⟨w4, hw⟩ := geomLoop_known geoms hg (updateDevices (updateDevices (updateDevices w ⟨none, none, simple, none, none, []⟩)
    ⟨o, none, simple, none, none, []⟩) ⟨o, c, simple, none, none, []⟩) []
  refine ⟨updateDevices (updateDevices (updateDevices w4 ⟨o, c, simple, none, none, geoms.filterMap GeomArg.geom⟩)
    ⟨o, c, simple, i, none, geoms.filterMap GeomArg.geom⟩) ⟨o, c, simple, i, t, geoms.filterMap GeomArg.geom⟩,
    ⟨o, c, simple, i, t, geoms.filterMap GeomArg.geom⟩, ?_, update_sync _ _ hc', rfl, ho, hc, hi, ht, rfl⟩
  unfold assignments
  simp only [construct, step, ho, hc, hi, ht, fresh]
  rw [hw]
  simp only [List.nil_append]

end SC.Qxrf
