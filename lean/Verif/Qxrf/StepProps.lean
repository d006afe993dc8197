import Verif.Qxrf.DeviceProps
/-! # What one assignment does to a setup -/
namespace SC.Qxrf
open SC.Py

/-- An assignment changes the attribute it is about and no other one. -/
theorem step_other (w : World) (s : Setup) (o : Op) :
    ((∀ b, o ≠ .simple b) → (step w s o).2.1.simple = s.simple) ∧
    ((∀ a, o ≠ .optics a) → (step w s o).2.1.optics = s.optics) ∧
    ((∀ a, o ≠ .source a) → (step w s o).2.1.source = s.source) ∧
    ((∀ a, o ≠ .diodeI0 a) → (step w s o).2.1.diodeI0 = s.diodeI0) ∧
    ((∀ a, o ≠ .diodeIt a) → (step w s o).2.1.diodeIt = s.diodeIt) ∧
    ((∀ l, o ≠ .geoms l) → (step w s o).2.1.geoms = s.geoms) := by
  cases o with
  | simple b => simp [step]
  | geoms l =>
    unfold step
    simp only
    rcases geomLoop w [] l with ⟨w', acc, _ | e⟩ <;> simp
  | _ a =>
    unfold step
    simp only
    cases generate a <;> simp

/-- The value of the attribute after the assignment. -/
theorem step_value (w : World) (s : Setup) :
    (∀ b, (step w s (.simple b)).2.1.simple = b) ∧
    (∀ a o, generate a = .ok o → (step w s (.optics a)).2.1.optics = o ∧ (step w s (.source a)).2.1.source = o ∧
      (step w s (.diodeI0 a)).2.1.diodeI0 = o ∧ (step w s (.diodeIt a)).2.1.diodeIt = o) ∧
    ∀ l, (∀ x ∈ l, GeomArg.Known x) → (step w s (.geoms l)).2.1.geoms = l.filterMap GeomArg.geom := by
  refine ⟨fun b => rfl, ?_, ?_⟩
  · intro a o h
    simp only [step, h, and_self]
  · intro l hl
    obtain ⟨w', hw⟩ := geomLoop_known l hl w []
    simp only [step, hw, List.nil_append]

/-- The detector a new geometry of the list was made with. -/
def detectorOf (l : List GeomArg) (g : Nat) : Option Nat :=
  match l with
  | [] => none
  | .names (some a) (some d) :: r => if a = g then some d else detectorOf r g
  | _ :: r => detectorOf r g

/-- New geometries: none of the objects of the list is made twice, and no detector. -/
def Distinct : List GeomArg → Prop
  | [] => True
  | .names (some a) (some d) :: r => detectorOf r a = none ∧ (∀ x, .names (some x) (some d) ∉ r) ∧ Distinct r
  | _ :: r => Distinct r

theorem loop_detector (l : List GeomArg) (hk : ∀ x ∈ l, GeomArg.Known x) (w : World) (acc : List Nat) (g : Nat)
    (h : detectorOf l g = none) : (geomLoop w acc l).1.geom g = w.geom g := by
  induction l generalizing w acc with
  | nil => rfl
  | cons x l ih =>
    have hl := fun y hy => hk y (List.mem_cons_of_mem _ hy)
    have hx := hk x (List.mem_cons_self ..)
    cases x with
    | object i => simp only [geomLoop]; exact ih hl _ _ (by simpa [detectorOf] using h)
    | names a d =>
      obtain ⟨ha, hd⟩ := hx
      obtain ⟨a, rfl⟩ := Option.isSome_iff_exists.1 ha
      obtain ⟨d, rfl⟩ := Option.isSome_iff_exists.1 hd
      simp only [detectorOf] at h
      by_cases hag : a = g
      · simp [hag] at h
      · rw [if_neg hag] at h
        simp only [geomLoop]
        rw [ih hl _ _ h]
        simp [setDetector, Function.update_of_ne (Ne.symm hag)]

theorem loop_detGeom (l : List GeomArg) (hk : ∀ x ∈ l, GeomArg.Known x) (w : World) (acc : List Nat) (d : Nat)
    (h : ∀ x, .names (some x) (some d) ∉ l) : (geomLoop w acc l).1.detGeom d = w.detGeom d := by
  induction l generalizing w acc with
  | nil => rfl
  | cons x l ih =>
    have hl := fun y hy => hk y (List.mem_cons_of_mem _ hy)
    have hx := hk x (List.mem_cons_self ..)
    have hr : ∀ x, .names (some x) (some d) ∉ l := fun x hx => h x (List.mem_cons_of_mem _ hx)
    cases x with
    | object i => simp only [geomLoop]; exact ih hl _ _ hr
    | names a e =>
      obtain ⟨ha, hd⟩ := hx
      obtain ⟨a, rfl⟩ := Option.isSome_iff_exists.1 ha
      obtain ⟨e, rfl⟩ := Option.isSome_iff_exists.1 hd
      have hne : d ≠ e := by rintro rfl; exact h a (List.mem_cons_self ..)
      simp only [geomLoop]
      rw [ih hl _ _ hr]
      simp [setDetector, Function.update_of_ne hne]

theorem loop_linked (l : List GeomArg) (hk : ∀ x ∈ l, GeomArg.Known x) (hn : Distinct l) (w : World) (acc : List Nat)
    (g d : Nat) (h : .names (some g) (some d) ∈ l) :
    ((geomLoop w acc l).1.geom g).detector = some d ∧ (geomLoop w acc l).1.detGeom d = some g ∧
    ((geomLoop w acc l).1.geom g).position = (w.geom g).position := by
  induction l generalizing w acc with
  | nil => cases h
  | cons x l ih =>
    have hl := fun y hy => hk y (List.mem_cons_of_mem _ hy)
    have hx := hk x (List.mem_cons_self ..)
    cases x with
    | object i =>
      simp only [geomLoop]
      rcases List.mem_cons.1 h with h | h
      · cases h
      · exact ih hl (by simpa [Distinct] using hn) _ _ h
    | names a e =>
      obtain ⟨ha, hd⟩ := hx
      obtain ⟨a, rfl⟩ := Option.isSome_iff_exists.1 ha
      obtain ⟨e, rfl⟩ := Option.isSome_iff_exists.1 hd
      simp only [Distinct] at hn
      simp only [geomLoop]
      rcases List.mem_cons.1 h with h | h
      · cases h
        rw [loop_detector l hl _ _ g hn.1, loop_detGeom l hl _ _ d hn.2.1]
        simp [setDetector]
      · obtain ⟨h1, h2, h3⟩ := ih hl hn.2.2 (setDetector w a e) (acc ++ [a]) h
        refine ⟨h1, h2, ?_⟩
        rw [h3]
        by_cases hag : g = a
        · subst hag; simp [setDetector]
        · simp [setDetector, Function.update_of_ne hag]

/-- Every new geometry has the detector it was named with, and that detector has that geometry. -/
theorem geoms_linked (w : World) (s : Setup) (l : List GeomArg) (hk : ∀ x ∈ l, GeomArg.Known x) (hn : Distinct l)
    (g d : Nat) (h : .names (some g) (some d) ∈ l) :
    ((step w s (.geoms l)).1.geom g).detector = some d ∧ (step w s (.geoms l)).1.detGeom d = some g ∧
    ((step w s (.geoms l)).1.geom g).position = (w.geom g).position := by
  obtain ⟨h1, h2, h3⟩ := loop_linked l hk hn w [] g d h
  obtain ⟨w', hw⟩ := geomLoop_known l hk w []
  have hw1 : (geomLoop w [] l).1 = w' := by rw [hw]
  simp only [step, hw]
  rw [hw1] at h1 h2 h3
  have hu : ∀ (w : World) (s : Setup), ((updateDevices w s).geom g).detector = (w.geom g).detector ∧
      ((updateDevices w s).geom g).position = (w.geom g).position ∧ (updateDevices w s).detGeom = w.detGeom := by
    intro w s
    have hd : (updateDiode w s).detGeom = w.detGeom := by
      unfold updateDiode
      cases s.diodeI0 with
      | none => rfl
      | some e => simp only; cases ((setDiodeOptics w e s.optics).diode e).target <;> rfl
    have hg : ((updateDiode w s).geom g).detector = (w.geom g).detector ∧
        ((updateDiode w s).geom g).position = (w.geom g).position := by
      rw [updateDiode_geom]
      split <;> exact ⟨rfl, rfl⟩
    unfold updateDevices
    simp only
    cases s.source with
    | none => exact ⟨hg.1, hg.2, hd⟩
    | some o =>
      simp only
      rw [setAll_geom, (setAll_rest _ _ _).2.1]
      refine ⟨?_, ?_, hd⟩
      · split <;> exact hg.1
      · split <;> exact hg.2
  obtain ⟨a, b, c⟩ := hu w' { s with geoms := [] ++ l.filterMap GeomArg.geom }
  rw [a, b, c]
  exact ⟨h1, h2, h3⟩

/-- Two new geometries: each with its own detector. -/
example (w : World) (s : Setup) :
    ((step w s (.geoms [.names (some 1) (some 7), .object 3, .names (some 2) (some 8)])).1.geom 2).detector = some 8 :=
  (geoms_linked w s _ (by simp [GeomArg.Known]) (by simp [Distinct, detectorOf]) 2 8 (by simp)).1

/-- The geometries of a new setup: the list, else the one geometry with its detector when both are named, else none. -/
theorem initGeoms_spec (geoms : Option (List GeomArg)) (geometry detector : Option (Option Nat)) (x : GeomArg) :
    x ∈ initGeoms geoms geometry detector ↔ (∃ l, geoms = some l ∧ x ∈ l) ∨
      (geoms = none ∧ ∃ g d, geometry = some g ∧ detector = some d ∧ x = .names g d) := by
  unfold initGeoms
  cases geoms with
  | some l => simp
  | none => cases geometry <;> cases detector <;> simp

/-- Setting positions changes no other attribute, and no geometry that is not in the setup. -/
theorem positions_frame (w : World) (s : Setup) (l : List ℚ) :
    (setPositions w s l).diode = w.diode ∧ (setPositions w s l).area = w.area ∧
    (∀ g, ((setPositions w s l).geom g).source = (w.geom g).source ∧
      ((setPositions w s l).geom g).detector = (w.geom g).detector) ∧
    ∀ g, g ∉ s.geoms → (setPositions w s l).geom g = w.geom g := by
  unfold setPositions
  have hz : ∀ p ∈ s.geoms.zip l, p.1 ∈ s.geoms := fun p hp => (List.of_mem_zip hp).1
  generalize s.geoms.zip l = z at hz ⊢
  induction z generalizing w with
  | nil => simp
  | cons p z ih =>
    rw [List.foldl_cons]
    obtain ⟨h1, h2, h3, h4⟩ := ih { w with geom := Function.update w.geom p.1 { w.geom p.1 with position := p.2 } }
      (fun q hq => hz q (List.mem_cons_of_mem _ hq))
    refine ⟨h1, h2, fun g => ?_, fun g hg => ?_⟩
    · rw [(h3 g).1, (h3 g).2]
      by_cases hgp : g = p.1
      · subst hgp; simp
      · simp [Function.update_of_ne hgp]
    · rw [h4 g hg]
      have : g ≠ p.1 := by rintro rfl; exact hg (hz p (List.mem_cons_self ..))
      simp [Function.update_of_ne this]

/-- Areas of all detectors are what they are set to, when every geometry has a detector of its own. -/
theorem areas_set (w : World) (s : Setup) (det : Nat → Nat) (hd : ∀ g ∈ s.geoms, (w.geom g).detector = some (det g))
    (hn : (s.geoms.map det).Nodup) (l : List ℚ) (hl : l.length = s.geoms.length) :
    areas (setAreas w s l) s = l.map some := by
  have hg : ∀ (z : List (Nat × ℚ)) (w : World), (z.foldl (fun w p => setArea w p.1 p.2) w).geom = w.geom := by
    intro z
    induction z with
    | nil => intro w; rfl
    | cons p z ih => intro w; rw [List.foldl_cons, ih]; unfold setArea; cases (w.geom p.1).detector <;> rfl
  have hkeep : ∀ (z : List (Nat × ℚ)) (w : World) (e : Nat), (∀ p ∈ z, (w.geom p.1).detector ≠ some e) →
      (z.foldl (fun w p => setArea w p.1 p.2) w).area e = w.area e := by
    intro z
    induction z with
    | nil => intro w e _; rfl
    | cons p z ih =>
      intro w e h
      have h0 := h p (List.mem_cons_self ..)
      rw [List.foldl_cons]
      have hgeom : (setArea w p.1 p.2).geom = w.geom := hg [p] w
      rw [ih _ e fun q hq => by rw [hgeom]; exact h q (List.mem_cons_of_mem _ hq)]
      unfold setArea
      cases hp : (w.geom p.1).detector with
      | none => rfl
      | some d =>
        rw [hp] at h0
        have : e ≠ d := by rintro rfl; exact h0 rfl
        simp [Function.update_of_ne this]
  unfold areas setAreas
  rw [hg]
  obtain ⟨a, b, c, d, e, gs⟩ := s
  simp only at hd hn hl ⊢
  clear a b c d e
  induction gs generalizing w l with
  | nil => cases l with | nil => rfl | cons => simp at hl
  | cons g gs ih =>
    cases l with
    | nil => simp at hl
    | cons v l =>
      have hg0 := hd g (List.mem_cons_self ..)
      simp only [List.map_cons, List.nodup_cons] at hn
      have hsa : setArea w g v = { w with area := Function.update w.area (det g) v } := by unfold setArea; rw [hg0]
      simp only [List.zip_cons_cons, List.foldl_cons, List.map_cons, hg0, hsa]
      have hrest := ih { w with area := Function.update w.area (det g) v } l (fun x hx => hd x (List.mem_cons_of_mem _ hx)) hn.2
        (by simpa using hl)
      rw [hrest, Option.map_some, hkeep]
      · simp
      · intro p hp
        rw [hd p.1 (List.mem_cons_of_mem _ (List.of_mem_zip hp).1)]
        intro h
        exact hn.1 (List.mem_map.2 ⟨p.1, (List.of_mem_zip hp).1, by simpa using h⟩)

end SC.Qxrf
