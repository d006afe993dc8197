import Verif.Units.Model
import Mathlib.Tactic.FieldSimp
import Mathlib.Tactic.Linarith
import Mathlib.Tactic.Push
import Mathlib.Tactic.NormNum
import Mathlib.Algebra.Order.Field.Rat
/-! # C80: quantities keep their physical value -/
namespace SC.Units

variable {D K : Type} [DecidableEq D] [Zero D] [Field K] [LinearOrder K] [IsStrictOrderedRing K]

/-- The physical value of a number in a unit: dimension and number in base units. -/
def phys (x : K) (u : Unt D K) : D × K := (u.dim, x * u.factor)

/-- The physical value of a number or quantity, numbers being in unit `d`. -/
def Sc.phys (d : Unt D K) : Sc D K → D × K
  | .num x => SC.Units.phys x d
  | .q x u => SC.Units.phys x u

/-- The same of each element. -/
def Val.phys (d : Unt D K) : Val D K → List (D × K)
  | .sc s => [s.phys d]
  | .qarr xs u => xs.map fun x => SC.Units.phys x u
  | .list xs => xs.map (Sc.phys d)

/-- The same of a result. -/
def Out.phys (d : Unt D K) : Out D K → List (D × K)
  | .num x => [SC.Units.phys x d]
  | .arr xs => xs.map fun x => SC.Units.phys x d
  | .q x u => [SC.Units.phys x u]
  | .qarr xs u => xs.map fun x => SC.Units.phys x u

/-- The dimension of everything in a value, numbers being in unit `d`; of an array also without elements. -/
def Val.HasDim (d : Unt D K) (x : Val D K) (dim : D) : Prop := match x with
  | .sc s => (s.phys d).1 = dim
  | .qarr _ u => u.dim = dim
  | .list xs => ∀ s ∈ xs, (s.phys d).1 = dim

omit [DecidableEq D] [Zero D] in
theorem phys_conv (x : K) (u v : Unt D K) (h : u.dim = v.dim) : phys (x * u.factor / v.factor) v = phys x u := by
  unfold phys
  rw [h, div_mul_cancel₀ _ v.pos.ne']

omit [DecidableEq D] [Zero D] in
theorem phys_inj {x y : K} {u : Unt D K} (h : phys x u = phys y u) : x = y := by
  unfold phys at h
  exact mul_right_cancel₀ u.pos.ne' (Prod.mk.inj h).2

/-! ## magnitude -/

theorem sc_magnitude_ok (s : Sc D K) (u : Option (Unt D K)) (m : K) (h : s.magnitude u = .ok m) :
    phys m (u.getD dimless) = s.phys dimless := by
  cases s with
  | q x v =>
    simp only [Sc.magnitude, conv] at h
    split at h
    · rename_i hd
      simp only [Except.ok.injEq] at h
      rw [← h]
      exact phys_conv x v _ hd
    · simp at h
  | num x =>
    simp only [Sc.magnitude] at h
    split at h
    · simp at h
    · rename_i hu
      rw [not_not] at hu
      simp only [Except.ok.injEq] at h
      rw [← h, hu]
      rfl

theorem sc_magnitude_iff (s : Sc D K) (u : Unt D K) :
    (∃ m, s.magnitude (some u) = .ok m) ↔ (s.phys dimless).1 = u.dim ∧ (s.units = none → u = dimless) := by
  cases s with
  | q x v =>
    simp only [Sc.magnitude, conv, Option.getD_some, Sc.phys, phys, Sc.units, reduceCtorEq, false_implies, and_true]
    split <;> simp_all
  | num x =>
    simp only [Sc.magnitude, Option.getD_some, Sc.phys, phys, Sc.units, true_implies]
    split
    · rename_i h
      constructor
      · rintro ⟨m, hm⟩; simp at hm
      · rintro ⟨_, h2⟩; exact absurd h2 h
    · rename_i h
      rw [not_not] at h
      exact ⟨fun _ => ⟨by rw [h], h⟩, fun _ => ⟨x, rfl⟩⟩

theorem magnitudes_ok (u : Option (Unt D K)) : ∀ (xs : List (Sc D K)) (ms : List K), magnitudes u xs = .ok ms →
    ms.map (fun m => phys m (u.getD dimless)) = xs.map (Sc.phys dimless)
  | [], ms, h => by
    simp only [magnitudes, Except.ok.injEq] at h
    subst h; rfl
  | s :: xs, ms, h => by
    simp only [magnitudes] at h
    split at h
    · simp at h
    · rename_i m hm
      split at h
      · simp at h
      · rename_i ms' hms
        simp only [Except.ok.injEq] at h
        subst h
        simp only [List.map_cons]
        rw [sc_magnitude_ok s u m hm, magnitudes_ok u xs ms' hms]

theorem magnitudes_iff (u : Option (Unt D K)) : ∀ (xs : List (Sc D K)),
    (∃ ms, magnitudes u xs = .ok ms) ↔ ∀ s ∈ xs, ∃ m, s.magnitude u = .ok m
  | [] => by simp [magnitudes]
  | s :: xs => by
    simp only [magnitudes, List.mem_cons, forall_eq_or_imp]
    rw [← magnitudes_iff u xs]
    constructor
    · rintro ⟨ms, h⟩
      split at h
      · simp at h
      · rename_i m hm
        split at h
        · simp at h
        · rename_i ms' hms
          exact ⟨⟨m, hm⟩, ⟨ms', hms⟩⟩
    · rintro ⟨⟨m, hm⟩, ⟨ms', hms⟩⟩
      exact ⟨m :: ms', by rw [hm, hms]⟩

/-- **C80.** The numbers given by `magnitude` are the values in the unit asked for. -/
theorem magnitude_ok (x : Val D K) (u : Unt D K) (ms : List K) (h : x.magnitude (some u) = .ok ms) :
    ms.map (fun m => phys m u) = x.phys dimless := by
  cases x with
  | sc s =>
    simp only [Val.magnitude] at h
    split at h
    · simp at h
    · rename_i m hm
      simp only [Except.ok.injEq] at h
      subst h
      simp only [List.map_cons, List.map_nil, Val.phys]
      rw [← sc_magnitude_ok s (some u) m hm]
      rfl
  | qarr xs v =>
    simp only [Val.magnitude, convs, Option.getD_some] at h
    split at h
    · rename_i hd
      simp only [Except.ok.injEq] at h
      subst h
      simp only [List.map_map, Val.phys]
      apply List.map_congr_left
      intro x _
      exact phys_conv x v u hd
    · simp at h
  | list xs => exact magnitudes_ok (some u) xs ms h

/-- **C80.** `magnitude` fails exactly when something has another dimension, or is a mere number and the unit is
not `dimensionless`. -/
theorem magnitude_iff (x : Val D K) (u : Unt D K) :
    (∃ ms, x.magnitude (some u) = .ok ms) ↔ x.HasDim dimless u.dim ∧ (none ∈ x.units → u = dimless) := by
  cases x with
  | sc s =>
    have := sc_magnitude_iff s u
    simp only [Val.magnitude, Val.HasDim, Val.units, List.mem_singleton]
    rw [show (none = s.units ↔ s.units = none) from ⟨Eq.symm, Eq.symm⟩, ← this]
    constructor
    · rintro ⟨ms, h⟩
      split at h
      · simp at h
      · rename_i m hm; exact ⟨m, hm⟩
    · rintro ⟨m, hm⟩
      exact ⟨[m], by rw [hm]⟩
  | qarr xs v =>
    simp only [Val.magnitude, convs, Option.getD_some, Val.HasDim, Val.units, List.mem_singleton, reduceCtorEq, false_implies, and_true]
    split <;> simp_all
  | list xs =>
    simp only [Val.magnitude, Val.HasDim, Val.units, List.mem_map]
    rw [magnitudes_iff]
    constructor
    · intro h
      refine ⟨fun s hs => ((sc_magnitude_iff s u).1 (h s hs)).1, ?_⟩
      rintro ⟨s, hs, hn⟩
      exact ((sc_magnitude_iff s u).1 (h s hs)).2 hn
    · rintro ⟨h1, h2⟩ s hs
      exact (sc_magnitude_iff s u).2 ⟨h1 s hs, fun hn => h2 ⟨s, hs, hn⟩⟩

/-! ## Quantity -/

/-- All elements are numbers, or all are quantities. -/
def Val.Uniform : Val D K → Prop
  | .list xs => (∀ s ∈ xs, s.units = none) ∨ ∀ s ∈ xs, s.units ≠ none
  | _ => True

/-- **C80.** `Quantity` keeps every value; numbers are taken in the default unit. -/
theorem quantity_phys (x : Val D K) (hx : x.Uniform) (u : Option (Unt D K)) (force : Bool) (q : Out D K)
    (h : quantity x u force = .ok q) : q.phys (u.getD dimless) = x.phys (u.getD dimless) := by
  cases x with
  | sc s =>
    cases s with
    | num x =>
      simp only [quantity, Except.ok.injEq] at h
      subst h
      cases force <;> rfl
    | q x v =>
      simp only [quantity, Except.ok.injEq] at h
      subst h
      rfl
  | qarr xs v =>
    simp only [quantity, asqarray, Val.units, Option.getD_some, convs, if_true, Except.ok.injEq] at h
    subst h
    simp only [Out.phys, Val.phys, List.map_map]
    apply List.map_congr_left
    intro x _
    exact phys_conv x v v rfl
  | list xs =>
    cases xs with
    | nil => simp [quantity, asqarray, Val.units] at h
    | cons s xs =>
      simp only [quantity, asqarray, Val.units, List.map_cons] at h
      cases hs : magnitudes s.units (s :: xs) with
      | error e => rw [hs] at h; simp at h
      | ok ms =>
        rw [hs] at h
        have hm := magnitudes_ok s.units (s :: xs) ms hs
        simp only [Val.Uniform] at hx
        cases hu : s.units with
        | some v =>
          rw [hu] at h hm
          simp only [Except.ok.injEq] at h
          subst h
          simp only [Out.phys, Val.phys]
          simp only [Option.getD_some] at hm
          rw [hm]
          apply List.map_congr_left
          intro t ht
          rcases hx with hx | hx
          · have := hx s (by simp); rw [hu] at this; simp at this
          · cases t with
            | num y => exact absurd rfl (hx _ ht)
            | q y w => rfl
        | none =>
          rw [hu] at h hm
          have hall : ∀ t ∈ s :: xs, t.units = none := by
            rcases hx with hx | hx
            · exact hx
            · exact absurd hu (hx s (by simp))
          have hnum : (ms.map fun m => phys m (dimless : Unt D K)) = (s :: xs).map (Sc.phys dimless) := hm
          have hms : ∀ (ys : List (Sc D K)) (ms : List K), (∀ t ∈ ys, t.units = none) →
              (ms.map fun m => phys m (dimless : Unt D K)) = ys.map (Sc.phys dimless) →
              (ms.map fun m => phys m (u.getD dimless)) = ys.map (Sc.phys (u.getD dimless)) := by
            intro ys
            induction ys with
            | nil => intro ms _ h; simp at h; subst h; rfl
            | cons t ys ih =>
              intro ms ht h
              cases ms with
              | nil => simp at h
              | cons m ms =>
                simp only [List.map_cons, List.cons.injEq] at h ⊢
                refine ⟨?_, ih ms (fun t ht' => ht t (by simp [ht'])) h.2⟩
                cases t with
                | q y w => have := ht (.q y w) (by simp); simp [Sc.units] at this
                | num y =>
                  have := phys_inj h.1
                  rw [this]; rfl
          have := hms _ _ hall hnum
          simp only [Except.ok.injEq] at h
          subst h
          cases force
          · exact this
          · exact this

/-- **C80.** What is asked to be a quantity is one. -/
theorem quantity_force (x : Val D K) (u : Option (Unt D K)) (q : Out D K) (h : quantity x u true = .ok q) :
    (∃ m v, q = .q m v) ∨ ∃ ms v, q = .qarr ms v := by
  cases x with
  | sc s =>
    cases s with
    | num x => simp only [quantity, if_true, Except.ok.injEq] at h; exact Or.inl ⟨_, _, h.symm⟩
    | q x v => simp only [quantity, Except.ok.injEq] at h; exact Or.inl ⟨_, _, h.symm⟩
  | qarr xs v =>
    simp only [quantity] at h
    split at h
    · simp at h
    · simp only [Except.ok.injEq] at h; exact Or.inr ⟨_, _, h.symm⟩
    · simp only [if_true, Except.ok.injEq] at h; exact Or.inr ⟨_, _, h.symm⟩
  | list xs =>
    simp only [quantity] at h
    split at h
    · simp at h
    · simp only [Except.ok.injEq] at h; exact Or.inr ⟨_, _, h.symm⟩
    · simp only [if_true, Except.ok.injEq] at h; exact Or.inr ⟨_, _, h.symm⟩

/-- Results with units: what `to` does. -/
theorem to_phys (q : Out D K) (v : Unt D K) (r : Out D K) (d : Unt D K) (h : q.to v = .ok r) : r.phys d = q.phys d := by
  cases q with
  | num x => simp only [Out.to, Except.ok.injEq] at h; subst h; rfl
  | arr xs => simp only [Out.to, Except.ok.injEq] at h; subst h; rfl
  | q x u =>
    simp only [Out.to, conv] at h
    by_cases hd : u.dim = v.dim
    · rw [if_pos hd] at h
      simp only [Except.ok.injEq] at h
      subst h
      simp only [Out.phys]
      rw [phys_conv x u v hd]
    · rw [if_neg hd] at h; simp at h
  | qarr xs u =>
    simp only [Out.to, convs] at h
    by_cases hd : u.dim = v.dim
    · rw [if_pos hd] at h
      simp only [Except.ok.injEq] at h
      subst h
      simp only [Out.phys, List.map_map]
      apply List.map_congr_left
      intro x _
      exact phys_conv x u v hd
    · rw [if_neg hd] at h; simp at h

theorem to_mags (q : Out D K) (v : Unt D K) (r : Out D K) (d : Unt D K) (hq : (∃ m w, q = .q m w) ∨ ∃ ms w, q = .qarr ms w)
    (h : q.to v = .ok r) : r.mags.map (fun m => phys m v) = q.phys d := by
  rw [← to_phys q v r d h]
  rcases hq with ⟨m, w, rfl⟩ | ⟨ms, w, rfl⟩
  · simp only [Out.to] at h
    split at h
    · simp at h
    · simp only [Except.ok.injEq] at h; subst h; rfl
  · simp only [Out.to] at h
    split at h
    · simp at h
    · simp only [Except.ok.injEq] at h; subst h; rfl

/-- **C80.** `umagnitude` gives the values in the unit; numbers are left as they are. -/
theorem umagnitude_ok (x : Val D K) (hx : x.Uniform) (u : Unt D K) (ms : List K) (h : umagnitude x (some u) = .ok ms) :
    ms.map (fun m => phys m u) = x.phys u := by
  unfold umagnitude at h
  cases hq : quantity x (some u) true with
  | error e => rw [hq] at h; simp at h
  | ok q =>
    rw [hq] at h
    simp only [Option.getD_some] at h
    cases hr : q.to u with
    | error e => rw [hr] at h; simp at h
    | ok r =>
      rw [hr] at h
      simp only [Except.ok.injEq] at h
      subst h
      rw [to_mags q u r u (quantity_force x _ q hq) hr]
      have := quantity_phys x hx (some u) true q hq
      simpa using this

/-- The elements in the unit `u`. -/
def InUnit (u : Option (Unt D K)) (r : Out D K) : Prop := match u, r with
  | none, .num _ => True
  | none, .arr _ => True
  | some u, .q _ v => u = v
  | some u, .qarr _ v => u = v
  | _, _ => False

theorem single_iff {α : Type} [DecidableEq α] (l : List α) (a : α) : single l = some a ↔ l ≠ [] ∧ ∀ b ∈ l, b = a := by
  cases l with
  | nil => simp [single]
  | cons c l =>
    simp only [single, List.all_eq_true, decide_eq_true_eq]
    split
    · rename_i h
      simp only [Option.some.injEq, ne_eq, reduceCtorEq, not_false_eq_true, List.mem_cons, forall_eq_or_imp, true_and]
      constructor
      · intro e; subst e; exact ⟨rfl, h⟩
      · exact fun e => e.1
    · rename_i h
      simp only [reduceCtorEq, ne_eq, not_false_eq_true, List.mem_cons, forall_eq_or_imp, true_and, false_iff, not_and]
      intro e; subst e
      exact fun h2 => h h2

/-- **C80.** `quantity_like` gives the same values in the one unit of the other argument. -/
theorem quantityLike_ok (x y : Val D K) (hx : x.Uniform) (force : Bool) (r : Out D K) (h : quantityLike x y force = .ok r) :
    ∃ u, y.units ≠ [] ∧ (∀ v ∈ y.units, v = u) ∧ r.phys (u.getD dimless) = x.phys (u.getD dimless) ∧
      InUnit (if force then some (u.getD dimless) else u) r := by
  unfold quantityLike at h
  cases hs : single y.units with
  | none => rw [hs] at h; simp at h
  | some u =>
    rw [hs] at h
    obtain ⟨hne, hall⟩ := (single_iff _ _).1 hs
    refine ⟨u, hne, hall, ?_⟩
    simp only at h
    split at h
    · rename_i hc
      simp only [Bool.and_eq_true, Bool.not_eq_true', Option.isNone_iff_eq_none] at hc
      obtain ⟨hf, hu⟩ := hc
      subst hf; subst hu
      simp only [Bool.false_eq_true, if_false, Option.getD_none]
      cases x with
      | sc s =>
        simp only at h
        split at h
        · simp at h
        · rename_i m hm
          simp only [Except.ok.injEq] at h
          subst h
          refine ⟨?_, trivial⟩
          have := sc_magnitude_ok s none m hm
          simp only [Out.phys, Val.phys]
          rw [← this]; rfl
      | qarr xs v =>
        simp only at h
        split at h
        · simp at h
        · rename_i ms hms
          simp only [Except.ok.injEq] at h
          subst h
          exact ⟨magnitude_ok (.qarr xs v) dimless ms hms, trivial⟩
      | list xs =>
        simp only at h
        split at h
        · simp at h
        · rename_i ms hms
          simp only [Except.ok.injEq] at h
          subst h
          exact ⟨magnitudes_ok none xs ms hms, trivial⟩
    · rename_i hc
      split at h
      · simp at h
      · rename_i q hq
        refine ⟨?_, ?_⟩
        · rw [to_phys q _ r _ h]
          exact quantity_phys x hx (some (u.getD dimless)) true q hq
        · have hu : (if force then some (u.getD dimless) else u) = some (u.getD dimless) := by
            cases force with
            | true => rfl
            | false =>
              cases u with
              | none => simp at hc
              | some v => rfl
          rw [hu]
          rcases quantity_force x _ q hq with ⟨m, w, rfl⟩ | ⟨ms, w, rfl⟩
          · simp only [Out.to] at h
            split at h
            · simp at h
            · simp only [Except.ok.injEq] at h; subst h; rfl
          · simp only [Out.to] at h
            split at h
            · simp at h
            · simp only [Except.ok.injEq] at h; subst h; rfl

/-! ## unitsto -/

/-- The dimension of a quantity. -/
def Out.dim? : Out D K → Option D
  | .q _ w => some w.dim
  | .qarr _ w => some w.dim
  | _ => none

theorem to_same (q : Out D K) (v : Unt D K) (h : q.dim? = some v.dim) : ∃ r, q.to v = .ok r ∧ InUnit (some v) r := by
  cases q with
  | num x => simp [Out.dim?] at h
  | arr x => simp [Out.dim?] at h
  | q x w =>
    simp only [Out.dim?, Option.some.injEq] at h
    exact ⟨.q (x * w.factor / v.factor) v, by simp only [Out.to, conv, h, if_true], rfl⟩
  | qarr x w =>
    simp only [Out.dim?, Option.some.injEq] at h
    exact ⟨.qarr (x.map fun x => x * w.factor / v.factor) v, by simp only [Out.to, convs, h, if_true], rfl⟩

theorem to_other (q : Out D K) (v : Unt D K) (d : D) (h : q.dim? = some d) (hd : d ≠ v.dim) : q.to v = .error .dimensionality := by
  cases q with
  | num x => simp [Out.dim?] at h
  | arr x => simp [Out.dim?] at h
  | q x w =>
    simp only [Out.dim?, Option.some.injEq] at h
    simp only [Out.to, conv, h, hd, if_false]
  | qarr x w =>
    simp only [Out.dim?, Option.some.injEq] at h
    simp only [Out.to, convs, h, hd, if_false]

/-- The dimension of a quantity made from a value is that of all its elements. -/
theorem quantity_dim (x : Val D K) (hx : x.Uniform) (u : Option (Unt D K)) (q : Out D K) (h : quantity x u true = .ok q) :
    ∃ d, q.dim? = some d ∧ x.HasDim (u.getD dimless) d := by
  have hp := quantity_phys x hx u true q h
  rcases quantity_force x u q h with ⟨m, w, rfl⟩ | ⟨ms, w, rfl⟩
  · refine ⟨w.dim, rfl, ?_⟩
    cases x with
    | sc s =>
      simp only [Out.phys, Val.phys, List.cons.injEq, and_true] at hp
      simp only [Val.HasDim]
      rw [← hp]; rfl
    | qarr xs v =>
      simp only [quantity] at h
      split at h <;> simp at h
    | list xs =>
      simp only [quantity] at h
      split at h <;> simp at h
  · refine ⟨w.dim, rfl, ?_⟩
    cases x with
    | sc s =>
      simp only [Out.phys, Val.phys] at hp
      simp only [Val.HasDim]
      have : s.phys (u.getD dimless) ∈ ms.map fun x => phys x w := by rw [hp]; simp
      obtain ⟨m, _, hm⟩ := List.mem_map.1 this
      rw [← hm]; rfl
    | qarr xs v =>
      simp only [quantity, asqarray, Val.units, Option.getD_some, convs, if_true, Except.ok.injEq, Out.qarr.injEq] at h
      simp only [Val.HasDim]
      rw [h.2]
    | list xs =>
      simp only [Val.HasDim]
      intro s hs
      have : s.phys (u.getD dimless) ∈ ms.map fun x => phys x w := by
        rw [show (ms.map fun x => phys x w) = xs.map (Sc.phys (u.getD dimless)) from hp]
        exact List.mem_map.2 ⟨s, hs, rfl⟩
      obtain ⟨m, _, hm⟩ := List.mem_map.1 this
      rw [← hm]; rfl

theorem firstTo_spec (q : Out D K) (d : D) (hq : q.dim? = some d) : ∀ (us : List (Unt D K)),
    (∀ r, firstTo q us = .ok r → ∃ pre v post, us = pre ++ v :: post ∧ (∀ w ∈ pre, w.dim ≠ d) ∧ v.dim = d ∧ q.to v = .ok r) ∧
    ((∀ w ∈ us, w.dim ≠ d) → firstTo q us = .error .runtime) ∧ ((∃ w ∈ us, w.dim = d) → ∃ r, firstTo q us = .ok r)
  | [] => ⟨by simp [firstTo], by simp [firstTo], by simp⟩
  | u :: us => by
    obtain ⟨h1, h2, h3⟩ := firstTo_spec q d hq us
    by_cases hd : d = u.dim
    · obtain ⟨r, hr, _⟩ := to_same q u (by rw [hq, hd])
      refine ⟨?_, ?_, ?_⟩
      · intro r' h
        simp only [firstTo, hr, Except.ok.injEq] at h
        subst h
        exact ⟨[], u, us, rfl, by simp, hd.symm, hr⟩
      · intro h
        exact absurd hd.symm (h u (by simp))
      · intro _
        exact ⟨r, by simp only [firstTo, hr]⟩
    · have he := to_other q u d hq hd
      refine ⟨?_, ?_, ?_⟩
      · intro r' h
        simp only [firstTo, he] at h
        obtain ⟨pre, v, post, e1, e2, e3, e4⟩ := h1 r' h
        exact ⟨u :: pre, v, post, by rw [e1]; rfl, by
          intro w hw
          rcases List.mem_cons.1 hw with rfl | hw
          · exact fun e => hd e.symm
          · exact e2 w hw, e3, e4⟩
      · intro h
        simp only [firstTo, he]
        exact h2 (fun w hw => h w (by simp [hw]))
      · rintro ⟨w, hw, hwd⟩
        simp only [firstTo, he]
        rcases List.mem_cons.1 hw with rfl | hw
        · exact absurd hwd.symm hd
        · exact h3 ⟨w, hw, hwd⟩

/-- **C80.** `unitsto` converts to the first unit with the right dimension. -/
theorem unitsto_ok (x : Val D K) (hx : x.Uniform) (us : List (Unt D K)) (r : Out D K) (h : unitsto x us = .ok r) :
    ∃ pre v post, us = pre ++ v :: post ∧ x.HasDim dimless v.dim ∧ (∀ w ∈ pre, w.dim ≠ v.dim) ∧ InUnit (some v) r ∧
      r.phys dimless = x.phys dimless := by
  unfold unitsto at h
  cases hq : quantity x none true with
  | error e => rw [hq] at h; simp at h
  | ok q =>
    rw [hq] at h
    obtain ⟨d, hd, hdim⟩ := quantity_dim x hx none q hq
    obtain ⟨pre, v, post, e1, e2, e3, e4⟩ := (firstTo_spec q d hd us).1 r h
    subst e3
    obtain ⟨r', hr', hu⟩ := to_same q v hd
    rw [e4] at hr'
    simp only [Except.ok.injEq] at hr'
    subst hr'
    exact ⟨pre, v, post, e1, hdim, e2, hu, by
      rw [to_phys q v r dimless e4]
      exact quantity_phys x hx none true q hq⟩

/-- **C80.** When no unit has the right dimension `unitsto` raises RuntimeError. -/
theorem unitsto_error (x : Val D K) (hx : x.Uniform) (us : List (Unt D K)) (q : Out D K) (hq : quantity x none true = .ok q)
    (h : ∀ w ∈ us, ¬ x.HasDim dimless w.dim) : unitsto x us = .error .runtime := by
  unfold unitsto
  rw [hq]
  obtain ⟨d, hd, hdim⟩ := quantity_dim x hx none q hq
  exact (firstTo_spec q d hd us).2.1 (fun w hw e => h w hw (by rw [e]; exact hdim))

/-- **C80.** It succeeds when there is such a unit. -/
theorem unitsto_finds (x : Val D K) (hx : x.Uniform) (us : List (Unt D K)) (q : Out D K) (hq : quantity x none true = .ok q)
    (hne : x.units ≠ []) (w : Unt D K) (hw : w ∈ us) (h : x.HasDim dimless w.dim) : ∃ r, unitsto x us = .ok r := by
  unfold unitsto
  rw [hq]
  obtain ⟨d, hd, hdim⟩ := quantity_dim x hx none q hq
  refine (firstTo_spec q d hd us).2.2 ⟨w, hw, ?_⟩
  cases x with
  | sc s => exact h.symm.trans hdim
  | qarr xs v => exact h.symm.trans hdim
  | list xs =>
    cases xs with
    | nil => simp [Val.units] at hne
    | cons s xs => exact (h s (by simp)).symm.trans (hdim s (by simp))

/-! ## binary_operator -/

theorem quantity_unit (x : Val D K) (u : Option (Unt D K)) (hne : x.units ≠ []) (hall : ∀ v ∈ x.units, v = u) (q : Out D K)
    (h : quantity x none false = .ok q) : InUnit u q := by
  cases x with
  | sc s =>
    have hu : s.units = u := hall _ (by simp [Val.units])
    cases s with
    | num x =>
      simp only [quantity, Bool.false_eq_true, if_false, Except.ok.injEq] at h
      subst h; rw [← hu]; trivial
    | q x v =>
      simp only [quantity, Except.ok.injEq] at h
      subst h; rw [← hu]; rfl
  | qarr xs v =>
    have hu : some v = u := hall _ (by simp [Val.units])
    simp only [quantity, asqarray, Val.units, Option.getD_some, convs, if_true, Except.ok.injEq] at h
    subst h; rw [← hu]; rfl
  | list xs =>
    cases xs with
    | nil => simp [Val.units] at hne
    | cons s xs =>
      have hu : s.units = u := hall _ (by simp [Val.units])
      simp only [quantity, asqarray, Val.units, List.map_cons] at h
      rw [hu] at h
      cases hm : magnitudes u (s :: xs) with
      | error e => rw [hm] at h; simp at h
      | ok ms =>
        rw [hm] at h
        cases u with
        | none =>
          simp only [Bool.false_eq_true, if_false, Except.ok.injEq] at h
          subst h; trivial
        | some v =>
          simp only [Except.ok.injEq] at h
          subst h; rfl

omit [DecidableEq D] in
theorem phys_default (x : Val D K) (d d' : Unt D K) (h : none ∉ x.units) : x.phys d = x.phys d' := by
  cases x with
  | sc s =>
    cases s with
    | num x => simp [Val.units, Sc.units] at h
    | q x v => rfl
  | qarr xs v => rfl
  | list xs =>
    simp only [Val.phys]
    apply List.map_congr_left
    intro s hs
    cases s with
    | num x => exact absurd (List.mem_map.2 ⟨_, hs, rfl⟩) h
    | q x v => rfl

/-- **C80.** The two operands are in one unit, that of the first, and have the values of the arguments; numbers
in the second argument are in that unit. -/
theorem operands_ok (a b : Val D K) (ha : a.Uniform) (hb : b.Uniform) (x y : Out D K) (h : operands a b = .ok (x, y)) :
    ∃ u, (∀ v ∈ a.units, v = u) ∧ InUnit u x ∧ InUnit u y ∧ x.phys (u.getD dimless) = a.phys (u.getD dimless) ∧
      y.phys (u.getD dimless) = b.phys (u.getD dimless) := by
  unfold operands at h
  cases hq : quantity a none false with
  | error e => rw [hq] at h; simp at h
  | ok q =>
    rw [hq] at h
    cases hl : quantityLike b a false with
    | error e => rw [hl] at h; simp at h
    | ok r =>
      rw [hl] at h
      simp only [Except.ok.injEq, Prod.mk.injEq] at h
      obtain ⟨e1, e2⟩ := h
      subst e1; subst e2
      obtain ⟨u, hne, hall, hp, hu⟩ := quantityLike_ok b a hb false r hl
      simp only [Bool.false_eq_true, if_false] at hu
      have hux := quantity_unit a u hne hall q hq
      refine ⟨u, hall, hux, hu, ?_, hp⟩
      have := quantity_phys a ha none false q hq
      simp only [Option.getD_none] at this
      cases u with
      | none => exact this
      | some v =>
        have hn : none ∉ a.units := fun hm => by have := hall _ hm; simp at this
        rw [phys_default a _ dimless hn, ← this]
        cases q with
        | num _ => simp [InUnit] at hux
        | arr _ => simp [InUnit] at hux
        | q _ _ => rfl
        | qarr _ _ => rfl

/-- **C80.** So comparing two quantities compares their values. -/
theorem operands_lt (x y : K) (u v : Unt D K) (m m' : K) (w w' : Unt D K)
    (h : operands (.sc (.q x u)) (.sc (.q y v)) = .ok (.q m w, .q m' w')) : u.dim = v.dim ∧ (m < m' ↔ x * u.factor < y * v.factor) := by
  simp only [operands, quantity, quantityLike, Val.units, Sc.units, single, List.all_nil, if_true, Option.isNone_some, Bool.and_false,
    Bool.false_eq_true, if_false, Option.getD_some, Out.to, conv] at h
  by_cases hd : v.dim = u.dim
  · rw [if_pos hd] at h
    simp only [Except.ok.injEq, Prod.mk.injEq, Out.q.injEq] at h
    obtain ⟨⟨h1, _⟩, h2, _⟩ := h
    refine ⟨hd.symm, ?_⟩
    rw [← h1, ← h2, lt_div_iff₀ u.pos]
  · rw [if_neg hd] at h
    simp at h

/-! ## Limits -/

/-- Not so for mixed lists: a dimensionless quantity after a number gets the default unit. -/
theorem mixed_relabelled (a b : K) (u : Unt D K) :
    quantity (.list [.num a, .q b dimless]) (some u) true = .ok (.qarr [a, b] u) := by
  simp [quantity, asqarray, Val.units, Sc.units, magnitudes, Sc.magnitude, conv, dimless]

/-- A number is taken in the unit of the first argument, but not in that of the second one. -/
theorem operands_asymmetric (x y : K) (u : Unt D K) (hu : u.dim ≠ 0) :
    operands (.sc (.q x u)) (.sc (.num y)) = .ok (.q x u, .q y u) ∧ operands (.sc (.num y)) (.sc (.q x u)) = .error .dimensionality := by
  constructor
  · simp [operands, quantity, quantityLike, Val.units, Sc.units, single, Out.to, conv, u.pos.ne']
  · simp [operands, quantity, quantityLike, Val.units, Sc.units, single, Sc.magnitude, conv, dimless, hu]

/-- Lists in several units of one dimension cannot be compared with anything. -/
theorem quantityLike_units (x : Val D K) (a b : K) (u v : Unt D K) (h : v ≠ u) (force : Bool) :
    quantityLike x (.list [.q a u, .q b v]) force = .error .value := by
  simp [quantityLike, Val.units, Sc.units, single, h]

/-- Kilometres and metres. -/
example : operands (D := Int) (K := ℚ) (.sc (.q 3 ⟨1, 1, 1000, by norm_num⟩)) (.sc (.q 5 ⟨2, 1, 1, by norm_num⟩)) =
    .ok (.q 3 ⟨1, 1, 1000, by norm_num⟩, .q (1 / 200) ⟨1, 1, 1000, by norm_num⟩) := by
  simp [operands, quantity, quantityLike, Val.units, Sc.units, single, Out.to, conv]
  norm_num

example : (Val.list [Sc.q (3 : ℚ) ⟨1, (1 : Int), 1000, by norm_num⟩, .q 7 ⟨2, 1, 1, by norm_num⟩]).Uniform := by
  right; intro s hs; simp only [List.mem_cons, List.not_mem_nil, or_false] at hs; rcases hs with rfl | rfl <;> simp [Sc.units]

end SC.Units
