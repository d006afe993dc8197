import Verif.XiaRead.Spec
import Verif.XiaConfig.Props
import Mathlib.Tactic.Ring
/-! # Lemmas about reading XIA data -/

namespace SC.XiaRead
open XiaConfig

variable {K : Type} [Field K]

theorem gather_some {A B : Type} {f : B → Option A} {l : List B} {vs : List A} :
    gather (l.map f) = some vs ↔ List.Forall₂ (fun x v => f x = some v) l vs := by
  induction l generalizing vs with
  | nil => cases vs <;> simp [gather]
  | cons x l ih =>
    cases vs with
    | nil => simp [gather, Option.bind_eq_some_iff]
    | cons v vs =>
      simp only [List.map_cons, gather, Option.bind_eq_some_iff, Option.map_eq_some_iff, List.cons.injEq,
        List.forall₂_cons]
      constructor
      · rintro ⟨a, ha, as, has, rfl, rfl⟩
        exact ⟨ha, ih.1 has⟩
      · rintro ⟨h1, h2⟩
        exact ⟨v, h1, vs, ih.2 h2, rfl, rfl⟩

theorem sequence_eq {A B : Type} {f : B → Calc A} {l : List B} {vs : List A} {s : Config × Unit}
    (h : List.Forall₂ (fun x v => f x s = (.ok v, s)) l vs) : sequence (l.map f) s = (.ok vs, s) := by
  induction h with
  | nil => rfl
  | cons h _ ih => simp [sequence, M.bind, h, ih, M.pure]

theorem setLevels_frozen {c : Config} (h : c.freeze = true) : setLevels c = c := by simp [setLevels, h]

theorem touch_frozen {n : Nat} {c : Config} (h : c.freeze = true) : touch n c = c := by
  unfold touch
  split
  · exact setLevels_frozen h
  · rfl

theorem set_frozen {c : Config} (h : c.freeze = true) : { c with freeze := true } = c := by
  cases c; simp_all

theorem optional_scope {A : Type} {k : Scope} {m : Calc A} {a : A} {c : Config}
    (h : m (k.enter c, ()) = (.ok a, k.enter c, ())) :
    optional true (scope k m) (c, ()) = (.ok (some a), { c with freeze := true }, ()) := by
  have h1 := scope_value k m c _ () () a h
  have h2 : { k.enter c with indexing := c.indexing } = { c with freeze := true } := by cases k <;> rfl
  simp [optional, M.bind, h1, h2, M.pure]

theorem optional_false {A : Type} {m : Calc A} {s : Config × Unit} : optional false m s = (.ok none, s) := rfl

theorem bind_ok {W α β : Type} {m : M W α} {f : α → M W β} {s s' : Config × W} {a : α} (h : m s = (.ok a, s')) :
    M.bind m f s = f a s' := by
  simp [M.bind, h]

theorem pure_bind {W α β : Type} {a : α} {f : α → M W β} {s : Config × W} : M.bind (M.pure a) f s = f a s := rfl

/-- `__getitem__` when the parts can be read. -/
theorem getitemWith_eq {A : Type} (level : Nat) (rd : Reader A) (c : Config) (d st ct res : A)
    (hi : Request (touch level c).indexing)
    (hd : (touch level c).indexing.data = true →
      rd.data (Scope.onlydata.enter (touch level c), ()) = (.ok d, Scope.onlydata.enter (touch level c), ()))
    (hs : (touch level c).indexing.stats = true ∨ (infoOf level (touch level c)).dt = true →
      rd.stats (Scope.onlystats.enter (touch level c), ()) = (.ok st, Scope.onlystats.enter (touch level c), ()))
    (hc : (touch level c).indexing.counters = true →
      rd.counters (Scope.onlycounters.enter (touch level c), ()) = (.ok ct, Scope.onlycounters.enter (touch level c), ()))
    (hr : (touch level c).indexing.data = true →
      correct rd (infoOf level (touch level c)) (some d)
        (if (touch level c).indexing.stats || (infoOf level (touch level c)).dt then some st else none)
        ({ touch level c with freeze := true }, ()) = (.ok (some res), { touch level c with freeze := true }, ())) :
    getitemWith level rd (c, ()) =
      (.ok { data := if (touch level c).indexing.data then some res else none
             stats := if (touch level c).indexing.stats then some st else none
             counters := if (touch level c).indexing.counters then some ct else none },
        { touch level c with freeze := true }, ()) := by
  unfold getitemWith
  dsimp only
  revert hd hs hc hr hi
  generalize touch level c = c1
  obtain ⟨⟨i1, i2, i3, oi⟩, ov, ex, inc, add, dtc, nrm, ml, lv, fr, rdir⟩ := c1
  unfold Request
  dsimp only
  generalize infoOf level _ = info
  obtain ⟨a, b, e⟩ := info
  intro hi hd hs hc hr
  dsimp only at hd hs hc hr ⊢
  have step1 : optional i1 (scope .onlydata rd.data)
      (⟨⟨i1, i2, i3, oi⟩, ov, ex, inc, add, dtc, nrm, ml, lv, fr, rdir⟩, ()) =
      (.ok (if i1 then some d else none), ⟨⟨i1, i2, i3, oi⟩, ov, ex, inc, add, dtc, nrm, ml, lv, if i1 then true else fr, rdir⟩, ()) := by
    cases i1
    · rfl
    · exact optional_scope (hd rfl)
  rw [bind_ok step1]
  have step2 : ∀ fr', optional (i2 || a) (scope .onlystats rd.stats)
      (⟨⟨i1, i2, i3, oi⟩, ov, ex, inc, add, dtc, nrm, ml, lv, fr', rdir⟩, ()) =
      (.ok (if i2 || a then some st else none), ⟨⟨i1, i2, i3, oi⟩, ov, ex, inc, add, dtc, nrm, ml, lv, if i2 || a then true else fr', rdir⟩, ()) := by
    intro fr'
    cases h : i2 || a
    · rfl
    · exact optional_scope (hs (by simpa using h))
  have step3 : ∀ fr', optional i3 (scope .onlycounters rd.counters)
      (⟨⟨i1, i2, i3, oi⟩, ov, ex, inc, add, dtc, nrm, ml, lv, fr', rdir⟩, ()) =
      (.ok (if i3 then some ct else none), ⟨⟨i1, i2, i3, oi⟩, ov, ex, inc, add, dtc, nrm, ml, lv, if i3 then true else fr', rdir⟩, ()) := by
    intro fr'
    cases i3
    · rfl
    · exact optional_scope (hc rfl)
  split
  · rename_i hcond
    simp only [Bool.and_eq_true, Bool.not_eq_true', Bool.or_eq_false_iff] at hcond
    obtain ⟨⟨rfl, rfl, rfl⟩, ⟨rfl, rfl⟩, rfl⟩ := hcond
    have := hr rfl
    simp only [correct, Bool.or_self, Bool.false_eq_true, if_false, M.pure, Prod.mk.injEq, Res.ok.injEq, Option.some.injEq, and_true] at this
    subst this
    rfl
  · rename_i hcond
    rw [bind_ok (step2 _)]
    split
    · rename_i hcond2
      simp only [Bool.and_eq_true, Bool.not_eq_true', Bool.or_eq_true] at hcond2
      obtain ⟨h1, rfl, rfl⟩ := hcond2
      simp only [Bool.false_eq_true, false_or, ne_eq, Bool.not_eq_false] at hi
      subst hi
      simp [M.pure]
    · rename_i hcond2
      rw [bind_ok (step3 _)]
      split
      · rename_i hcond3
        simp only [Bool.and_eq_true, Bool.not_eq_true'] at hcond3
        obtain ⟨rfl, rfl, rfl⟩ := hcond3
        simp [M.pure]
      · rename_i hcond3
        cases i1
        · exfalso
          cases i2 <;> cases i3 <;> simp at hi hcond2 hcond3
        · have h4 := hr rfl
          simp only [if_true, Bool.true_or, ite_self] at h4 ⊢
          rw [bind_ok h4]
          cases i2 <;> cases i3 <;> simp [M.pure]

/-! ## The data of a level -/

/-- The corrections of one level. -/
def fixup {A : Type} (i : Info) (stats : Option A) (dt : A → A → A) (sum : A → A) (norm : A → Option A) (d : A) :
    Option A :=
  (if i.dt then stats.map (dt d) else some d).bind fun d =>
    if i.norm then norm (if i.sum then sum d else d) else some (if i.sum then sum d else d)

/-- The normalization as an option. -/
def normOpt : (n : Nat) → (Str → Option (List (List K))) → Option Str → Arr K (n + 1) → Option (Arr K (n + 1))
  | 0, monitor, some ctr, d => (monitor ctr).map fun m => List.zipWith normLine (show List (Block K) from d) m
  | _, _, _, _ => none

variable (dtf : K → K → K)

/-- What an object of level `n` returns when only data is requested. -/
def dataAt (c : Config) : (n : Nat) → Obj K n → Option (Arr K n)
  | 0, l => (show Line K from l).data.bind
      (fixup (infoOf 0 c) (rawStats c.indexing.onlyicrocr 0 l) (dtLine dtf c.indexing.onlyicrocr) sumLine fun _ => none)
  | n + 1, o =>
    let node : Node (Obj K n) K := o
    (gather (node.items.map (dataAt c n))).bind
      (fixup (infoOf (n + 1) c) (rawStats c.indexing.onlyicrocr (n + 1) o) (dtArr dtf c.indexing.onlyicrocr (n + 1))
        (sumArr (n + 1)) (normOpt n node.monitor c.norm))

theorem dataAt_congr {c c' : Config} (h1 : c'.dtcor = c.dtcor) (h2 : c'.add = c.add) (h3 : c'.norm = c.norm)
    (h4 : c'.levels = c.levels) (h5 : c'.indexing.onlyicrocr = c.indexing.onlyicrocr) (n : Nat) (o : Obj K n) :
    dataAt dtf c' n o = dataAt dtf c n o := by
  have hinfo : ∀ n, infoOf n c' = infoOf n c := fun n => by simp [infoOf, h1, h2, h3, h4]
  induction n with
  | zero => simp only [dataAt, hinfo, h5]
  | succ n ih =>
    have : dataAt dtf c' n = dataAt dtf c n := funext fun o => ih o
    simp only [dataAt, hinfo, h5, h3, this]

theorem dataAt_enter {k : Scope} (hk : k ≠ .allstats) (c : Config) (n : Nat) (o : Obj K n) :
    dataAt dtf (k.enter c) n o = dataAt dtf c n o := by
  cases k <;> first | exact absurd rfl hk | (refine dataAt_congr dtf ?_ ?_ ?_ ?_ ?_ n o <;> rfl)

theorem infoOf_enter (k : Scope) (n : Nat) (c : Config) : infoOf n (k.enter c) = infoOf n c := by
  cases k <;> rfl

/-- The corrections of a level, given the reader's. -/
theorem correct_eq {A : Type} {rd : Reader A} {i : Info} {stats : Option A} {dt : A → A → A} {norm : A → Option A}
    {d res : A} {s : Config × Unit} (hdt : ∀ d st, rd.dt d st s = (.ok (dt d st), s))
    (hnorm : ∀ d r, norm d = some r → rd.norm d s = (.ok r, s))
    (h : fixup i stats dt rd.sum norm d = some res) :
    correct rd i (some d) (if i.dt then stats else none) s = (.ok (some res), s) := by
  obtain ⟨a, b, e⟩ := i
  unfold fixup at h
  dsimp only at h ⊢
  unfold correct
  dsimp only
  cases a
  · simp only [Bool.false_eq_true, if_false, Option.bind_some] at h
    cases b <;> cases e <;> simp only [Bool.false_eq_true, if_false, if_true, Bool.or_self, Bool.or_true, Bool.or_false, Option.some.injEq, Bool.true_or] at h ⊢
    · rw [h]; rfl
    · rw [pure_bind, pure_bind, bind_ok (hnorm _ _ h)]; rfl
    · rw [pure_bind, pure_bind, pure_bind, h]; rfl
    · rw [pure_bind, pure_bind, bind_ok (hnorm _ _ h)]; rfl
  · simp only [if_true, Option.bind_eq_some_iff, Option.map_eq_some_iff] at h
    obtain ⟨_, ⟨st, rfl, rfl⟩, h⟩ := h
    simp only [Bool.true_or, if_true]
    rw [bind_ok (hdt d st)]
    cases b <;> cases e <;> simp only [Bool.false_eq_true, if_false, if_true, Option.some.injEq] at h ⊢
    · rw [pure_bind, pure_bind, h]; rfl
    · rw [pure_bind, bind_ok (hnorm _ _ h)]; rfl
    · rw [pure_bind, pure_bind, h]; rfl
    · rw [pure_bind, bind_ok (hnorm _ _ h)]; rfl

/-- Extra statistics do no harm. -/
theorem correct_stats {A : Type} {rd : Reader A} {i : Info} {d : A} {b : Bool} {st : A} {s : Config × Unit} :
    correct rd i (some d) (if b || i.dt then some st else none) s =
      correct rd i (some d) (if i.dt then some st else none) s := by
  obtain ⟨a, _, _⟩ := i
  cases a
  · unfold correct; simp
  · simp

theorem normArr_eq {n : Nat} {monitor : Str → Option (List (List K))} {ctr : Option Str} {d r : Arr K (n + 1)}
    (h : normOpt n monitor ctr d = some r) (s : Config × Unit) : normArr n monitor ctr d s = (.ok r, s) := by
  cases n with
  | zero =>
    cases ctr with
    | none => simp [normOpt] at h
    | some ctr =>
      obtain ⟨m, hm, rfl⟩ := Option.map_eq_some_iff.1 (show (monitor ctr).map _ = some r from h)
      simp only [normArr, hm]
      rfl
  | succ n => simp [normOpt] at h

theorem dataAt_stats {c : Config} {n : Nat} {o : Obj K n} {d : Arr K n} (h : dataAt dtf c n o = some d)
    (hdt : (infoOf n c).dt = true) : ∃ st, rawStats c.indexing.onlyicrocr n o = some st := by
  have key : ∀ {A : Type} {i : Info} {st : Option A} {dt : A → A → A} {sum norm} {d0 r : A}, i.dt = true →
      fixup i st dt sum norm d0 = some r → ∃ x, st = some x := by
    intro A i st dt sum norm d0 r hi h
    unfold fixup at h
    rw [if_pos hi] at h
    cases st with
    | none => simp at h
    | some x => exact ⟨x, rfl⟩
  cases n with
  | zero =>
    obtain ⟨d0, _, h2⟩ := Option.bind_eq_some_iff.1 (show Option.bind _ _ = some d from h)
    exact key hdt h2
  | succ n =>
    obtain ⟨d0, _, h2⟩ := Option.bind_eq_some_iff.1 (show Option.bind _ _ = some d from h)
    exact key hdt h2

/-- `obj[...]` when the parts can be read. -/
theorem getitem_eq (n : Nat) (o : Obj K n) (c : Config) (d st ct : Arr K n) (hi : Request (touch n c).indexing)
    (hd : (touch n c).indexing.data = true → dataAt dtf (touch n c) n o = some d)
    (hs : (touch n c).indexing.stats = true ∨ (infoOf n (touch n c)).dt = true →
      rawStats (touch n c).indexing.onlyicrocr n o = some st)
    (hc : (touch n c).indexing.counters = true →
      rawCounters n o = some ct ∧ ((touch n c).levels.dt = 0 ∨ n ≤ (touch n c).levels.dt)) :
    getitem dtf n o (c, ()) =
      (.ok { data := if (touch n c).indexing.data then some d else none
             stats := if (touch n c).indexing.stats then some st else none
             counters := if (touch n c).indexing.counters then some ct else none },
        { touch n c with freeze := true }, ()) := by
  induction n generalizing c with
  | zero =>
    simp only [getitem]
    obtain ⟨d0, hd0⟩ : ∃ d0, (touch 0 c).indexing.data = true → (show Line K from o).data = some d0 ∧
        fixup (infoOf 0 (touch 0 c)) (rawStats (touch 0 c).indexing.onlyicrocr 0 o)
          (dtLine dtf (touch 0 c).indexing.onlyicrocr) sumLine (fun _ => none) d0 = some d := by
      by_cases h : (touch 0 c).indexing.data = true
      · obtain ⟨d0, h1, h2⟩ := Option.bind_eq_some_iff.1 (show Option.bind _ _ = some d from hd h)
        exact ⟨d0, fun _ => ⟨h1, h2⟩⟩
      · exact ⟨d, fun h' => absurd h' h⟩
    refine getitemWith_eq 0 (lineReader dtf o) c d0 st ct d hi ?_ ?_ ?_ ?_
    · intro h
      show load (show Line K from o).data _ = _
      rw [(hd0 h).1]
      rfl
    · intro h
      have h1 := hs h
      show load ((show Line K from o).stats.map (pickStats _)) _ = _
      have h2 : (show Line K from o).stats.map (pickStats (Scope.onlystats.enter (touch 0 c)).indexing.onlyicrocr) = some st := h1
      rw [h2]
      rfl
    · intro h
      exact absurd (hc h).1 (by simp [rawCounters])
    · intro h
      refine correct_stats.trans ?_
      obtain ⟨_, h2⟩ := hd0 h
      have h3 : fixup (infoOf 0 (touch 0 c)) (some st) (dtLine dtf (touch 0 c).indexing.onlyicrocr) sumLine (fun _ => none) d0 = some d := by
        by_cases hdt : (infoOf 0 (touch 0 c)).dt = true
        · rw [hs (Or.inr hdt)] at h2; exact h2
        · unfold fixup at h2 ⊢; rw [if_neg hdt] at h2 ⊢; exact h2
      exact correct_eq (rd := lineReader dtf o) (fun _ _ => rfl) (by simp) h3
  | succ n ih =>
    simp only [getitem]
    generalize hc1 : touch (n + 1) c = c1 at hi hd hs hc ⊢
    have ld : ∀ x v, dataAt dtf c1 n x = some v →
        (M.bind (getitem dtf n x) single) (Scope.onlydata.enter c1, ()) = (.ok v, Scope.onlydata.enter c1, ()) := by
      intro x v h
      have ht : touch n (Scope.onlydata.enter c1) = Scope.onlydata.enter c1 := touch_frozen rfl
      obtain ⟨st', hst'⟩ : ∃ st', (infoOf n c1).dt = true → rawStats c1.indexing.onlyicrocr n x = some st' := by
        by_cases hdt : (infoOf n c1).dt = true
        · obtain ⟨st', h'⟩ := dataAt_stats dtf h hdt
          exact ⟨st', fun _ => h'⟩
        · exact ⟨v, fun h' => absurd h' hdt⟩
      have := ih x (Scope.onlydata.enter c1) v st' v (by rw [ht]; exact Or.inl rfl)
        (by rw [ht]; intro _; rw [dataAt_enter dtf (by simp)]; exact h)
        (by rw [ht, infoOf_enter]; intro h'; rcases h' with h' | h'
            · exact absurd h' (by simp [Scope.enter, Setting.apply, Scope.setting])
            · exact hst' h')
        (by rw [ht]; intro h'; exact absurd h' (by simp [Scope.enter, Setting.apply, Scope.setting]))
      rw [ht] at this
      exact (bind_ok this).trans rfl
    have ls : ∀ x v, rawStats c1.indexing.onlyicrocr n x = some v →
        (M.bind (getitem dtf n x) single) (Scope.onlystats.enter c1, ()) = (.ok v, Scope.onlystats.enter c1, ()) := by
      intro x v h
      have ht : touch n (Scope.onlystats.enter c1) = Scope.onlystats.enter c1 := touch_frozen rfl
      have := ih x (Scope.onlystats.enter c1) v v v (by rw [ht]; exact Or.inr (by simp [Scope.enter, Setting.apply, Scope.setting]))
        (by rw [ht]; intro h'; exact absurd h' (by simp [Scope.enter, Setting.apply, Scope.setting]))
        (by rw [ht]; intro _; exact h)
        (by rw [ht]; intro h'; exact absurd h' (by simp [Scope.enter, Setting.apply, Scope.setting]))
      rw [ht] at this
      exact (bind_ok this).trans rfl
    have lc : ∀ x v, rawCounters n x = some v → n ≠ 0 → (c1.levels.dt = 0 ∨ n + 1 ≤ c1.levels.dt) →
        (M.bind (getitem dtf n x) single) (Scope.onlycounters.enter c1, ()) = (.ok v, Scope.onlycounters.enter c1, ()) := by
      intro x v h hn hdt
      have ht : touch n (Scope.onlycounters.enter c1) = Scope.onlycounters.enter c1 := touch_frozen rfl
      have hl : (Scope.onlycounters.enter c1).levels = c1.levels := rfl
      have := ih x (Scope.onlycounters.enter c1) v v v (by rw [ht]; exact Or.inr (by simp [Scope.enter, Setting.apply, Scope.setting]))
        (by rw [ht]; intro h'; exact absurd h' (by simp [Scope.enter, Setting.apply, Scope.setting]))
        (by rw [ht, infoOf_enter]; intro h'; rcases h' with h' | h'
            · exact absurd h' (by simp [Scope.enter, Setting.apply, Scope.setting])
            · simp only [infoOf, Bool.and_eq_true, decide_eq_true_eq] at h'
              omega)
        (by rw [ht]; intro _; rw [hl]; exact ⟨h, by omega⟩)
      rw [ht] at this
      exact (bind_ok this).trans rfl
    obtain ⟨d0, hd0⟩ : ∃ d0, c1.indexing.data = true → gather (Node.items (show Node (Obj K n) K from o) |>.map (dataAt dtf c1 n)) = some d0 ∧
        fixup (infoOf (n + 1) c1) (rawStats c1.indexing.onlyicrocr (n + 1) o)
          (dtArr dtf c1.indexing.onlyicrocr (n + 1)) (sumArr (n + 1)) (normOpt n (show Node (Obj K n) K from o).monitor c1.norm) d0 = some d := by
      by_cases h : c1.indexing.data = true
      · obtain ⟨d0, h1, h2⟩ := Option.bind_eq_some_iff.1 (show Option.bind _ _ = some d from hd h)
        exact ⟨d0, fun _ => ⟨h1, h2⟩⟩
      · exact ⟨d, fun h' => absurd h' h⟩
    subst hc1
    refine getitemWith_eq (n + 1) _ c d0 st ct d hi ?_ ?_ ?_ ?_
    · intro h
      exact sequence_eq ((gather_some.1 (hd0 h).1).imp fun x v hx => ld x v hx)
    · intro h
      exact sequence_eq ((gather_some.1 (hs h)).imp fun x v hx => ls x v hx)
    · intro h
      obtain ⟨h1, h2⟩ := hc h
      cases n with
      | zero =>
        show load _ _ = _
        have h3 : (show Node (Obj K 0) K from o).counters = some ct := h1
        rw [h3]
        rfl
      | succ n => exact sequence_eq ((gather_some.1 h1).imp fun x v hx => lc x v hx (by omega) h2)
    · intro h
      refine correct_stats.trans ?_
      obtain ⟨_, h2⟩ := hd0 h
      have h3 : fixup (infoOf (n + 1) (touch (n + 1) c)) (some st)
          (dtArr dtf (touch (n + 1) c).indexing.onlyicrocr (n + 1)) (sumArr (n + 1))
          (normOpt n (show Node (Obj K n) K from o).monitor (touch (n + 1) c).norm) d0 = some d := by
        by_cases hdt : (infoOf (n + 1) (touch (n + 1) c)).dt = true
        · rw [hs (Or.inr hdt)] at h2; exact h2
        · unfold fixup at h2 ⊢; rw [if_neg hdt] at h2 ⊢; exact h2
      exact correct_eq (fun _ _ => rfl) (fun d r hr => normArr_eq hr _) h3

end SC.XiaRead
