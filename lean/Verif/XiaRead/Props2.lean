import Verif.XiaRead.Props
/-! # Reading XIA data (C50): all histories -/

namespace SC.XiaRead
open XiaConfig

variable {K : Type} [Field K] (dtf : K → K → K)

theorem touch_params (n : Nat) (c : Config) : paramsOf (touch n c) = paramsOf c := by
  unfold touch setLevels
  split
  · split <;> rfl
  · rfl

theorem touch_indexing (n : Nat) (c : Config) : (touch n c).indexing = c.indexing := by
  unfold touch setLevels
  split
  · split <;> rfl
  · rfl

theorem touch_same (n : Nat) (c : Config) : SameSettings c (touch n c) := by
  unfold touch
  split
  · exact same_setLevels c
  · exact SameSettings.refl c

theorem touch_valid {n : Nat} {c : Config} (m : Nat) (h : Valid n c) : Valid n (touch m c) := by
  unfold touch setLevels
  split
  · split
    · exact h
    · refine ⟨h.1, ?_⟩
      dsimp only
      split
      · exact Or.inr (by rw [h.1])
      · exact Or.inl rfl
  · exact h

theorem valid_level {n : Nat} {c : Config} (h : Valid n c) : ∃ l, l ≤ n ∧ (l = 0 ∨ l = n) ∧ AtLevel l c := by
  rcases h.2 with h | h
  · exact ⟨0, by omega, Or.inl rfl, h⟩
  · exact ⟨n, le_refl n, Or.inr rfl, h⟩

theorem valid_freeze {n : Nat} {c : Config} {b : Bool} (h : Valid n c) : Valid n { c with freeze := b } := ⟨h.1, h.2⟩

/-- C50: `obj[...]` returns the requested parts: corrected data, statistics and counters, and leaves
the settings as they are. -/
theorem read_spec (n : Nat) (o : Obj K n) (c : Config) (hc : Valid n c) (hi : Request c.indexing)
    (d st ct : Arr K n) (hd : c.indexing.data = true → corrected dtf (paramsOf c) n o = some d)
    (hs : c.indexing.stats = true ∨ c.dtcor = true → rawStats c.indexing.onlyicrocr n o = some st)
    (hct : c.indexing.counters = true → rawCounters n o = some ct) :
    ∃ c', getitem dtf n o (c, ()) =
      (.ok { data := if c.indexing.data then some d else none
             stats := if c.indexing.stats then some st else none
             counters := if c.indexing.counters then some ct else none }, c', ()) ∧
      SameSettings c c' ∧ Valid n c' := by
  have hv := touch_valid n hc
  obtain ⟨l, hl, hl', hat⟩ := valid_level hv
  have ti := touch_indexing n c
  have tp := touch_params n c
  have ts := touch_same n c
  have := getitem_eq dtf n o c d st ct (by rw [ti]; exact hi)
    (by rw [ti]; intro h; exact dataAt_corrected dtf hat hl o d (by rw [tp]; exact hd h))
    (by
      rw [ti]
      intro h
      apply hs
      rcases h with h | h
      · exact Or.inl h
      · rw [info_dt hat, Bool.and_eq_true] at h
        exact Or.inr (by rw [← ts.6]; exact h.1))
    (by
      rw [ti]
      intro h
      refine ⟨hct h, ?_⟩
      unfold AtLevel at hat
      rw [hat]
      rcases hl' with rfl | rfl
      · exact Or.inl rfl
      · exact Or.inr (le_refl _))
  rw [ti] at this
  refine ⟨_, this, ?_, valid_freeze hv⟩
  exact ⟨ts.1, ts.2, ts.3, ts.4, ts.5, ts.6, ts.7, ts.8, ts.9⟩

theorem enter_valid {n : Nat} {c : Config} (k : Scope) (h : Valid n c) : Valid n (k.enter c) := by
  cases k <;> exact ⟨h.1, h.2⟩

theorem scope_same {k : Scope} {c c' : Config} (h : SameSettings (k.enter c) c') :
    SameSettings c { c' with indexing := c.indexing } := by
  cases k <;> exact ⟨rfl, h.2, h.3, h.4, h.5, h.6, h.7, h.8, h.9⟩

/-- C50: `obj.data` is the corrected data whatever parts are requested otherwise, and leaves the
settings as they are. -/
theorem readData_spec (n : Nat) (o : Obj K n) (c : Config) (hc : Valid n c) (d st : Arr K n)
    (hd : corrected dtf (paramsOf c) n o = some d)
    (hs : c.dtcor = true → rawStats c.indexing.onlyicrocr n o = some st) :
    ∃ c', readData dtf n o (c, ()) = (.ok ⟨some d, none, none⟩, c', ()) ∧ SameSettings c c' ∧ Valid n c' := by
  obtain ⟨c', h1, h2, h3⟩ := read_spec dtf n o (Scope.onlydata.enter c) (enter_valid _ hc) (Or.inl rfl) d st d
    (fun _ => hd) (by rintro (h | h); · exact absurd h (by simp [Scope.enter, Setting.apply, Scope.setting])
                      · exact hs h)
    (by intro h; exact absurd h (by simp [Scope.enter, Setting.apply, Scope.setting]))
  exact ⟨_, scope_value _ _ _ _ _ _ _ h1, scope_same h2, h3.1, h3.2⟩

/-- C50: `obj.stats` -/
theorem readStats_spec (n : Nat) (o : Obj K n) (c : Config) (hc : Valid n c) (st : Arr K n)
    (hs : rawStats c.indexing.onlyicrocr n o = some st) :
    ∃ c', readStats dtf n o (c, ()) = (.ok ⟨none, some st, none⟩, c', ()) ∧ SameSettings c c' ∧ Valid n c' := by
  obtain ⟨c', h1, h2, h3⟩ := read_spec dtf n o (Scope.onlystats.enter c) (enter_valid _ hc)
    (Or.inr (by simp [Scope.enter, Setting.apply, Scope.setting])) st st st
    (by intro h; exact absurd h (by simp [Scope.enter, Setting.apply, Scope.setting])) (fun _ => hs)
    (by intro h; exact absurd h (by simp [Scope.enter, Setting.apply, Scope.setting]))
  exact ⟨_, scope_value _ _ _ _ _ _ _ h1, scope_same h2, h3.1, h3.2⟩

/-- C50: `obj.allstats` -/
theorem readAllStats_spec (n : Nat) (o : Obj K n) (c : Config) (hc : Valid n c) (st : Arr K n)
    (hs : rawStats false n o = some st) :
    ∃ c', readAllStats dtf n o (c, ()) = (.ok ⟨none, some st, none⟩, c', ()) ∧ SameSettings c c' ∧ Valid n c' := by
  obtain ⟨c', h1, h2, h3⟩ := read_spec dtf n o (Scope.allstats.enter (Scope.onlystats.enter c))
    (enter_valid _ (enter_valid _ hc))
    (Or.inr (by simp [Scope.enter, Setting.apply, Scope.setting])) st st st
    (by intro h; exact absurd h (by simp [Scope.enter, Setting.apply, Scope.setting])) (fun _ => hs)
    (by intro h; exact absurd h (by simp [Scope.enter, Setting.apply, Scope.setting]))
  exact ⟨_, scope_value _ _ _ _ _ _ _ (scope_value _ _ _ _ _ _ _ h1), scope_same (scope_same h2), h3.1, h3.2⟩

/-- C50: `obj.counters`; with dead time correction the statistics may be read as well. -/
theorem readCounters_spec (n : Nat) (o : Obj K n) (c : Config) (hc : Valid n c) (st ct : Arr K n)
    (hct : rawCounters n o = some ct) (hs : c.dtcor = true → rawStats c.indexing.onlyicrocr n o = some st) :
    ∃ c', readCounters dtf n o (c, ()) = (.ok ⟨none, none, some ct⟩, c', ()) ∧ SameSettings c c' ∧ Valid n c' := by
  obtain ⟨c', h1, h2, h3⟩ := read_spec dtf n o (Scope.onlycounters.enter c) (enter_valid _ hc)
    (Or.inr (by simp [Scope.enter, Setting.apply, Scope.setting])) ct st ct
    (by intro h; exact absurd h (by simp [Scope.enter, Setting.apply, Scope.setting]))
    (by rintro (h | h); · exact absurd h (by simp [Scope.enter, Setting.apply, Scope.setting])
        · exact hs h) (fun _ => hct)
  exact ⟨_, scope_value _ _ _ _ _ _ _ h1, scope_same h2, h3.1, h3.2⟩

/-! ## Histories -/

/-- The calculation keeps a property of the settings, also when it raises. -/
def Keeps {W α : Type} (P : Config → Prop) (m : M W α) : Prop := ∀ s, P s.1 → P (m s).2.1

theorem keeps_pure {W α : Type} {P : Config → Prop} (a : α) : Keeps P (M.pure a : M W α) := fun _ h => h
theorem keeps_raise {W α : Type} {P : Config → Prop} : Keeps P (M.raise : M W α) := fun _ h => h

theorem keeps_bind {W α β : Type} {P : Config → Prop} {m : M W α} {f : α → M W β} (h : Keeps P m)
    (hf : ∀ a, Keeps P (f a)) : Keeps P (M.bind m f) := by
  intro s hs
  have h1 := h s hs
  unfold M.bind
  generalize m s = x at h1
  obtain ⟨r, s1⟩ := x
  cases r with
  | ok a => exact hf a s1 h1
  | raised => exact h1

theorem keeps_scope {W α : Type} {n : Nat} {k : Scope} {m : M W α} (h : Keeps (Valid n) m) :
    Keeps (Valid n) (scope k m) := by
  intro s hs
  have h1 := h (k.enter s.1, s.2) (enter_valid k hs)
  unfold scope
  generalize m (k.enter s.1, s.2) = x at h1
  obtain ⟨r, s1⟩ := x
  cases r with
  | ok a => exact ⟨h1.1, h1.2⟩
  | raised => exact h1

theorem keeps_load {A : Type} {P : Config → Prop} (x : Option A) : Keeps P (load x) := by
  cases x <;> exact fun _ h => h

theorem keeps_optional {A : Type} {P : Config → Prop} {b : Bool} {m : Calc A} (h : Keeps P m) : Keeps P (optional b m) := by
  unfold optional
  split
  · exact keeps_bind h fun _ => keeps_pure _
  · exact keeps_pure _

theorem keeps_sequence {A : Type} {P : Config → Prop} {l : List (Calc A)} (h : ∀ m ∈ l, Keeps P m) :
    Keeps P (sequence l) := by
  induction l with
  | nil => exact keeps_pure _
  | cons m l ih =>
    exact keeps_bind (h m (by simp)) fun _ => keeps_bind (ih fun m hm => h m (by simp [hm])) fun _ => keeps_pure _

theorem keeps_correct {A : Type} {P : Config → Prop} {rd : Reader A} (h1 : ∀ d st, Keeps P (rd.dt d st))
    (h2 : ∀ d, Keeps P (rd.norm d)) (i : Info) (d st : Option A) : Keeps P (correct rd i d st) := by
  unfold correct
  split
  · split
    · exact keeps_raise
    · refine keeps_bind ?_ fun d => keeps_bind (keeps_pure _) fun d => keeps_bind ?_ fun d => keeps_pure _
      · split
        · split
          · exact h1 _ _
          · exact keeps_raise
        · exact keeps_pure _
      · split
        · exact h2 _
        · exact keeps_pure _
  · exact keeps_pure _

theorem keeps_getitemWith {A : Type} {n level : Nat} {rd : Reader A} (h1 : Keeps (Valid n) rd.data)
    (h2 : Keeps (Valid n) rd.stats) (h3 : Keeps (Valid n) rd.counters) (h4 : ∀ d st, Keeps (Valid n) (rd.dt d st))
    (h5 : ∀ d, Keeps (Valid n) (rd.norm d)) : Keeps (Valid n) (getitemWith level rd) := by
  intro s hs
  unfold getitemWith
  dsimp only
  have hc := touch_valid level hs
  revert hc
  generalize touch level s.1 = c
  intro hc
  refine (keeps_bind (keeps_optional (keeps_scope h1)) fun d => ?_) (c, s.2) hc
  split
  · exact keeps_pure _
  · refine keeps_bind (keeps_optional (keeps_scope h2)) fun st => ?_
    split
    · exact keeps_pure _
    · refine keeps_bind (keeps_optional (keeps_scope h3)) fun ct => ?_
      split
      · exact keeps_pure _
      · refine keeps_bind (keeps_correct h4 h5 _ _ _) fun d => ?_
        split
        · exact keeps_raise
        · exact keeps_pure _

theorem keeps_normArr {P : Config → Prop} (m : Nat) (f : Str → Option (List (List K))) (ctr : Option Str)
    (d : Arr K (m + 1)) : Keeps P (normArr m f ctr d) := by
  unfold normArr
  split
  · split
    · exact keeps_raise
    · exact keeps_pure _
  · exact keeps_raise

/-- Reading, successful or not, keeps the settings valid. -/
theorem keeps_getitem (n m : Nat) (o : Obj K m) : Keeps (Valid n) (getitem dtf m o) := by
  induction m with
  | zero =>
    exact keeps_getitemWith (keeps_load _) (fun s h => keeps_load _ s h) keeps_raise
      (fun d st s h => keeps_pure _ s h) (fun _ => keeps_raise)
  | succ m ih =>
    have hitems : ∀ x ∈ (Node.items (show Node (Obj K m) K from o)).map (fun x => M.bind (getitem dtf m x) single),
        Keeps (Valid n) x := by
      intro x hx
      obtain ⟨y, _, rfl⟩ := List.mem_map.1 hx
      refine keeps_bind (ih y) fun o => ?_
      unfold single
      split <;> first | exact keeps_pure _ | exact keeps_raise
    refine keeps_getitemWith (keeps_sequence hitems) (keeps_sequence hitems) ?_ (fun d st s h => keeps_pure _ s h) ?_
    · cases m with
      | zero => exact keeps_load _
      | succ m => exact keeps_sequence hitems
    · intro d s h
      refine (keeps_normArr m _ _ _) s h

/-- What a user does with an object of level `n`: change a setting, or read it or one of its
items (of any lower level), whether it works or not. -/
inductive Action (K : Type) where
  | set (x : Setting)
  | item (m : Nat) (o : Obj K m)
  | data (m : Nat) (o : Obj K m)
  | stats (m : Nat) (o : Obj K m)
  | allstats (m : Nat) (o : Obj K m)
  | counters (m : Nat) (o : Obj K m)

/-- The settings offered to the user (the others are internal). -/
def Setting.Public : Setting → Prop
  | .maxlevel _ => False
  | .freeze _ => False
  | .setleveldatainfo => False
  | _ => True

def Action.Allowed : Action K → Prop
  | .set x => Setting.Public x
  | _ => True

/-- The settings after an action. -/
def Action.run (a : Action K) (c : Config) : Config :=
  match a with
  | .set x => x.apply c
  | .item m o => (getitem dtf m o (c, ())).2.1
  | .data m o => (readData dtf m o (c, ())).2.1
  | .stats m o => (readStats dtf m o (c, ())).2.1
  | .allstats m o => (readAllStats dtf m o (c, ())).2.1
  | .counters m o => (readCounters dtf m o (c, ())).2.1

/-- The settings of a new object of level `n`. -/
def start (n : Nat) : Config := (Setting.maxlevel n).apply initial

theorem start_valid (n : Nat) : Valid n (start n) := ⟨Nat.zero_max n, Or.inl rfl⟩

/-- C50: whatever was set and read before, also with failures, the settings are valid, so that
`read_spec` and the other theorems apply: what is read depends on the settings of the user only. -/
theorem history_valid (n : Nat) (l : List (Action K)) (hl : ∀ a ∈ l, a.Allowed) :
    Valid n (l.foldl (fun c a => a.run dtf c) (start n)) := by
  have : ∀ c, Valid n c → Valid n (l.foldl (fun c a => a.run dtf c) c) := by
    induction l with
    | nil => exact fun c h => h
    | cons a l ih =>
      intro c hc
      refine ih (fun a ha => hl a (by simp [ha])) _ ?_
      have ha := hl a (by simp)
      cases a with
      | set x => cases x <;> first | exact ⟨hc.1, hc.2⟩ | exact absurd ha (by simp [Action.Allowed, Setting.Public])
      | item m o => exact keeps_getitem dtf n m o _ hc
      | data m o => exact keeps_scope (keeps_getitem dtf n m o) _ hc
      | stats m o => exact keeps_scope (keeps_getitem dtf n m o) _ hc
      | allstats m o => exact keeps_scope (keeps_scope (keeps_getitem dtf n m o)) _ hc
      | counters m o => exact keeps_scope (keeps_getitem dtf n m o) _ hc
  exact this _ (start_valid n)

/-- C50: an item (of level `m`) of an object of level `n` is corrected when the corrections are done
on level 0 ... -/
theorem item_corrected (n m : Nat) (o : Obj K m) (c : Config) (hc : c.maxlevel = n) (hm : m < n)
    (hl : c.levels = ⟨0, 0, 1, 1⟩) (hi : c.indexing.data = true) (hi2 : c.indexing.stats = false)
    (hi3 : c.indexing.counters = false) (d st : Arr K m) (hd : corrected dtf (paramsOf c) m o = some d)
    (hs : c.dtcor = true → rawStats c.indexing.onlyicrocr m o = some st) :
    (getitem dtf m o (c, ())).1 = .ok ⟨some d, none, none⟩ := by
  have ht : touch m c = c := by simp [touch, hc, Nat.ne_of_lt hm]
  have := getitem_eq dtf m o c d st d (by rw [ht]; exact Or.inl hi)
    (by rw [ht]; intro _; exact dataAt_corrected dtf (l := 0) hl (by omega) o d hd)
    (by
      rw [ht, hi2]
      rintro (h | h)
      · exact absurd h (by simp)
      · rw [info_dt (l := 0) hl, Bool.and_eq_true] at h
        exact hs h.1)
    (by rw [ht, hi3]; intro h; exact absurd h (by simp))
  rw [this, ht]
  simp [hi, hi2, hi3]

/-- ... and only normalized when they are done on the highest level (deviation). -/
theorem item_uncorrected (n m : Nat) (o : Obj K m) (c : Config) (hc : c.maxlevel = n) (hm : m < n)
    (hl : c.levels = ⟨n, n, 1, 1⟩) (hi : c.indexing.data = true) (hi2 : c.indexing.stats = false)
    (hi3 : c.indexing.counters = false) (d : Arr K m)
    (hd : corrected dtf ⟨false, false, c.norm, c.indexing.onlyicrocr⟩ m o = some d) :
    (getitem dtf m o (c, ())).1 = .ok ⟨some d, none, none⟩ := by
  have ht : touch m c = c := by simp [touch, hc, Nat.ne_of_lt hm]
  obtain ⟨u, h1, h2⟩ := dataAt_before (c := { c with dtcor := false, add := false }) dtf (l := n) hl hm o d hd
  have h3 : dataAt dtf c m o = some d := by
    have : d = u := by
      simp only [Post, paramsOf, Bool.false_eq_true, if_false, summed] at h2
      exact h2
    rw [this, ← h1]
    have key : ∀ k, k < n → ∀ o : Obj K k, dataAt dtf c k o = dataAt dtf { c with dtcor := false, add := false } k o := by
      intro k
      have hinfo : k < n → infoOf k c = infoOf k { c with dtcor := false, add := false } := by
        intro h
        simp [infoOf, hl, Nat.ne_of_lt h]
      induction k with
      | zero => intro h o; simp only [dataAt, hinfo h]
      | succ k ih =>
        intro h o
        have e : dataAt dtf c k = dataAt dtf { c with dtcor := false, add := false } k :=
          funext fun o => ih (fun h => by simp [infoOf, hl, Nat.ne_of_lt h]) (by omega) o
        simp only [dataAt, hinfo h, e]
    exact key m hm o
  have := getitem_eq dtf m o c d d d (by rw [ht]; exact Or.inl hi) (by rw [ht]; intro _; exact h3)
    (by
      rw [ht, hi2]
      rintro (h | h)
      · exact absurd h (by simp)
      · rw [info_dt (l := n) hl, Bool.and_eq_true, decide_eq_true_eq] at h
        omega)
    (by rw [ht, hi3]; intro h; exact absurd h (by simp))
  rw [this, ht]
  simp [hi, hi2, hi3]

end SC.XiaRead
