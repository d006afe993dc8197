import Verif.Signals.Lemmas
/-! # Termination handling: calm schedules -/
namespace SC.Signals

/-- Progress of the one cleanup. -/
inductive Crit where
  | none
  | cl (x : Cause)
  | ts (x : Cause)
  | td
  | rs
  | ri (items : List (Sig × Handler))

def Crit.stack : Crit → List Instr
  | .none => []
  | .cl x => [.cleanup x]
  | .ts x => [.teardownStart x]
  | .td => [.user .teardown, .restoreStart]
  | .rs => [.restoreStart]
  | .ri items => [.restoring items]

/-- The teardown function was called. -/
def Crit.past : Crit → Nat
  | .td => 1
  | .rs => 1
  | .ri _ => 1
  | _ => 0

def Base.early : Base → Bool
  | .start => true
  | .replacing _ _ => true
  | _ => false

def noUnknown (l : List (Sig × Handler)) : Prop := ∀ p ∈ l, p.2 ≠ .unknown

structure CI (c : Cfg) (st : St) (cr : Crit) (R : List Instr) (b : Base) : Prop where
  stack : st.stack = cr.stack ++ R ++ b.stack c
  r_h : R = [] ∨ ∃ s, R = [.resend s]
  early_h : b.early = true → cr = .none ∧ R = []
  start_h : b = .start → st.need = false ∧ teardowns st.log = 0
  need_early : (∃ t a, b = .replacing t a) → st.need = true
  replacing_h : ∀ t a, b = .replacing t a → noUnknown a ∧ ∀ s ∈ t, st.handlers s ≠ .unknown
  saved_h : b.early = false → ∃ L, st.saved = some L ∧ noUnknown L
  ri_h : ∀ items, cr = .ri items → noUnknown items
  need_td : st.need = true → teardowns st.log = cr.past
  need_crit : st.need = true → R ≠ [] ∨ b = .ended → cr ≠ .none
  done : st.need = false → b ≠ .start → teardowns st.log = 1 ∧ (cr = .none ∨ ∃ x, cr = .cl x)

theorem busy_of_crit {cr : Crit} (h : ∀ i ∈ cr.stack, busy i = false) : cr = .none := by
  cases cr with
  | none => rfl
  | _ => simp [Crit.stack, busy] at h

theorem crit_isH (cr : Crit) : ∀ i ∈ cr.stack, isH i = true := by
  cases cr <;> simp [Crit.stack, isH, busy]

theorem resend_isH {R : List Instr} (h : R = [] ∨ ∃ s, R = [.resend s]) : ∀ i ∈ R, isH i = true := by
  rcases h with rfl | ⟨s, rfl⟩ <;> simp [isH]

/-- An exception when no cleanup is in progress. -/
theorem ci_throw {c : Cfg} {st st' : St} {R : List Instr} {b : Base} (h : CI c st .none R b)
    (hb : b.early = false) (hbody : b.inBody = true ∨ st.need = false)
    (hh : st'.need = st.need) (hs : st'.saved = st.saved)
    (hl : teardowns st'.log = teardowns st.log) :
    ∃ cr' R' b', CI c (throw st' (b.stack c)) cr' R' b' := by
  rw [throw_base]
  have hne : b ≠ .start := by rintro rfl; simp [Base.early] at hb
  by_cases hin : b.inBody = true
  · rw [if_pos hin]
    refine ⟨.cl .exc, [], .ended, ?_⟩
    constructor
    · rfl
    · simp
    · simp [Base.early]
    · simp
    · simp
    · simp
    · intro _; simpa [hs] using h.saved_h hb
    · simp
    · intro e; simpa [hl, Crit.past] using h.need_td (hh ▸ e)
    · simp
    · intro e _; exact ⟨hl ▸ (h.done (hh ▸ e) hne).1, by simp⟩
  · rw [if_neg hin]
    have hn : st.need = false := by simpa [hin] using hbody
    refine ⟨.none, [], .ended, ?_⟩
    constructor
    · rfl
    · simp
    · simp [Base.early]
    · simp
    · simp
    · simp
    · intro _; simpa [hs] using h.saved_h hb
    · simp
    · intro e; simp [hh, hn] at e
    · intro e; simp [hh, hn] at e
    · intro e _; exact ⟨hl ▸ (h.done hn hne).1, by simp⟩

/-- The next instruction of the cleanup. -/
theorem ci_exec_crit {c : Cfg} {st : St} {cr : Crit} {R : List Instr} {b : Base} {i : Instr}
    {k : List Instr} (h : CI c st cr R b) (hc : cr.stack = i :: k) :
    ∃ cr', CI c (exec c st i (k ++ R ++ b.stack c)) cr' R b := by
  have hb : b.early = false := by
    cases hbe : b.early with
    | false => rfl
    | true => have := (h.early_h hbe).1; subst this; simp [Crit.stack] at hc
  have hne : b ≠ .start := by rintro rfl; simp [Base.early] at hb
  have hnr : ∀ t a, b ≠ .replacing t a := by rintro t a rfl; simp [Base.early] at hb
  have mk : ∀ (st' : St) (cr' : Crit), st'.stack = cr'.stack ++ R ++ b.stack c →
      st'.saved = st.saved → (∀ items, cr' = .ri items → noUnknown items) →
      (st'.need = true → teardowns st'.log = cr'.past) → (st'.need = true → cr' ≠ .none) →
      (st'.need = false → teardowns st'.log = 1 ∧ (cr' = .none ∨ ∃ x, cr' = .cl x)) →
      CI c st' cr' R b := by
    intro st' cr' h1 h2 h3 h4 h5 h6
    constructor
    · exact h1
    · exact h.r_h
    · intro e; rw [hb] at e; cases e
    · intro e; exact absurd e hne
    · rintro ⟨t, a, e⟩; exact absurd e (hnr t a)
    · intro t a e; exact absurd e (hnr t a)
    · intro _; rw [h2]; exact h.saved_h hb
    · exact h3
    · exact h4
    · intro e _; exact h5 e
    · intro e _; exact h6 e
  have hneed : (∀ x, cr ≠ .cl x) → cr ≠ .none → st.need = true := by
    intro h1 h2
    by_contra hn
    have := (h.done (by simpa using hn) hne).2
    rcases this with e | ⟨x, e⟩
    · exact h2 e
    · exact h1 x e
  obtain ⟨L, hL, hLu⟩ := h.saved_h hb
  cases cr with
  | none => simp [Crit.stack] at hc
  | cl x =>
    simp only [Crit.stack, List.cons.injEq] at hc
    obtain ⟨rfl, rfl⟩ := hc
    simp only [exec]
    by_cases hn : st.need = true
    · rw [if_pos hn]
      refine ⟨.ts x, mk _ _ (by simp [Crit.stack]) rfl (by simp) ?_ (by simp) ?_⟩
      · intro e; exact h.need_td e
      · intro e; simp [hn] at e
    · rw [if_neg hn]
      refine ⟨.none, mk _ _ (by simp [Crit.stack]) rfl (by simp) ?_ ?_ ?_⟩
      · intro e; exact absurd e hn
      · intro e; exact absurd e hn
      · intro e; exact ⟨(h.done e hne).1, by simp⟩
  | ts x =>
    simp only [Crit.stack, List.cons.injEq] at hc
    obtain ⟨rfl, rfl⟩ := hc
    have hn := hneed (by simp) (by simp)
    simp only [exec]
    refine ⟨.td, mk _ _ (by simp [Crit.stack]) rfl (by simp) ?_ (by simp) ?_⟩
    · intro e; simp [teardowns_append, h.need_td hn, Crit.past]
    · intro e; simp [hn] at e
  | td =>
    simp only [Crit.stack, List.cons.injEq] at hc
    obtain ⟨rfl, rfl⟩ := hc
    have hn := hneed (by simp) (by simp)
    simp only [exec]
    refine ⟨.rs, mk _ _ (by simp [Crit.stack]) rfl (by simp) ?_ (by simp) ?_⟩
    · intro e; exact h.need_td e
    · intro e; simp [hn] at e
  | rs =>
    simp only [Crit.stack, List.cons.injEq] at hc
    obtain ⟨rfl, rfl⟩ := hc
    have hn := hneed (by simp) (by simp)
    have e : exec c st .restoreStart ([] ++ R ++ b.stack c)
        = { st with stack := .restoring L :: ([] ++ R ++ b.stack c) } := by
      simp [exec, hL]
    rw [e]
    refine ⟨.ri L, mk _ _ (by simp [Crit.stack]) rfl (by rintro _ ⟨⟩; exact hLu) ?_ (by simp) ?_⟩
    · intro e; exact h.need_td e
    · intro e; simp [hn] at e
  | ri items =>
    simp only [Crit.stack, List.cons.injEq] at hc
    obtain ⟨rfl, rfl⟩ := hc
    have hn := hneed (by simp) (by simp)
    have hu := h.ri_h items rfl
    cases items with
    | nil =>
      simp only [exec]
      refine ⟨.none, mk _ _ (by simp [Crit.stack]) rfl (by simp) ?_ ?_ ?_⟩
      · intro e; simp at e
      · intro e; simp at e
      · intro _; exact ⟨h.need_td hn, by simp⟩
    | cons p items =>
      obtain ⟨s, v⟩ := p
      have hv : v ≠ .unknown := hu (s, v) (by simp)
      simp only [exec, hv, if_false]
      refine ⟨.ri items, mk _ _ (by simp [Crit.stack]) rfl ?_ ?_ (by simp) ?_⟩
      · rintro _ ⟨⟩; exact fun p hp => hu p (by simp [hp])
      · intro e; exact h.need_td e
      · intro e; simp [hn] at e

/-- The next instruction of the with statement. -/
theorem ci_exec_base {c : Cfg} (hk : Known c) {st : St} {b : Base} {i : Instr}
    {k : List Instr} (hold : st.need = false → ∀ s, st.handlers s = c.old s)
    (h : CI c st .none [] b) (hb : b.stack c = i :: k) :
    ∃ cr' R' b', CI c (exec c st i k) cr' R' b' := by
  have simple : ∀ (st' : St) (b' : Base), st'.saved = st.saved →
      teardowns st'.log = teardowns st.log → st'.need = st.need →
      st'.stack = b'.stack c → b.early = false → b'.early = false → b' ≠ .ended →
      ∃ cr' R' b', CI c st' cr' R' b' := by
    intro st' b' h2 h3 h5 h6 n1 m1 m3
    have hne : b ≠ .start := by rintro rfl; simp [Base.early] at n1
    refine ⟨.none, [], b', ?_⟩
    constructor
    · simpa [Crit.stack] using h6
    · simp
    · intro e; rw [m1] at e; cases e
    · rintro rfl; simp [Base.early] at m1
    · rintro ⟨t, a, rfl⟩; simp [Base.early] at m1
    · rintro t a rfl; simp [Base.early] at m1
    · intro _; rw [h2]; exact h.saved_h n1
    · simp
    · intro e; rw [h3]; exact h.need_td (h5 ▸ e)
    · intro _ e; rcases e with e | e
      · exact absurd rfl e
      · exact absurd e m3
    · intro e _; rw [h3]; exact h.done (h5 ▸ e) hne
  cases b with
  | ended => simp [Base.stack] at hb
  | start =>
    simp only [Base.stack, initStack, List.cons.injEq] at hb
    obtain ⟨rfl, rfl⟩ := hb
    obtain ⟨hn, ht⟩ := h.start_h rfl
    have hall := hold hn
    refine ⟨.none, [], .replacing c.sigs [], ?_⟩
    simp only [exec]
    constructor
    · rfl
    · simp
    · simp
    · simp
    · simp
    · intro t a e
      cases e
      exact ⟨by simp [noUnknown], fun s hs => by simpa [hall s] using hk s hs⟩
    · simp [Base.early]
    · simp
    · intro _; exact ht
    · simp
    · simp
  | replacing todo acc =>
    simp only [Base.stack, List.cons.injEq] at hb
    obtain ⟨rfl, rfl⟩ := hb
    have hn := h.need_early ⟨_, _, rfl⟩
    obtain ⟨h1, h2⟩ := h.replacing_h todo acc rfl
    cases todo with
    | nil =>
      refine ⟨.none, [], .setup0, ?_⟩
      simp only [exec]
      constructor
      · rfl
      · simp
      · simp
      · simp
      · simp
      · simp
      · intro _; exact ⟨acc, rfl, h1⟩
      · simp
      · intro e; exact h.need_td e
      · simp
      · intro e; simp [hn] at e
    | cons s todo =>
      simp only [exec]
      split
      · refine ⟨.none, [], .replacing todo acc, ?_⟩
        constructor
        · rfl
        · simp
        · simp
        · simp
        · intro _; exact hn
        · intro t a e
          cases e
          exact ⟨h1, fun t ht => h2 t (by simp [ht])⟩
        · simp [Base.early]
        · simp
        · intro e; exact h.need_td e
        · simp
        · intro e; simp [hn] at e
      · refine ⟨.none, [], .replacing todo (acc ++ [(s, st.handlers s)]), ?_⟩
        constructor
        · rfl
        · simp
        · simp
        · simp
        · intro _; exact hn
        · intro t a e
          cases e
          refine ⟨?_, fun t ht => ?_⟩
          · intro p hp
            rcases List.mem_append.1 hp with hp | hp
            · exact h1 p hp
            · simp only [List.mem_singleton] at hp
              subst hp; exact h2 s (by simp)
          · simp only [setHandler]
            split
            · simp
            · exact h2 t (by simp [ht])
        · simp [Base.early]
        · simp
        · intro e; exact h.need_td e
        · simp
        · intro e; simp [hn] at e
  | setup0 =>
    simp only [Base.stack, List.cons.injEq] at hb
    obtain ⟨rfl, rfl⟩ := hb
    exact simple _ .setup1 rfl (by simp [exec, teardowns_append]) rfl rfl rfl rfl (by simp)
  | setup1 =>
    simp only [Base.stack, List.cons.injEq] at hb
    obtain ⟨rfl, rfl⟩ := hb
    exact simple _ .body0 rfl rfl rfl rfl rfl rfl (by simp)
  | body0 =>
    simp only [Base.stack, List.cons.injEq] at hb
    obtain ⟨rfl, rfl⟩ := hb
    exact simple _ .body1 rfl (by simp [exec, teardowns_append]) rfl rfl rfl rfl (by simp)
  | body1 =>
    simp only [Base.stack, List.cons.injEq] at hb
    obtain ⟨rfl, rfl⟩ := hb
    exact simple _ .exiting rfl rfl rfl rfl rfl rfl (by simp)
  | exiting =>
    simp only [Base.stack, List.cons.injEq] at hb
    obtain ⟨rfl, rfl⟩ := hb
    refine ⟨.cl .normal, [], .ended, ?_⟩
    simp only [exec]
    constructor
    · rfl
    · simp
    · simp [Base.early]
    · simp
    · simp
    · simp
    · intro _; exact h.saved_h rfl
    · simp
    · intro e; exact h.need_td e
    · simp
    · intro e _; exact ⟨(h.done e (by simp)).1, by simp⟩

theorem ci_init (c : Cfg) : CI c (init c) .none [] .start := by
  constructor
  · rfl
  · simp
  · simp
  · intro _; exact ⟨rfl, rfl⟩
  · simp
  · simp
  · simp [Base.early]
  · simp
  · intro e; cases e
  · simp
  · simp

/-- Only more log without teardowns. -/
theorem ci_log {c : Cfg} {st : St} {cr : Crit} {R : List Instr} {b : Base} (h : CI c st cr R b)
    (l : List Ev) (hl : teardowns l = 0) : CI c { st with log := st.log ++ l } cr R b := by
  constructor
  · exact h.stack
  · exact h.r_h
  · exact h.early_h
  · intro e; simpa [teardowns_append, hl] using h.start_h e
  · exact h.need_early
  · exact h.replacing_h
  · exact h.saved_h
  · exact h.ri_h
  · intro e; simpa [teardowns_append, hl] using h.need_td e
  · exact h.need_crit
  · intro e1 e2; simpa [teardowns_append, hl] using h.done e1 e2

/-- The resend instruction is over. -/
theorem ci_resend {c : Cfg} {st : St} {s : Sig} {b : Base} (h : CI c st .none [.resend s] b) :
    st.need = false ∧ b.early = false ∧
      CI c { st with stack := b.stack c } .none [] b := by
  have hn : st.need = false := by
    by_contra e
    exact h.need_crit (by simpa using e) (.inl (by simp)) rfl
  have hb : b.early = false := by
    cases hbe : b.early with
    | false => rfl
    | true => have := (h.early_h hbe).2; simp at this
  refine ⟨hn, hb, ?_⟩
  constructor
  · rfl
  · simp
  · simp
  · exact h.start_h
  · exact h.need_early
  · exact h.replacing_h
  · exact h.saved_h
  · simp
  · exact h.need_td
  · intro e; simp [hn] at e
  · exact h.done

theorem early_or {c : Cfg} {b : Base} (h1 : ∀ i ∈ b.stack c, replacing i = false) (h2 : b ≠ .start) :
    b.early = false := by
  cases b with
  | start => exact absurd rfl h2
  | replacing t a => simp [Base.stack, SC.Signals.replacing] at h1
  | _ => rfl

theorem exitBlock_base {c : Cfg} {b : Base} (h : Instr.exitBlock ∈ b.stack c) : b.inBody = true := by
  cases b <;> simp_all [Base.stack, initStack, Base.inBody]

theorem not_early_of_inBody {b : Base} (h : b.inBody = true) : b.early = false := by
  cases b <;> simp_all [Base.early, Base.inBody]

theorem ci_step {c : Cfg} (hg : Good c) (hk : Known c) {st st' : St} {l : Label} {cr : Crit}
    {R : List Instr} {b : Base} (hold : st.need = false → ∀ s, st.handlers s = c.old s)
    (h : CI c st cr R b) (hc : calm st l) (hs : step c st l = some st') :
    ∃ cr' R' b', CI c st' cr' R' b' := by
  cases l with
  | tick =>
    simp only [step, h.stack] at hs
    cases hcr : cr.stack with
    | cons i k =>
      rw [hcr] at hs
      simp only [List.cons_append, Option.some.injEq] at hs
      obtain ⟨cr', h'⟩ := ci_exec_crit h hcr
      exact ⟨cr', R, b, hs ▸ h'⟩
    | nil =>
      have hcr' : cr = .none := by cases cr <;> simp [Crit.stack] at hcr; rfl
      subst hcr'
      simp only [Crit.stack, List.nil_append] at hs
      rcases h.r_h with rfl | ⟨s, rfl⟩
      · simp only [List.nil_append] at hs
        cases hb : b.stack c with
        | nil => rw [hb] at hs; cases hs
        | cons i k =>
          rw [hb] at hs
          simp only [Option.some.injEq] at hs
          exact hs ▸ ci_exec_base hk hold h hb
      · simp only [List.cons_append, List.nil_append, Option.some.injEq] at hs
        obtain ⟨-, -, h'⟩ := ci_resend h
        subst hs
        simp only [exec]
        split
        · rename_i v hv
          exact ⟨.none, [], b, ci_log h' [.deliver s v] rfl⟩
        · exact ⟨.none, [], b, h'⟩
  | raise =>
    simp only [calm] at hc
    simp only [step] at hs
    have hstack := h.stack
    cases hcr : cr.stack with
    | cons i k =>
      exfalso
      rw [hcr] at hstack
      rw [hstack] at hs hc
      simp only [List.cons_append, List.head?_cons] at hs hc
      cases cr with
      | none => simp [Crit.stack] at hcr
      | cl x => simp only [Crit.stack, List.cons.injEq] at hcr; obtain ⟨rfl, rfl⟩ := hcr; simp at hs
      | ts x => simp only [Crit.stack, List.cons.injEq] at hcr; obtain ⟨rfl, rfl⟩ := hcr; simp at hs
      | td => simp only [Crit.stack, List.cons.injEq] at hcr; obtain ⟨rfl, rfl⟩ := hcr; simp at hc
      | rs => simp only [Crit.stack, List.cons.injEq] at hcr; obtain ⟨rfl, rfl⟩ := hcr; simp at hs
      | ri x => simp only [Crit.stack, List.cons.injEq] at hcr; obtain ⟨rfl, rfl⟩ := hcr; simp at hs
    | nil =>
      have hcr' : cr = .none := by cases cr <;> simp [Crit.stack] at hcr; rfl
      subst hcr'
      simp only [Crit.stack, List.nil_append] at hstack
      rcases h.r_h with rfl | ⟨s, rfl⟩
      · simp only [List.nil_append] at hstack
        have hb1 : b = .body1 := by
          rw [hstack] at hs hc
          cases b <;> simp_all [Base.stack, initStack]
        subst hb1
        have e : throw st [.exitBlock] = st' := by
          rw [hstack] at hs
          simpa [Base.stack] using hs
        have := ci_throw (st' := st) h rfl (.inl rfl) rfl rfl rfl
        exact e ▸ this
      · obtain ⟨hn, hb, h'⟩ := ci_resend h
        rw [hstack] at hs
        simp only [List.cons_append, List.nil_append] at hs
        split at hs
        · rename_i v hv
          simp only [Option.some.injEq] at hs
          have := ci_throw (st' := ⟨st.handlers, st.need, st.saved, [.resend s] ++ b.stack c,
            st.log ++ [.deliver s v], st.aborted⟩) h' hb (.inr hn) rfl rfl
            (by simp [teardowns_append])
          exact hs ▸ this
        · cases hs
  | signal s raises =>
    simp only [step] at hs
    split at hs
    · rename_i hours
      obtain ⟨c1, c2⟩ := hc.1 hours
      rw [h.stack] at c1 c2
      have hcr : cr = .none := busy_of_crit fun i hi => c2 i (by simp [hi])
      subst hcr
      have hn : st.need = true := by
        by_contra e
        have := hold (by simpa using e) s
        rw [hours] at this
        exact hg.fresh s this.symm
      have hR : R = [] := by
        by_contra e
        exact h.need_crit hn (.inl e) rfl
      subst hR
      have hbe : b.early = false := early_or (c := c) (fun i hm => c1 i (by simp [hm])) (by
        rintro rfl
        have := (h.start_h rfl).1
        rw [hn] at this; cases this)
      simp only [Option.some.injEq] at hs
      subst hs
      refine ⟨.cl (.sig s), if c.resend then [.resend s] else [], b, ?_⟩
      constructor
      · simp [h.stack, Crit.stack]
      · split
        · exact .inr ⟨s, rfl⟩
        · exact .inl rfl
      · intro e; rw [hbe] at e; cases e
      · exact h.start_h
      · exact h.need_early
      · exact h.replacing_h
      · exact h.saved_h
      · simp
      · intro e; exact h.need_td e
      · simp
      · intro e; simp [hn] at e
    · rename_i hours
      split at hs
      · rename_i hr
        obtain ⟨c1, c2⟩ := hc.2 hours hr.1 hr.2
        rw [h.stack] at c1 c2
        have hcr : cr = .none := busy_of_crit fun i hi => c2 i (by simp [hi])
        subst hcr
        have hin : b.inBody = true := by
          refine exitBlock_base (c := c) ?_
          rcases h.r_h with rfl | ⟨t, rfl⟩ <;> simpa [Crit.stack] using c1
        simp only [Option.some.injEq] at hs
        rw [h.stack] at hs
        simp only [Crit.stack, List.nil_append] at hs
        rw [throw_pre _ R _ (resend_isH h.r_h)] at hs
        have := ci_throw (st' := ⟨st.handlers, st.need, st.saved, R ++ b.stack c,
            st.log ++ [.deliver s (st.handlers s)], st.aborted⟩) h (not_early_of_inBody hin)
            (.inl hin) rfl rfl (by simp [teardowns_append])
        exact hs ▸ this
      · simp only [Option.some.injEq] at hs
        exact ⟨cr, R, b, hs ▸ ci_log h _ rfl⟩

theorem ci_run {c : Cfg} (hg : Good c) (hk : Known c) {ls : List Label} {st st' : St} {pre : List Instr}
    {b0 : Base} (hi : Inv c st pre b0) {cr : Crit} {R : List Instr} {b : Base}
    (h : CI c st cr R b) (hc : Calm c ls st) (hr : run c ls st = some st') :
    ∃ cr' R' b', CI c st' cr' R' b' := by
  induction ls generalizing st pre b0 cr R b with
  | nil => simp only [run, Option.some.injEq] at hr; exact hr ▸ ⟨cr, R, b, h⟩
  | cons l ls ih =>
    simp only [run, Option.bind_eq_some_iff] at hr
    obtain ⟨st1, h1, h2⟩ := hr
    obtain ⟨p, b', h3⟩ := inv_step hg hi h1
    obtain ⟨cr', R', b'', h4⟩ := ci_step hg hk hi.needFalse h hc.1 h1
    exact ih h3 h4 (hc.2 _ h1) h2

end SC.Signals
