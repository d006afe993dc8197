import Verif.Cache.Model
/-! # C08: scoped caching (utils/cache.py 22-101) -/
namespace SC.Cache
section
variable {σ : Type} [DecidableEq σ]

/-- No handler anywhere in the program. -/
def Prog.noTry : Prog σ → Bool
  | .skip | .raise | .get _ => true
  | .seq p q => p.noTry && q.noTry
  | .ctx _ p => p.noTry
  | .tryExcept _ _ => false

theorem lookup_insert (l : List (σ × Nat)) (s x : σ) (v : Nat) (h : lookup l s = none) :
    lookup (storeInsert l s v) x = if s = x then some v else lookup l x := by
  induction l with
  | nil => simp [storeInsert, lookup]
  | cons p l ih =>
    obtain ⟨k, w⟩ := p
    simp only [lookup] at h
    split at h
    · simp at h
    · next hk =>
      simp only [storeInsert] at ih
      simp only [storeInsert, List.cons_append, lookup, ih h]
      by_cases hx : s = x
      · subst hx; simp [hk]
      · simp [hx]

theorem lookup_pop (l : List (σ × Nat)) (s x : σ) :
    lookup (storePop l s) x = if s = x then none else lookup l x := by
  induction l with
  | nil => simp [storePop, lookup]
  | cons p l ih =>
    obtain ⟨k, w⟩ := p
    simp only [storePop] at ih
    simp only [storePop, List.filter_cons, lookup]
    by_cases hk : k = s
    · subst hk
      simp only [decide_true, Bool.not_true, Bool.false_eq_true, if_false, ih]
      by_cases hx : k = x <;> simp [hx]
    · simp only [hk, decide_false, Bool.not_false, if_true, lookup, ih]
      by_cases hx : s = x
      · subst hx; simp [hk]
      · simp [hx]

theorem storePop_insert (l : List (σ × Nat)) (s : σ) (v : Nat) (h : lookup l s = none) :
    storePop (storeInsert l s v) s = l := by
  have : storePop l s = l := by
    induction l with
    | nil => rfl
    | cons p l ih =>
      obtain ⟨k, w⟩ := p
      simp only [lookup] at h
      split at h
      · simp at h
      · next hk => simp only [storePop] at ih; simp [storePop, hk, ih h]
  unfold storePop at this ⊢
  unfold storeInsert
  rw [List.filter_append, this]
  simp

/-- **C08 (held subjects are untouchable).** Once a subject is in the store, no program whatsoever
(nested scopes on the same subject, exceptions, handlers) changes or removes it. -/
theorem exec_keeps (c : Cfg σ) (p : Prog σ) : ∀ (st : St σ) (s : σ) (v : Nat),
    lookup st.store s = some v → lookup (exec c p st).st.store s = some v := by
  induction p with
  | skip => intro st s v h; simpa [exec] using h
  | raise => intro st s v h; simpa [exec] using h
  | seq p q ihp ihq =>
    intro st s v h
    have h1 := ihp st s v h
    simp only [exec]
    split
    · exact ihq _ s v h1
    · exact h1
  | tryExcept p q ihp ihq =>
    intro st s v h
    have h1 := ihp st s v h
    simp only [exec]
    split
    · exact h1
    · exact ihq _ s v h1
  | get x =>
    intro st s v h
    simp only [exec]
    split
    · exact h
    · split
      · exact h
      · split
        · exact h
        · next v' st' hg =>
          simp only [generate] at hg
          split at hg
          · simp at hg; rw [← hg.2]; exact h
          · simp at hg
  | ctx x p ih =>
    intro st s v h
    simp only [exec]
    split
    · exact ih st s v h
    · next hx =>
      split
      · exact h
      · next v' st' hg =>
        have hst : st'.store = st.store := by
          simp only [generate] at hg
          split at hg
          · simp at hg; rw [← hg.2]
          · simp at hg
        have hne : ¬ x = s := by rintro rfl; rw [h] at hx; simp at hx
        have h1 := ih { st' with store := storeInsert st'.store x v' } s v (by
          simp only [hst]; rw [lookup_insert _ _ _ _ hx]; simp [hne, h])
        split
        · simp only; rw [lookup_pop]; simp [hne, h1]
        · exact h1

/-- While a subject is held, its generator is never called again and every read of it returns the
held object. -/
theorem exec_reads (c : Cfg σ) (p : Prog σ) : ∀ (st : St σ) (s : σ) (v : Nat),
    lookup st.store s = some v →
    (∀ w, Ev.gen s w ∉ (exec c p st).tr) ∧ (∀ w, Ev.read s w ∈ (exec c p st).tr → w = v) := by
  induction p with
  | skip => intro st s v h; simp [exec]
  | raise => intro st s v h; simp [exec]
  | seq p q ihp ihq =>
    intro st s v h
    have h1 := ihp st s v h
    simp only [exec]
    split
    · have h2 := ihq _ s v (exec_keeps c p st s v h)
      constructor
      · intro w hw
        rcases List.mem_append.mp hw with hw | hw
        · exact h1.1 w hw
        · exact h2.1 w hw
      · intro w hw
        rcases List.mem_append.mp hw with hw | hw
        · exact h1.2 w hw
        · exact h2.2 w hw
    · exact h1
  | tryExcept p q ihp ihq =>
    intro st s v h
    have h1 := ihp st s v h
    simp only [exec]
    split
    · exact h1
    · have h2 := ihq _ s v (exec_keeps c p st s v h)
      constructor
      · intro w hw
        rcases List.mem_append.mp hw with hw | hw
        · exact h1.1 w hw
        · exact h2.1 w hw
      · intro w hw
        rcases List.mem_append.mp hw with hw | hw
        · exact h1.2 w hw
        · exact h2.2 w hw
  | get x =>
    intro st s v h
    simp only [exec]
    split
    · next v' hx =>
      constructor
      · intro w hw; simp at hw
      · intro w hw
        simp at hw
        obtain ⟨rfl, rfl⟩ := hw
        rw [h] at hx; simpa using hx.symm
    · next hx =>
      have hne : ¬ x = s := by rintro rfl; rw [h] at hx; simp at hx
      split
      · simp
      · split
        · simp
        · constructor
          · intro w hw; simp at hw; exact hne hw.1.symm
          · intro w hw; simp at hw; exact absurd hw.1.symm hne
  | ctx x p ih =>
    intro st s v h
    simp only [exec]
    split
    · exact ih st s v h
    · next hx =>
      split
      · simp
      · next v' st' hg =>
        have hst : st'.store = st.store := by
          simp only [generate] at hg
          split at hg
          · simp at hg; rw [← hg.2]
          · simp at hg
        have hne : ¬ x = s := by rintro rfl; rw [h] at hx; simp at hx
        have h1 := ih { st' with store := storeInsert st'.store x v' } s v (by
          simp only [hst]; rw [lookup_insert _ _ _ _ hx]; simp [hne, h])
        split
        · constructor
          · intro w hw
            rcases List.mem_cons.mp hw with hw | hw
            · simp at hw; exact hne hw.1.symm
            · exact h1.1 w hw
          · intro w hw
            rcases List.mem_cons.mp hw with hw | hw
            · simp at hw
            · exact h1.2 w hw
        · constructor
          · intro w hw
            rcases List.mem_cons.mp hw with hw | hw
            · simp at hw; exact hne hw.1.symm
            · exact h1.1 w hw
          · intro w hw
            rcases List.mem_cons.mp hw with hw | hw
            · simp at hw
            · exact h1.2 w hw

/-- **C08 (computed once).** An outermost scope on a subject with a generator calls that generator
exactly once, before the body, and every read of the subject inside – at any nesting depth, also
after caught exceptions – returns that one object. -/
theorem scope_computes_once (c : Cfg σ) (s : σ) (body : Prog σ) (st : St σ)
    (hout : lookup st.store s = none) (hgen : c.hasGen s = true) :
    ∃ t, (exec c (.ctx s body) st).tr = Ev.gen s st.next :: t ∧
      (∀ w, Ev.gen s w ∉ t) ∧ (∀ w, Ev.read s w ∈ t → w = st.next) := by
  have hg : generate c st s = some (st.next, { st with next := st.next + 1 }) := by
    simp [generate, hgen]
  have h1 := exec_reads c body
    { st with next := st.next + 1, store := storeInsert st.store s st.next } s st.next (by
      rw [lookup_insert _ _ _ _ hout]; simp)
  refine ⟨(exec c body { st with next := st.next + 1, store := storeInsert st.store s st.next }).tr, ?_, h1⟩
  simp only [exec, hout, hg]
  split <;> rfl

/-- **C08 (inner scopes share).** A scope on a held subject is transparent. -/
theorem inner_scope_transparent (c : Cfg σ) (s : σ) (body : Prog σ) (st : St σ) (v : Nat)
    (h : lookup st.store s = some v) : exec c (.ctx s body) st = exec c body st := by
  simp only [exec, h]

/-- **C08 (cleanup on normal exit, partial).** Full property: after an outermost scope the store
is what it was before, *however the body ends*.  Proved: a program without exception handlers that
ends normally leaves the store exactly as it found it.  Missing: the exceptional exits, for which
the property is false of the code (`leak_on_exception`). -/
theorem exec_restores_store_partial (c : Cfg σ) (p : Prog σ) : ∀ (st : St σ), p.noTry = true →
    (exec c p st).ok = true → (exec c p st).st.store = st.store := by
  induction p with
  | skip => intro st _ _; rfl
  | raise => intro st _ _; rfl
  | seq p q ihp ihq =>
    intro st hn hok
    simp only [Prog.noTry, Bool.and_eq_true] at hn
    simp only [exec] at hok ⊢
    split at hok
    · next h => rw [if_pos h]; simp only; rw [ihq _ hn.2 hok, ihp _ hn.1 h]
    · next h => exact absurd hok h
  | tryExcept p q _ _ => intro st hn; simp [Prog.noTry] at hn
  | get x =>
    intro st _ hok
    simp only [exec] at hok ⊢
    split
    · rfl
    · split
      · rfl
      · split
        · rfl
        · next v' st' hg =>
          simp only [generate] at hg
          split at hg
          · simp at hg; rw [← hg.2]
          · simp at hg
  | ctx x p ih =>
    intro st hn hok
    simp only [Prog.noTry] at hn
    simp only [exec] at hok ⊢
    split at hok
    · next h => exact ih st hn hok
    · next hx =>
      split at hok
      · simp at hok
      · next v' st' hg =>
        have hst : st'.store = st.store := by
          simp only [generate] at hg
          split at hg
          · simp at hg; rw [← hg.2]
          · simp at hg
        split at hok
        · next h =>
          rw [if_pos h]
          show storePop _ _ = _
          rw [ih _ hn h]
          show storePop (storeInsert st'.store _ _) _ = _
          rw [hst]
          exact storePop_insert _ _ _ hx
        · simp at hok

/-- **C08 (finding).** When the body of an outermost scope raises, the entry stays in the store:
the code after `yield` is not protected by `finally`. -/
theorem leak_on_exception (c : Cfg σ) (s : σ) (body : Prog σ) (st : St σ)
    (hout : lookup st.store s = none) (hgen : c.hasGen s = true)
    (hraise : (exec c body
      { st with next := st.next + 1, store := storeInsert st.store s st.next }).ok = false) :
    lookup (exec c (.ctx s body) st).st.store s = some st.next := by
  have hg : generate c st s = some (st.next, { st with next := st.next + 1 }) := by
    simp [generate, hgen]
  have h1 := exec_keeps c body
    { st with next := st.next + 1, store := storeInsert st.store s st.next } s st.next (by
      rw [lookup_insert _ _ _ _ hout]; simp)
  simp only [exec, hout, hg, hraise, Bool.false_eq_true, if_false]
  exact h1

/-- **C08 (finding, consequence).** After such a leak the stale object is used for ever: any later
program, whatever scopes it opens, reads the old object and never regenerates it. -/
theorem stale_forever (c : Cfg σ) (s : σ) (body later : Prog σ) (st : St σ)
    (hout : lookup st.store s = none) (hgen : c.hasGen s = true)
    (hraise : (exec c body
      { st with next := st.next + 1, store := storeInsert st.store s st.next }).ok = false) :
    let st' := (exec c (.ctx s body) st).st
    (∀ w, Ev.gen s w ∉ (exec c later st').tr) ∧
    (∀ w, Ev.read s w ∈ (exec c later st').tr → w = st.next) ∧
    lookup (exec c later st').st.store s = some st.next := by
  have h := leak_on_exception c s body st hout hgen hraise
  exact ⟨(exec_reads c later _ s _ h).1, (exec_reads c later _ s _ h).2, exec_keeps c later _ s _ h⟩

/-- **C08 (reading outside a scope).** With `force` the read raises; without, every read makes a new
object and nothing is stored. -/
theorem read_outside_scope (c : Cfg σ) (s : σ) (st : St σ) (hout : lookup st.store s = none) :
    (c.force = true → (exec c (.get s) st).ok = false ∧ (exec c (.get s) st).tr = []) ∧
    (c.force = false → c.hasGen s = true →
      (exec c (.get s) st).tr = [.gen s st.next, .read s st.next] ∧
      (exec c (.get s) st).st.store = st.store) := by
  constructor
  · intro hf; simp [exec, hout, hf]
  · intro hf hg; simp [exec, hout, hf, generate, hg]

end

/-- Non-trivial instance: nested scopes on two subjects, reads share the object, store is clean
afterwards. -/
example :
    let c : Cfg Nat := ⟨true, fun _ => true⟩
    let p : Prog Nat := .ctx 1 (.seq (.get 1) (.ctx 2 (.seq (.ctx 1 (.get 1)) (.get 2))))
    (exec c p ⟨[], 0⟩).tr = [.gen 1 0, .read 1 0, .gen 2 1, .read 1 0, .read 2 1] ∧
    (exec c p ⟨[], 0⟩).st.store = [] ∧ (exec c p ⟨[], 0⟩).ok = true := by decide

/-- Witness of the leak: scope raises, is caught, and a later scope reads the stale object 0. -/
example :
    let c : Cfg Nat := ⟨true, fun _ => true⟩
    let p : Prog Nat := .seq (.tryExcept (.ctx 1 .raise) .skip) (.ctx 1 (.get 1))
    (exec c p ⟨[], 0⟩).tr = [.gen 1 0, .read 1 0] ∧ (exec c p ⟨[], 0⟩).st.store = [(1, 0)] := by decide

end SC.Cache
