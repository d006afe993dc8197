import Verif.LocalFs.Lemmas
/-! # Properties of making, removing, moving and copying (C81)

Everything is said about what `get` finds before and after. -/
namespace SC.LocalFs

variable {N C : Type} [DecidableEq N]

/-- Everything that was there is there unchanged. -/
def Kept (fs fs' : FS N C) : Prop := ∀ q, get fs q ≠ none → get fs' q = get fs q

/-- What is new is a directory on the way to `p`. -/
def NewDirs (fs fs' : FS N C) (p : List N) : Prop := ∀ q, get fs q = none → get fs' q ≠ none → get fs' q = some .dir ∧ q <+: p

theorem Kept.refl (fs : FS N C) : Kept fs fs := fun _ _ => rfl

theorem NewDirs.refl (fs : FS N C) (p : List N) : NewDirs fs fs p := fun _ h h2 => absurd h h2

/-! ## Directories -/

theorem makedirs_spec : ∀ (todo done : List N) (fs : FS N C), WF fs → get fs done = some .dir →
    WF (makedirs fs done todo).2 ∧ Kept fs (makedirs fs done todo).2 ∧ NewDirs fs (makedirs fs done todo).2 (done ++ todo) ∧
    ((makedirs fs done todo).1 = .ok () → get (makedirs fs done todo).2 (done ++ todo) = some .dir) ∧
    (∀ e, (makedirs fs done todo).1 = .error e → (makedirs fs done todo).2 = fs ∧ ∃ q, q <+: done ++ todo ∧ get fs q ≠ none ∧ get fs q ≠ some .dir)
  | [], done, fs => fun hw hd => by
    simp only [makedirs, List.append_nil]
    exact ⟨hw, Kept.refl _, NewDirs.refl _ _, fun _ => hd, by simp⟩
  | n :: ns, done, fs => fun hw hd => by
    have he : done ++ n :: ns = (done ++ [n]) ++ ns := by simp
    have hne : done ++ [n] ≠ [] := by simp
    rw [he]
    cases hg : get fs (done ++ [n]) with
    | none =>
      simp only [makedirs, hg]
      have hw' : WF (put fs (done ++ [n]) .dir) := wf_put hw hne (by simpa using hd) (Or.inl ⟨_, rfl, rfl, Or.inl hg⟩)
      have hd' : get (put fs (done ++ [n]) .dir) (done ++ [n]) = some .dir := by rw [get_put _ _ _ _ hne, if_pos rfl]
      obtain ⟨h1, h2, h3, h4, h5⟩ := makedirs_spec ns (done ++ [n]) _ hw' hd'
      refine ⟨h1, ?_, ?_, h4, ?_⟩
      · intro q hq
        have : q ≠ done ++ [n] := by rintro rfl; exact hq hg
        rw [h2 q (by rw [get_put _ _ _ _ hne, if_neg this]; exact hq), get_put _ _ _ _ hne, if_neg this]
      · intro q hq hq'
        by_cases h : q = done ++ [n]
        · subst h
          exact ⟨(h2 _ (by rw [hd']; simp)).trans hd', List.prefix_append _ _⟩
        · exact h3 q (by rw [get_put _ _ _ _ hne, if_neg h]; exact hq) hq'
      · intro e h
        obtain ⟨_, q, hq, hq1, hq2⟩ := h5 e h
        exfalso
        rw [get_put _ _ _ _ hne] at hq1 hq2
        by_cases h : q = done ++ [n]
        · rw [if_pos h] at hq2; exact hq2 rfl
        · rw [if_neg h] at hq1 hq2
          -- either above or below the new directory
          rcases List.prefix_or_prefix_of_prefix hq (List.prefix_append (done ++ [n]) ns) with h6 | h6
          · have h7 := prefix_snoc h6 h
            by_cases h8 : q = done
            · subst h8; exact hq2 hd
            · exact hq2 (hw.above' h7 h8 (by rw [hd]; simp))
          · exact hq1 (hw.below (by rw [hg]; simp) h6 (Ne.symm h))
    | some node =>
      cases node with
      | dir =>
        simp only [makedirs, hg]
        exact makedirs_spec ns (done ++ [n]) fs hw hg
      | file c =>
        simp only [makedirs, hg]
        exact ⟨hw, Kept.refl _, NewDirs.refl _ _, by simp, fun e _ => ⟨trivial, done ++ [n], List.prefix_append _ _, by rw [hg]; simp, by rw [hg]; simp⟩⟩
      | link u d =>
        simp only [makedirs, hg]
        exact ⟨hw, Kept.refl _, NewDirs.refl _ _, by simp, fun e _ => ⟨trivial, done ++ [n], List.prefix_append _ _, by rw [hg]; simp, by rw [hg]; simp⟩⟩

theorem makedirs_already : ∀ (todo done : List N) (fs : FS N C), WF fs → (makedirs fs done todo).1 = .error .already →
    ∃ node, get fs (done ++ todo) = some node ∧ node ≠ .dir
  | [], done, fs => by intro _; simp [makedirs]
  | n :: ns, done, fs => by
    intro hw
    have he : done ++ n :: ns = (done ++ [n]) ++ ns := by simp
    have hne : done ++ [n] ≠ [] := by simp
    rw [he]
    cases hg : get fs (done ++ [n]) with
    | none =>
      simp only [makedirs, hg]
      intro h
      by_cases hpar : get fs done = some .dir
      · have hw' : WF (put fs (done ++ [n]) .dir) := wf_put hw hne (by simpa using hpar) (Or.inl ⟨_, rfl, rfl, Or.inl hg⟩)
        obtain ⟨node, h1, h2⟩ := makedirs_already ns _ _ hw' h
        rw [get_put _ _ _ _ hne] at h1
        split at h1
        · simp only [Option.some.injEq] at h1; exact absurd h1.symm h2
        · exact ⟨node, h1, h2⟩
      · -- nothing can be found below
        have : ∀ (ns : List N) (d : List N) (fs : FS N C), d ≠ [] → get fs d = some .dir → (∀ x, x ≠ [] → get fs (d ++ x) = none) →
            (makedirs fs d ns).1 ≠ .error .already := by
          intro ns
          induction ns with
          | nil => intro d fs _ _ _; simp [makedirs]
          | cons m ms ih =>
            intro d fs hdn hd hb
            simp only [makedirs, hb [m] (by simp)]
            refine ih (d ++ [m]) _ (by simp) (by rw [get_put _ _ _ _ (by simp), if_pos rfl]) ?_
            intro x hx
            rw [get_put _ _ _ _ (by simp), if_neg (by intro e; simp at e; exact hx e)]
            rw [List.append_assoc]; exact hb _ (by simp)
        refine absurd h (this ns _ _ hne (by rw [get_put _ _ _ _ hne, if_pos rfl]) ?_)
        intro x hx
        rw [get_put _ _ _ _ hne, if_neg (by intro e; simp at e; exact hx e)]
        exact hw.below (by rw [hg]; simp) (List.prefix_append _ _) (by intro e; simp at e; exact hx e)
    | some node =>
      cases node with
      | dir => simp only [makedirs, hg]; exact makedirs_already ns _ _ hw
      | file c =>
        simp only [makedirs, hg]
        intro h
        by_cases hns : ns = []
        · subst hns; exact ⟨_, by rw [List.append_nil, hg], by simp⟩
        · simp [hns] at h
      | link u d =>
        simp only [makedirs, hg]
        intro h
        by_cases hns : ns = []
        · subst hns; exact ⟨_, by rw [List.append_nil, hg], by simp⟩
        · simp [hns] at h

/-- **C81.** Making a directory keeps everything, makes only directories on the way, and changes nothing when it
fails. -/
theorem mkdir_keeps (fs : FS N C) (hw : WF fs) (p : List N) (recursive force : Bool) :
    WF (mkdir fs p recursive force).2 ∧ Kept fs (mkdir fs p recursive force).2 ∧ NewDirs fs (mkdir fs p recursive force).2 p ∧
    (∀ e, (mkdir fs p recursive force).1 = .error e → (mkdir fs p recursive force).2 = fs) := by
  have base : WF fs ∧ Kept fs fs ∧ NewDirs fs fs p := ⟨hw, Kept.refl _, NewDirs.refl _ _⟩
  have hm := makedirs_spec p [] fs hw (by simp)
  simp only [List.nil_append] at hm
  simp only [mkdir]
  split
  · split
    · exact ⟨base.1, base.2.1, base.2.2, fun _ _ => rfl⟩
    · split
      · exact ⟨base.1, base.2.1, base.2.2, fun _ _ => rfl⟩
      · exact ⟨base.1, base.2.1, base.2.2, fun _ _ => rfl⟩
  · split
    · generalize hr : makedirs fs [] p = r at hm
      obtain ⟨r1, r2⟩ := r
      obtain ⟨h1, h2, h3, _, h5⟩ := hm
      split
      · rename_i heq
        simp only [Prod.mk.injEq] at heq
        obtain ⟨rfl, rfl⟩ := heq
        exact ⟨h1, h2, h3, by simp⟩
      · exact ⟨h1, h2, h3, fun e he => (h5 e he).1⟩
    · split
      · exact ⟨base.1, base.2.1, base.2.2, fun _ _ => rfl⟩
      · rename_i hex _ _
        split
        · rename_i hpar
          split
          · rename_i hg
            have hp : p ≠ [] := by rintro rfl; simp at hg
            refine ⟨wf_put hw hp hpar (Or.inl ⟨_, rfl, rfl, Or.inl hg⟩), ?_, ?_, by simp⟩
            · intro q hq
              rw [get_put _ _ _ _ hp, if_neg (by rintro rfl; exact hq hg)]
            · intro q hq hq'
              rw [get_put _ _ _ _ hp] at hq' ⊢
              by_cases h : q = p
              · subst h; simp
              · rw [if_neg h] at hq'; exact absurd hq hq'
          · exact ⟨base.1, base.2.1, base.2.2, fun _ _ => rfl⟩
        · exact ⟨base.1, base.2.1, base.2.2, fun _ _ => rfl⟩
        · exact ⟨base.1, base.2.1, base.2.2, fun _ _ => rfl⟩

/-- **C81.** When it succeeds there is a directory, except for broken links. -/
theorem mkdir_isdir (fs : FS N C) (hw : WF fs) (p : List N) (recursive force : Bool) (hl : ∀ u d, get fs p ≠ some (.link u d))
    (h : (mkdir fs p recursive force).1 = .ok ()) : get (mkdir fs p recursive force).2 p = some .dir := by
  have h' : mkdir fs p recursive force = (.ok (), (mkdir fs p recursive force).2) := Prod.ext h rfl
  generalize (mkdir fs p recursive force).2 = fs' at h' ⊢
  clear h
  have hs := stat_get hl
  have hm := makedirs_spec p [] fs hw (by simp)
  have ha := makedirs_already p [] fs hw
  simp only [List.nil_append] at hm ha
  simp only [mkdir, exists', isfile, hs] at h'
  cases hg : get fs p with
  | some node =>
    cases node with
    | link u d => exact absurd hg (hl u d)
    | dir =>
      rw [hg] at h'
      cases force <;> simp at h'
      rw [← h']; exact hg
    | file c =>
      rw [hg] at h'
      cases force <;> simp at h'
  | none =>
    simp only [hg, Option.isSome_none, Bool.false_eq_true, if_false] at h'
    have hp : p ≠ [] := by rintro rfl; simp at hg
    cases recursive with
    | true =>
      simp only [if_true] at h'
      generalize makedirs fs [] p = r at hm h' ha
      obtain ⟨r1, r2⟩ := r
      split at h'
      · rename_i heq
        simp only [Prod.mk.injEq] at heq
        obtain ⟨rfl, rfl⟩ := heq
        obtain ⟨node, h1, _⟩ := ha rfl
        rw [hg] at h1; simp at h1
      · simp only [Prod.mk.injEq] at h'
        obtain ⟨rfl, rfl⟩ := h'
        exact hm.2.2.2.1 rfl
    | false =>
      simp only [Bool.false_eq_true, if_false] at h'
      split at h'
      · simp at h'
      · split at h'
        · simp only [Prod.mk.injEq, true_and] at h'
          rw [← h', get_put _ _ _ _ hp, if_pos rfl]
        · simp at h'
        · simp at h'

/-- Not so for broken links: nothing is made, and no exception. -/
theorem mkdir_broken (fs : FS N C) (hw : WF fs) (p : List N) (u : Nat) (d : List N) (hl : get fs p = some (.link u d))
    (hb : exists' fs p = false) (force : Bool) : mkdir fs p true force = (.ok (), fs) := by
  have hp : p ≠ [] := by rintro rfl; simp at hl
  have key : ∀ (todo done : List N), todo ≠ [] → done ++ todo = p → makedirs fs done todo = (.error .already, fs) := by
    intro todo
    induction todo with
    | nil => intro _ h; exact absurd rfl h
    | cons n ns ih =>
      intro done _ h
      by_cases hns : ns = []
      · subst hns
        simp only [makedirs, h, hl, if_true]
      · have : get fs (done ++ [n]) = some .dir := by
          refine hw.above ns ?_ hns
          rw [List.append_assoc, List.singleton_append, h, hl]; simp
        simp only [makedirs, this]
        exact ih _ hns (by simpa using h)
  simp only [mkdir, hb, Bool.false_eq_true, if_false, if_true, key p [] hp rfl]

/-! ## Removing -/

theorem hasChildren_iff (fs : FS N C) (p : List N) : hasChildren fs p = true ↔ ∃ n, get fs (p ++ [n]) ≠ none := by
  unfold hasChildren
  rw [List.any_eq_true]
  constructor
  · rintro ⟨e, he, h⟩
    simp only [decide_eq_true_eq] at h
    obtain ⟨h1, rfl⟩ := h
    refine ⟨e.1.getLast h1, ?_⟩
    rw [List.dropLast_append_getLast h1]
    exact get_ne_none he
  · rintro ⟨n, h⟩
    obtain ⟨e, he, h2⟩ := mem_of_get (by simp) h
    exact ⟨e, he, by simp [h2]⟩

theorem remove_root (n : Nat) (fs : FS N C) (hw : WF fs) (recursive : Bool) :
    WF (remove n fs [] recursive).2 ∧ ∀ q, get (remove n fs [] recursive).2 q = none ∨ get (remove n fs [] recursive).2 q = get fs q := by
  have key : ∀ (f : List N × Node N C → Bool), (∀ e ∈ fs, f e = true → e.1 = []) →
      WF (fs.filter f) ∧ ∀ q, get (fs.filter f) q = none ∨ get (fs.filter f) q = get fs q := by
    intro f h
    have h2 : ∀ q, q ≠ [] → get (fs.filter f) q = none := by
      intro q hq
      by_contra hne
      obtain ⟨e, he, he2⟩ := mem_of_get hq hne
      exact hq (he2 ▸ h e (List.mem_of_mem_filter he) (List.of_mem_filter he))
    exact ⟨fun q m hm => absurd (h2 _ (by simp)) hm, fun q => if hq : q = [] then Or.inr (by subst hq; simp) else Or.inl (h2 q hq)⟩
  cases n with
  | zero => exact ⟨hw, fun _ => Or.inr rfl⟩
  | succ n =>
    simp only [remove, get_nil]
    split
    · exact key _ (by intro e _ h; simp at h)
    · split
      · exact ⟨hw, fun _ => Or.inr rfl⟩
      · rename_i hc
        refine key _ ?_
        intro e he _
        by_contra hne
        have : ∀ (k : Nat) (q : List N), q.length = k → q ≠ [] → get fs q ≠ none → ∃ m, get fs [m] ≠ none := by
          intro k q _ hq hg
          cases q with
          | nil => exact absurd rfl hq
          | cons m l =>
            refine ⟨m, ?_⟩
            by_cases hl : l = []
            · subst hl; exact hg
            · have := hw.above (p := [m]) l hg hl
              rw [this]; simp
        obtain ⟨m, hm⟩ := this _ e.1 rfl hne (get_ne_none he)
        exact hc ((hasChildren_iff fs []).2 ⟨m, hm⟩)

theorem remove_only : ∀ (n : Nat) (fs : FS N C) (p : List N) (recursive : Bool), WF fs →
    WF (remove n fs p recursive).2 ∧ (∀ q, get (remove n fs p recursive).2 q = none ∨ get (remove n fs p recursive).2 q = get fs q) ∧
    ((remove n fs p recursive).1 = .ok () → p ≠ [] → get (remove n fs p recursive).2 p = none)
  | 0, fs, p, _ => fun hw => ⟨hw, fun _ => Or.inr rfl, by simp [remove]⟩
  | n + 1, fs, p, recursive => fun hw => by
    by_cases hp : p = []
    · subst hp
      obtain ⟨h1, h2⟩ := remove_root (n + 1) fs hw recursive
      exact ⟨h1, h2, fun _ h => absurd rfl h⟩
    have her : ∀ (gs : FS N C), (∀ q, get gs q = none ∨ get gs q = get fs q) → ∀ q, get (erase gs p) q = none ∨ get (erase gs p) q = get fs q := by
      intro gs h q
      rw [get_erase _ _ _ hp]
      split
      · exact Or.inl rfl
      · exact h q
    cases hg : get fs p with
    | none =>
      simp only [remove, hg]
      exact ⟨hw, fun _ => Or.inr trivial, fun _ _ => trivial⟩
    | some node =>
      cases node with
      | file c =>
        simp only [remove, hg]
        refine ⟨wf_erase hw hp (fun m => hw.below (by rw [hg]; simp) (List.prefix_append _ _) (by simp)), her fs (fun _ => Or.inr rfl), fun _ _ => ?_⟩
        rw [get_erase _ _ _ hp, if_pos rfl]
      | dir =>
        simp only [remove, hg]
        split
        · refine ⟨wf_rmtree hw hp, fun q => ?_, fun _ _ => ?_⟩
          · rw [get_rmtree _ _ _ hp]; split
            · exact Or.inl rfl
            · exact Or.inr rfl
          · rw [get_rmtree _ _ _ hp, if_pos (List.prefix_refl _)]
        · split
          · exact ⟨hw, fun _ => Or.inr rfl, by simp⟩
          · rename_i hc
            refine ⟨wf_erase hw hp (fun m => ?_), her fs (fun _ => Or.inr rfl), fun _ _ => ?_⟩
            · by_contra h
              exact hc ((hasChildren_iff fs p).2 ⟨m, h⟩)
            · rw [get_erase _ _ _ hp, if_pos rfl]
      | link u d =>
        simp only [remove, hg]
        split
        · obtain ⟨h1, h2, h3⟩ := remove_only n fs (target p u d) true hw
          generalize remove n fs (target p u d) true = r at h1 h2 h3
          obtain ⟨r1, r2⟩ := r
          cases r1 with
          | error e => exact ⟨h1, h2, by simp⟩
          | ok _ =>
            simp only
            cases hg2 : get r2 p with
            | none => exact ⟨h1, h2, by simp⟩
            | some node2 =>
              simp only
              have : get r2 p = get fs p := by
                rcases h2 p with h | h
                · rw [h] at hg2; simp at hg2
                · exact h
              refine ⟨wf_erase h1 hp (fun m => h1.below (by rw [this, hg]; simp) (List.prefix_append _ _) (by simp)), her r2 h2, fun _ _ => ?_⟩
              rw [get_erase _ _ _ hp, if_pos rfl]
        · refine ⟨wf_erase hw hp (fun m => hw.below (by rw [hg]; simp) (List.prefix_append _ _) (by simp)), her fs (fun _ => Or.inr rfl), fun _ _ => ?_⟩
          rw [get_erase _ _ _ hp, if_pos rfl]

/-- **C81.** Removing a directory or file recursively removes what is below and nothing else. -/
theorem remove_tree (n : Nat) (fs : FS N C) (hw : WF fs) (p : List N) (hp : p ≠ []) (hl : ∀ u d, get fs p ≠ some (.link u d)) :
    (remove (n + 1) fs p true).1 = .ok () ∧ ∀ q, get (remove (n + 1) fs p true).2 q = if p <+: q then none else get fs q := by
  have hb : get fs p ≠ some .dir → ∀ q, p <+: q → q ≠ p → get fs q = none := fun h q h1 h2 => hw.below h h1 (Ne.symm h2)
  cases hg : get fs p with
  | none =>
    simp only [remove, hg]
    refine ⟨trivial, fun q => ?_⟩
    split
    · rename_i h
      by_cases hq : q = p
      · rw [hq, hg]
      · exact hb (by rw [hg]; simp) q h hq
    · rfl
  | some node =>
    cases node with
    | link u d => exact absurd hg (hl u d)
    | dir =>
      simp only [remove, hg, if_true]
      exact ⟨trivial, fun q => get_rmtree _ _ _ hp⟩
    | file c =>
      simp only [remove, hg]
      refine ⟨trivial, fun q => ?_⟩
      rw [get_erase _ _ _ hp]
      by_cases hq : q = p
      · simp [hq]
      · rw [if_neg hq]
        split
        · rename_i h
          exact hb (by rw [hg]; simp) q h hq
        · rfl

/-- **C81.** Not recursively: one entry, and a directory only when it is empty. -/
theorem remove_one (n : Nat) (fs : FS N C) (p : List N) (hp : p ≠ []) :
    ((∃ m, get fs (p ++ [m]) ≠ none) → get fs p = some .dir → remove (n + 1) fs p false = (.error .notEmpty, fs)) ∧
    ((∀ m, get fs (p ++ [m]) = none) → (remove (n + 1) fs p false).1 = .ok () ∧
      ∀ q, get (remove (n + 1) fs p false).2 q = if q = p then none else get fs q) := by
  constructor
  · intro h hg
    simp only [remove, hg, Bool.false_eq_true, if_false]
    rw [if_pos ((hasChildren_iff fs p).2 h)]
  · intro h
    have hc : ¬ hasChildren fs p = true := by
      rw [hasChildren_iff]; rintro ⟨m, hm⟩; exact hm (h m)
    cases hg : get fs p with
    | none =>
      simp only [remove, hg]
      refine ⟨trivial, fun q => ?_⟩
      split
      · rename_i hq; rw [hq, hg]
      · rfl
    | some node =>
      cases node with
      | link u d => simp only [remove, hg, Bool.false_eq_true, if_false]; exact ⟨trivial, fun q => get_erase _ _ _ hp⟩
      | file c => simp only [remove, hg]; exact ⟨trivial, fun q => get_erase _ _ _ hp⟩
      | dir =>
        simp only [remove, hg, Bool.false_eq_true, if_false, hc]
        exact ⟨trivial, fun q => get_erase _ _ _ hp⟩

/-- Recursively removing a link removes what it points to first. -/
theorem remove_link (n : Nat) (fs : FS N C) (hw : WF fs) (p : List N) (u : Nat) (d : List N) (hl : get fs p = some (.link u d))
    (ht : target p u d ≠ []) (ht' : ∀ u' d', get fs (target p u d) ≠ some (.link u' d')) (hin : ¬ target p u d <+: p) :
    (remove (n + 2) fs p true).1 = .ok () ∧
    ∀ q, get (remove (n + 2) fs p true).2 q = if target p u d <+: q ∨ q = p then none else get fs q := by
  have hp : p ≠ [] := by rintro rfl; simp at hl
  obtain ⟨h1, h2⟩ := remove_tree n fs hw (target p u d) ht ht'
  rw [remove]
  simp only [hl, if_true]
  generalize remove (n + 1) fs (target p u d) true = r at h1 h2
  obtain ⟨r1, r2⟩ := r
  simp only at h1 h2
  subst h1
  simp only [h2 p, hin, if_false, hl]
  refine ⟨trivial, fun q => ?_⟩
  rw [get_erase _ _ _ hp, h2]
  by_cases hq : q = p
  · simp [hq]
  · simp [hq]

/-- A link in a circle cannot be removed recursively. -/
theorem remove_circle (fs : FS N C) (p : List N) (u : Nat) (d : List N) (hl : get fs p = some (.link u d)) (ht : target p u d = p) :
    ∀ n, remove n fs p true = (.error .recursion, fs)
  | 0 => rfl
  | n + 1 => by
    rw [remove]
    simp only [hl, if_true, ht, remove_circle fs p u d hl ht n]

end SC.LocalFs
