import Verif.LocalFs.Props
/-! # Properties of moving, copying and links (C81) -/
namespace SC.LocalFs

variable {N C : Type} [DecidableEq N]

theorem destination_ne {fs : FS N C} {src dest : List N} (rename : Bool) (h : dest ≠ []) : destination fs src dest rename ≠ [] := by
  unfold destination
  split <;> simp [h]

/-- What `prepare` leaves: where the entries that were not to be replaced are. -/
theorem prepare_spec (lim : Nat) (fs : FS N C) (hw : WF fs) (src dest : List N) (force rename : Bool)
    (hr : destination fs src dest rename ≠ [])
    (hl : force = true → ∀ u d, get fs (destination fs src dest rename) ≠ some (.link u d)) :
    WF (prepare lim fs src dest force rename).2 ∧
    (∀ q, ¬ (force = true ∧ destination fs src dest rename <+: q) → get fs q ≠ none → get (prepare lim fs src dest force rename).2 q = get fs q) ∧
    (∀ q, get fs q = none → get (prepare lim fs src dest force rename).2 q ≠ none →
      get (prepare lim fs src dest force rename).2 q = some .dir ∧ q <+: (destination fs src dest rename).dropLast) ∧
    (∀ r, (prepare lim fs src dest force rename).1 = .ok r → r = destination fs src dest rename ∧
      (get (prepare lim fs src dest force rename).2 r = none ∨ ∃ u d, get (prepare lim fs src dest force rename).2 r = some (.link u d)) ∧
      (force = true → ∀ q, r <+: q → get (prepare lim fs src dest force rename).2 q = none) ∧
      (force = false → exists' fs r = false)) := by
  generalize hd : destination fs src dest rename = r at hr hl
  simp only [prepare, hd]
  -- after removing
  have step : ∀ (fs1 : FS N C), WF fs1 → (∀ q, ¬ (force = true ∧ r <+: q) → get fs1 q = get fs q) → (∀ q, get fs q = none → get fs1 q = none) →
      (get fs1 r = none ∨ ∃ u d, get fs1 r = some (.link u d)) → (force = true → ∀ q, r <+: q → get fs1 q = none) → (force = false → exists' fs r = false) →
      let out : Except Err (List N) × FS N C := if exists' fs1 r.dropLast then (.ok r, fs1) else
        match mkdir fs1 r.dropLast true true with
          | (.error e, fs) => (.error e, fs)
          | (.ok _, fs) => (.ok r, fs)
      WF out.2 ∧ (∀ q, ¬ (force = true ∧ r <+: q) → get fs q ≠ none → get out.2 q = get fs q) ∧
      (∀ q, get fs q = none → get out.2 q ≠ none → get out.2 q = some .dir ∧ q <+: r.dropLast) ∧
      (∀ r', out.1 = .ok r' → r' = r ∧ (get out.2 r' = none ∨ ∃ u d, get out.2 r' = some (.link u d)) ∧
        (force = true → ∀ q, r' <+: q → get out.2 q = none) ∧ (force = false → exists' fs r' = false)) := by
    intro fs1 h1 h2 h3 h4 h5 h6 out
    have hnot : ∀ q, r <+: q → ¬ q <+: r.dropLast := by
      intro q hq hq'
      have := (hq.trans hq').length_le
      have hl : 0 < r.length := List.length_pos_iff.2 hr
      simp at this; omega
    by_cases hx : exists' fs1 r.dropLast = true
    · have ho : out = (.ok r, fs1) := by simp only [out, hx, if_true]
      rw [ho]
      refine ⟨h1, fun q hq _ => h2 q hq, fun q hq hq' => absurd (h3 q hq) hq', ?_⟩
      intro r' hr'
      simp only [Except.ok.injEq] at hr'
      subst hr'
      exact ⟨rfl, h4, h5, h6⟩
    · obtain ⟨m1, m2, m3, m4⟩ := mkdir_keeps fs1 h1 r.dropLast true true
      have ho : out.2 = (mkdir fs1 r.dropLast true true).2 := by
        simp only [out, hx]
        generalize mkdir fs1 r.dropLast true true = x
        obtain ⟨x1, x2⟩ := x
        cases x1 <;> rfl
      have ho1 : ∀ r', out.1 = .ok r' → r' = r := by
        intro r'
        simp only [out, hx]
        generalize mkdir fs1 r.dropLast true true = x
        obtain ⟨x1, x2⟩ := x
        cases x1 <;> simp [eq_comm]
      rw [ho]
      have hkeep : ∀ q, get fs1 q = none → r <+: q → get (mkdir fs1 r.dropLast true true).2 q = none := by
        intro q hq hrq
        by_contra hne
        exact hnot q hrq (m3 q hq hne).2
      refine ⟨m1, fun q hq hne => ?_, fun q hq hq' => m3 q (h3 q hq) hq', ?_⟩
      · rw [m2 q (by rw [h2 q hq]; exact hne), h2 q hq]
      · intro r' hr'
        have := ho1 r' hr'
        subst this
        refine ⟨rfl, ?_, fun hf q hq => hkeep q (h5 hf q hq) hq, h6⟩
        rcases h4 with h4 | ⟨u, d, h4⟩
        · exact Or.inl (hkeep _ h4 (List.prefix_refl _))
        · exact Or.inr ⟨u, d, by rw [m2 _ (by rw [h4]; simp), h4]⟩
  by_cases hx : exists' fs r = true
  · cases hf : force with
    | false =>
      simp only [hx, if_true, Bool.false_eq_true, if_false]
      exact ⟨hw, fun _ _ _ => trivial, fun q hq hq' => absurd hq hq', by simp⟩
    | true =>
      subst hf
      simp only [hx, if_true]
      cases lim with
      | zero => exact ⟨hw, fun _ _ _ => rfl, fun q hq hq' => absurd hq hq', by simp [remove]⟩
      | succ n =>
        obtain ⟨o1, _, _⟩ := remove_only (n + 1) fs r true hw
        obtain ⟨t1, t2⟩ := remove_tree n fs hw r hr (hl rfl)
        generalize remove (n + 1) fs r true = x at o1 t1 t2
        obtain ⟨x1, x2⟩ := x
        simp only at t1 t2 o1
        subst t1
        have hst := step x2 o1 ?_ ?_ ?_ ?_ ?_
        · simp only at hst ⊢
          exact hst
        · intro q hq
          rw [t2, if_neg (fun h => hq ⟨rfl, h⟩)]
        · intro q hq
          rw [t2]; split
          · rfl
          · exact hq
        · rw [t2, if_pos (List.prefix_refl _)]; exact Or.inl rfl
        · intro _ q hq; rw [t2, if_pos hq]
        · simp
  · simp only [hx, Bool.false_eq_true, if_false]
    have hg : get fs r = none ∨ ∃ u d, get fs r = some (.link u d) := by
      by_contra hne
      simp only [not_or, not_exists] at hne
      have := stat_get hne.2
      unfold exists' at hx
      rw [this] at hx
      cases h : get fs r with
      | none => exact hne.1 h
      | some n => rw [h] at hx; simp at hx
    refine step fs hw (fun _ _ => rfl) (fun _ h => h) hg ?_ ?_
    · intro hf q hq
      by_cases hqr : q = r
      · rcases hg with h | ⟨u, d, h⟩
        · rw [hqr, h]
        · exact absurd h (hl hf u d)
      · refine hw.below ?_ hq (Ne.symm hqr)
        rcases hg with h | ⟨u, d, h⟩ <;> rw [h] <;> simp
    · intro _; simpa using hx

theorem osRename_ok (fs : FS N C) (hw : WF fs) (src dst : List N)
    (h : (osRename fs src dst).1 = .ok ()) : get fs src ≠ none ∧ ¬ src <+: dst ∧ get fs dst.dropLast = some .dir ∧ get fs dst ≠ some .dir ∧
      WF (osRename fs src dst).2 ∧
      ∀ q, get (osRename fs src dst).2 q = if dst <+: q then get fs (src ++ q.drop dst.length) else if src <+: q then none else get fs q := by
  have h' : osRename fs src dst = (.ok (), (osRename fs src dst).2) := Prod.ext h rfl
  generalize (osRename fs src dst).2 = fs' at h' ⊢
  clear h
  unfold osRename at h'
  cases hs : get fs src with
  | none => rw [hs] at h'; simp at h'
  | some node =>
    rw [hs] at h'
    simp only at h'
    split at h'
    · simp at h'
    · rename_i hpre
      have hpre : ¬ src <+: dst := fun e => hpre (List.isPrefixOf_iff_prefix.2 e)
      have hsne : src ≠ [] := by rintro rfl; exact hpre (by simp)
      cases hp : get fs dst.dropLast with
      | none => rw [hp] at h'; simp at h'
      | some par =>
        rw [hp] at h'
        cases par with
        | file c => simp at h'
        | link u d => simp at h'
        | dir =>
          simp only at h'
          have key : ∀ (gs : FS N C), WF gs → (∀ q, q ≠ dst → get gs q = get fs q) → get gs dst = none → dst ≠ [] → get fs dst ≠ some .dir →
              get fs dst.dropLast = some .dir →
              (some node ≠ none ∧ ¬ src <+: dst ∧ some (Node.dir (N := N) (C := C)) = some .dir ∧ get fs dst ≠ some .dir ∧ WF (moved src dst gs) ∧
                ∀ q, get (moved src dst gs) q = if dst <+: q then get fs (src ++ q.drop dst.length) else if src <+: q then none else get fs q) := by
            intro gs hgw hgs hgd hdne hnd hpar
            have hnone : ∀ q, dst <+: q → get gs q = none := by
              intro q hq
              by_cases hqd : q = dst
              · rw [hqd, hgd]
              · exact hgw.below (by rw [hgd]; simp) hq (Ne.symm hqd)
            have hds : ¬ dst <+: src := by
              intro e
              by_cases hsd : src = dst
              · exact hpre (hsd ▸ List.prefix_refl _)
              · have := hnone src e
                rw [hgs src hsd, hs] at this
                simp at this
            have hall : ∀ e ∈ gs, ¬ dst <+: e.1 := fun e he hd => get_ne_none he (hnone _ hd)
            have hget : ∀ q, get (moved src dst gs) q = if dst <+: q then get fs (src ++ q.drop dst.length) else if src <+: q then none else get fs q := by
              intro q
              rw [get_moved src dst hsne hdne hpre hds q gs hall]
              by_cases hq : dst <+: q
              · simp only [hq, if_true]
                exact hgs _ (fun e => hpre (e ▸ List.prefix_append _ _))
              · simp only [hq, if_false]
                split
                · rfl
                · exact hgs q (fun e => hq (e ▸ List.prefix_refl _))
            refine ⟨by simp, hpre, rfl, hnd, ?_, hget⟩
            intro q m hq
            rw [hget] at hq ⊢
            by_cases h1 : dst <+: q ++ [m]
            · rw [if_pos h1] at hq
              by_cases h2 : dst <+: q
              · rw [if_pos h2]
                obtain ⟨y, rfl⟩ := h2
                simp only [List.append_assoc, List.drop_left] at hq ⊢
                exact hw (src ++ y) m (by rw [List.append_assoc]; exact hq)
              · have h3 : dst = q ++ [m] := by
                  by_contra h3; exact h2 (prefix_snoc h1 h3)
                rw [if_neg h2]
                have h4 : ¬ src <+: q := fun e => hpre (h3 ▸ e.trans (List.prefix_append _ _))
                rw [if_neg h4]
                rw [h3, List.dropLast_concat] at hpar
                exact hpar
            · rw [if_neg h1] at hq
              have h2 : ¬ dst <+: q := fun e => h1 (e.trans (List.prefix_append _ _))
              rw [if_neg h2]
              by_cases h3 : src <+: q ++ [m]
              · rw [if_pos h3] at hq; exact absurd rfl hq
              · rw [if_neg h3] at hq
                rw [if_neg (fun e => h3 (e.trans (List.prefix_append _ _)))]
                exact hw q m hq
          cases hd : get fs dst with
          | none =>
            rw [hd] at h'
            simp only [Prod.mk.injEq, true_and] at h'
            subst h'
            have hdne : dst ≠ [] := by rintro rfl; simp at hd
            have := key fs hw (fun _ _ => rfl) hd hdne (by rw [hd]; simp) hp
            rw [hd] at this
            exact this
          | some dn =>
            rw [hd] at h'
            cases dn with
            | dir => cases node <;> simp at h'
            | file c => cases node <;> simp at h'
            | link u d =>
              have hdne : dst ≠ [] := by rintro rfl; simp at hd
              have hwe : WF (erase fs dst) := wf_erase hw hdne (fun m => hw.below (by rw [hd]; simp) (List.prefix_append _ _) (by simp))
              have := key (erase fs dst) hwe (fun q hq => by rw [get_erase _ _ _ hdne, if_neg hq]) (by rw [get_erase _ _ _ hdne, if_pos rfl]) hdne
                (by rw [hd]; simp) hp
              rw [hd] at this
              cases node with
              | dir => simp at h'
              | file c =>
                simp only [Prod.mk.injEq, true_and] at h'
                subst h'
                exact this
              | link _ _ =>
                simp only [Prod.mk.injEq, true_and] at h'
                subst h'
                exact this

theorem osRename_error (fs : FS N C) (src dst : List N) (e : Err) (h : (osRename fs src dst).1 = .error e) : (osRename fs src dst).2 = fs := by
  unfold osRename at h ⊢
  cases hs : get fs src with
  | none => rfl
  | some node =>
    rw [hs] at h
    simp only at h ⊢
    split
    · rfl
    · rename_i hpre
      rw [if_neg hpre] at h
      cases hp : get fs dst.dropLast with
      | none => rfl
      | some par =>
        rw [hp] at h
        cases par with
        | file c => rfl
        | link u d => rfl
        | dir =>
          simp only at h ⊢
          cases hd : get fs dst with
          | none => rw [hd] at h; simp at h
          | some dn =>
            rw [hd] at h
            cases dn <;> cases node <;> first | rfl | simp at h

/-- **C81.** After a move the tree is at the destination and nowhere else, and everything else is as before
apart from new directories on the way. -/
theorem move_ok (lim : Nat) (fs : FS N C) (hw : WF fs) (src dest : List N) (force rename : Bool)
    (hl : force = true → ∀ u d, get fs (destination fs src dest rename) ≠ some (.link u d))
    (hr : destination fs src dest rename ≠ [])
    (r : List N) (fs' : FS N C) (h : move lim fs src dest force rename = (.ok r, fs')) :
    r = destination fs src dest rename ∧ WF fs' ∧ get fs src ≠ none ∧ ¬ src <+: r ∧ ¬ r <+: src ∧
    (force = false → exists' fs r = false) ∧
    (∀ x, get fs' (r ++ x) = get fs (src ++ x)) ∧ (∀ x, get fs' (src ++ x) = none) ∧
    (∀ q, ¬ src <+: q → ¬ r <+: q → get fs q ≠ none → get fs' q = get fs q) ∧
    (∀ q, ¬ src <+: q → ¬ r <+: q → get fs q = none → get fs' q ≠ none → get fs' q = some .dir ∧ q <+: r) := by
  obtain ⟨p1, p2, p3, p4⟩ := prepare_spec lim fs hw src dest force rename hr hl
  unfold move at h
  generalize prepare lim fs src dest force rename = x at p1 p2 p3 p4 h
  obtain ⟨x1, fs1⟩ := x
  cases x1 with
  | error e => simp at h
  | ok r1 =>
    simp only at h p1 p2 p3 p4
    obtain ⟨q1, q2, q3, q4⟩ := p4 r1 rfl
    have ho := osRename_ok fs1 p1 src r1
    generalize osRename fs1 src r1 = y at ho h
    obtain ⟨y1, fs2⟩ := y
    cases y1 with
    | error e => simp at h
    | ok _ =>
      simp only [Prod.mk.injEq, Except.ok.injEq] at h
      obtain ⟨rfl, rfl⟩ := h
      obtain ⟨o1, o2, o3, o4, o5, o6⟩ := ho rfl
      simp only at o5 o6
      subst q1
      have hrs : ¬ destination fs src dest rename <+: src := by
        intro e
        by_cases hsd : destination fs src dest rename = src
        · exact o2 (by rw [hsd])
        · exact o4 (p1.above' e hsd o1)
      have hsrc : ∀ x, get fs1 (src ++ x) = get fs (src ++ x) := by
        intro x
        have hn : ¬ destination fs src dest rename <+: src ++ x := by
          intro e
          rcases List.prefix_or_prefix_of_prefix e (List.prefix_append src x) with h1 | h1
          · exact hrs h1
          · exact o2 h1
        by_cases hx : get fs (src ++ x) = none
        · by_contra hne
          have h2 := p3 _ hx (fun e => hne (by rw [e, hx]))
          exact o2 ((List.prefix_append src x).trans (h2.2.trans (List.dropLast_prefix _)))
        · exact p2 _ (fun h => hn h.2) hx
      refine ⟨rfl, o5, ?_, o2, hrs, q4, ?_, ?_, ?_, ?_⟩
      · have := hsrc []
        simp only [List.append_nil] at this
        rw [← this]; exact o1
      · intro x
        rw [o6, if_pos (List.prefix_append _ _), List.drop_left, hsrc]
      · intro x
        rw [o6, if_neg, if_pos (List.prefix_append _ _)]
        intro e
        rcases List.prefix_or_prefix_of_prefix e (List.prefix_append src x) with h1 | h1
        · exact hrs h1
        · exact o2 h1
      · intro q h1 h2 h3
        rw [o6, if_neg h2, if_neg h1]
        exact p2 q (fun h => h2 h.2) h3
      · intro q h1 h2 h3
        rw [o6, if_neg h2, if_neg h1]
        intro h4
        obtain ⟨h5, h6⟩ := p3 q h3 h4
        exact ⟨h5, h6.trans (List.dropLast_prefix _)⟩

/-- **C81.** A move that fails without `force` loses nothing. -/
theorem move_error (lim : Nat) (fs : FS N C) (hw : WF fs) (src dest : List N) (rename : Bool)
    (hr : destination fs src dest rename ≠ []) (e : Err) (h : (move lim fs src dest false rename).1 = .error e) :
    Kept fs (move lim fs src dest false rename).2 ∧
      ∀ q, get fs q = none → get (move lim fs src dest false rename).2 q ≠ none → get (move lim fs src dest false rename).2 q = some .dir := by
  obtain ⟨p1, p2, p3, p4⟩ := prepare_spec lim fs hw src dest false rename hr (by simp)
  unfold move at h ⊢
  generalize prepare lim fs src dest false rename = x at p1 p2 p3 p4 h
  obtain ⟨x1, fs1⟩ := x
  simp only at p2 p3
  cases x1 with
  | error e => exact ⟨fun q hq => p2 q (by simp) hq, fun q h1 h2 => (p3 q h1 h2).1⟩
  | ok r1 =>
    simp only at h ⊢
    have ho := osRename_error fs1 src r1
    generalize osRename fs1 src r1 = y at ho h
    obtain ⟨y1, fs2⟩ := y
    cases y1 with
    | ok _ => simp at h
    | error e =>
      have := ho e rfl
      simp only at this ⊢
      subst this
      exact ⟨fun q hq => p2 q (by simp) hq, fun q h1 h2 => (p3 q h1 h2).1⟩

/-- With `force` it can: a file moved to its own place is gone. -/
theorem move_self_lost (n : Nat) (fs : FS N C) (hw : WF fs) (src : List N) (c : C) (hs : get fs src = some (.file c)) :
    (move (n + 1) fs src src true true).1 = .error .os ∧ get (move (n + 1) fs src src true true).2 src = none := by
  have hp : src ≠ [] := by rintro rfl; simp at hs
  have hd : destination fs src src true = src := by simp [destination]
  have hst : exists' fs src = true := by
    unfold exists'
    rw [stat_get (by rw [hs]; simp), hs]; rfl
  have hpar : get fs src.dropLast = some .dir := by
    have := List.dropLast_append_getLast hp
    exact hw src.dropLast (src.getLast hp) (by rw [this, hs]; simp)
  have hne : src.dropLast ≠ src := by
    intro e
    have := congrArg List.length e
    have hl : 0 < src.length := List.length_pos_iff.2 hp
    simp at this; omega
  have hx : exists' (erase fs src) src.dropLast = true := by
    unfold exists'
    have : get (erase fs src) src.dropLast = some .dir := by rw [get_erase _ _ _ hp, if_neg hne, hpar]
    rw [stat_get (by rw [this]; simp), this]; rfl
  have hpr : prepare (n + 1) fs src src true true = (.ok src, erase fs src) := by
    simp only [prepare, hd, hst, if_true, remove, hs, hx]
  have hg : get (erase fs src) src = none := by rw [get_erase _ _ _ hp, if_pos rfl]
  simp only [move, hpr, osRename, hg, and_self]

/-! ## Copies -/

/-- **C81.** Copying loses nothing when `force` is not given, whatever happens. -/
theorem copy_keeps (lim : Nat) (fs : FS N C) (hw : WF fs) (src dest : List N) (fol : Bool)
    (hr : destination fs src dest false ≠ []) : Kept fs (copy lim fs src dest false fol).2 := by
  obtain ⟨p1, p2, p3, p4⟩ := prepare_spec lim fs hw src dest false false hr (by simp)
  unfold copy
  generalize prepare lim fs src dest false false = x at p1 p2 p3 p4
  obtain ⟨x1, fs1⟩ := x
  simp only at p2 p3
  have hk : Kept fs fs1 := fun q hq => p2 q (by simp) hq
  cases x1 with
  | error e => exact hk
  | ok r =>
    simp only
    have hput : ∀ n, get fs1 r = none → Kept fs (put fs1 r n) := by
      intro n hn q hq
      have hrne : r ≠ [] := by rintro rfl; simp at hn
      rw [get_put _ _ _ _ hrne, if_neg (by rintro rfl; rw [hk _ hq] at hn; exact hq hn), hk q hq]
    split
    · exact hk
    · split
      · split
        · split
          · rename_i h; exact hput _ h
          · exact hk
          · exact hk
        · exact hk
        · exact hk
      · split
        · rename_i h; exact hput _ h
        · exact hk
        · exact hk
      · split
        · exact hk
        · split
          · intro q hq
            simp only
            rw [get_append, hk q hq]
            cases h : get fs q with
            | none => exact absurd h hq
            | some n => rfl
          · exact hk
          · exact hk
          · exact hk
      · exact hk

/-- **C81.** After copying a directory or a file there are two of them; the rest is as before. -/
theorem copy_ok (lim : Nat) (fs : FS N C) (hw : WF fs) (src dest : List N) (force fol : Bool)
    (hl : force = true → ∀ u d, get fs (destination fs src dest false) ≠ some (.link u d))
    (hr : destination fs src dest false ≠ []) (hs : ∀ u d, get fs src ≠ some (.link u d))
    (r : List N) (fs' : FS N C) (h : copy lim fs src dest force fol = (.ok r, fs')) :
    r = destination fs src dest false ∧ WF fs' ∧ get fs src ≠ none ∧ ¬ r <+: src ∧
    (force = false → exists' fs r = false) ∧
    (∀ x, get fs' (r ++ x) = get fs (src ++ x)) ∧ (∀ x, get fs' (src ++ x) = get fs (src ++ x)) ∧
    (∀ q, ¬ r <+: q → get fs q ≠ none → get fs' q = get fs q) ∧
    (∀ q, ¬ r <+: q → get fs q = none → get fs' q ≠ none → get fs' q = some .dir ∧ q <+: r) := by
  obtain ⟨p1, p2, p3, p4⟩ := prepare_spec lim fs hw src dest force false hr hl
  unfold copy at h
  generalize prepare lim fs src dest force false = x at p1 p2 p3 p4 h
  obtain ⟨x1, fs1⟩ := x
  cases x1 with
  | error e => simp at h
  | ok r1 =>
    simp only at h p1 p2 p3 p4
    obtain ⟨q1, q2, q3, q4⟩ := p4 r1 rfl
    -- the common end: `gs` has the tree at `r`
    have fin : ∀ gs : FS N C, get fs1 src ≠ none → ¬ src <+: r1 → get fs1 r1 = none → get fs1 r1.dropLast = some .dir →
        (∀ q, get gs q = if r1 <+: q then get fs1 (src ++ q.drop r1.length) else get fs1 q) →
        r1 = destination fs src dest false ∧ WF gs ∧ get fs src ≠ none ∧ ¬ r1 <+: src ∧ (force = false → exists' fs r1 = false) ∧
        (∀ x, get gs (r1 ++ x) = get fs (src ++ x)) ∧ (∀ x, get gs (src ++ x) = get fs (src ++ x)) ∧
        (∀ q, ¬ r1 <+: q → get fs q ≠ none → get gs q = get fs q) ∧
        (∀ q, ¬ r1 <+: q → get fs q = none → get gs q ≠ none → get gs q = some .dir ∧ q <+: r1) := by
      intro gs g1 g2 g3 g4 g5
      have hrs : ¬ r1 <+: src := by
        intro e
        by_cases hsd : r1 = src
        · exact g2 (hsd ▸ List.prefix_refl _)
        · have := p1.above' e hsd g1
          rw [g3] at this; simp at this
      have hn : ∀ x, ¬ r1 <+: src ++ x := by
        intro x e
        rcases List.prefix_or_prefix_of_prefix e (List.prefix_append src x) with h1 | h1
        · exact hrs h1
        · exact g2 h1
      have hsrc : ∀ x, get fs1 (src ++ x) = get fs (src ++ x) := by
        intro x
        by_cases hx : get fs (src ++ x) = none
        · by_contra hne
          have h2 := p3 _ hx (fun e => hne (by rw [e, hx]))
          exact g2 ((List.prefix_append src x).trans (q1 ▸ h2.2.trans (List.dropLast_prefix _)))
        · exact p2 _ (fun h => hn x (q1 ▸ h.2)) hx
      refine ⟨q1, ?_, ?_, hrs, q4, ?_, ?_, ?_, ?_⟩
      · intro q m hq
        rw [g5] at hq ⊢
        by_cases h1 : r1 <+: q ++ [m]
        · rw [if_pos h1] at hq
          by_cases h2 : r1 <+: q
          · rw [if_pos h2]
            obtain ⟨y, rfl⟩ := h2
            simp only [List.append_assoc, List.drop_left] at hq ⊢
            exact p1 (src ++ y) m (by rw [List.append_assoc]; exact hq)
          · have h3 : r1 = q ++ [m] := by
              by_contra h3; exact h2 (prefix_snoc h1 h3)
            rw [if_neg h2]
            rw [h3, List.dropLast_concat] at g4
            exact g4
        · rw [if_neg h1] at hq
          rw [if_neg (fun e => h1 (e.trans (List.prefix_append _ _)))]
          exact p1 q m hq
      · have := hsrc []
        simp only [List.append_nil] at this
        rw [← this]; exact g1
      · intro x; rw [g5, if_pos (List.prefix_append _ _), List.drop_left, hsrc]
      · intro x; rw [g5, if_neg (hn x), hsrc]
      · intro q h2 h3; rw [g5, if_neg h2]; exact p2 q (fun h => h2 (q1 ▸ h.2)) h3
      · intro q h2 h3
        rw [g5, if_neg h2]
        intro h4
        obtain ⟨h5, h6⟩ := p3 q h3 h4
        exact ⟨h5, q1 ▸ h6.trans (List.dropLast_prefix _)⟩
    have hs1 : ∀ u d, get fs1 src ≠ some (.link u d) := by
      intro u d e
      by_cases h1 : get fs src = none
      · have := (p3 src h1 (by rw [e]; simp)).1
        rw [this] at e; simp at e
      · by_cases h2 : force = true ∧ r1 <+: src
        · have := q3 h2.1 src h2.2
          rw [this] at e; simp at e
        · rw [p2 src (q1 ▸ h2) h1] at e
          exact hs u d e
    have hnl : (islink fs1 src && !fol) = false := by
      unfold islink
      split
      · rename_i u d e; exact absurd e (hs1 u d)
      · rfl
    simp only [hnl, Bool.false_eq_true, if_false] at h
    cases hg : get fs1 src with
    | none => rw [hg] at h; simp at h
    | some node =>
      rw [hg] at h
      cases node with
      | link u d => exact absurd hg (hs1 u d)
      | file c =>
        simp only at h
        split at h
        · rename_i e1 e2
          simp only [Prod.mk.injEq, Except.ok.injEq] at h
          obtain ⟨rfl, rfl⟩ := h
          have hrne : r1 ≠ [] := by rintro rfl; simp at e2
          have hnp : ¬ src <+: r1 := by
            intro e
            by_cases hsd : src = r1
            · rw [hsd, e2] at hg; simp at hg
            · have h9 : src <+: r1.dropLast := by
                have h10 := List.dropLast_append_getLast hrne
                exact prefix_snoc (n := r1.getLast hrne) (by rw [h10]; exact e) (by rw [h10]; exact hsd)
              by_cases h11 : src = r1.dropLast
              · rw [h11, e1] at hg; simp at hg
              · have := p1.above' h9 h11 (by rw [e1]; simp)
                rw [this] at hg; simp at hg
          refine fin _ (by rw [hg]; simp) hnp e2 e1 ?_
          intro q
          rw [get_put _ _ _ _ hrne]
          by_cases hq : q = r1
          · subst hq; simp [hg]
          · rw [if_neg hq]
            by_cases hq2 : r1 <+: q
            · rw [if_pos hq2, p1.below (by rw [e2]; simp) hq2 (Ne.symm hq)]
              obtain ⟨y, rfl⟩ := hq2
              rw [List.drop_left]
              symm
              refine p1.below (by rw [hg]; simp) (List.prefix_append _ _) ?_
              intro e
              apply hq
              have : y = [] := by simpa using e.symm
              simp [this]
            · rw [if_neg hq2]
        · simp at h
        · simp at h
      | dir =>
        simp only at h
        split at h
        · simp at h
        · rename_i hpre
          have hpre : ¬ src <+: r1 := fun e => hpre (List.isPrefixOf_iff_prefix.2 e)
          have hsne : src ≠ [] := by rintro rfl; exact hpre (by simp)
          split at h
          · rename_i e1 e2
            simp only [Prod.mk.injEq, Except.ok.injEq] at h
            obtain ⟨rfl, rfl⟩ := h
            have hrne : r1 ≠ [] := by rintro rfl; simp at e2
            refine fin _ (by rw [hg]; simp) hpre e2 e1 ?_
            intro q
            rw [get_append, get_copied src r1 hsne hrne]
            by_cases hq0 : q = []
            · subst hq0
              have : ¬ r1 <+: [] := by simpa using hrne
              simp [this]
            · rw [if_neg hq0]
              by_cases hq : r1 <+: q
              · rw [if_pos hq, if_pos hq]
                have : get fs1 q = none := by
                  by_cases hqd : q = r1
                  · rw [hqd, e2]
                  · exact p1.below (by rw [e2]; simp) hq (Ne.symm hqd)
                rw [this, Option.none_or]
              · rw [if_neg hq, if_neg hq, Option.or_none]
          · simp at h
          · simp at h
          · simp at h

/-- A link cannot be copied unless it is followed: this raises, and with `force` the destination is gone by then. -/
theorem copy_link (lim : Nat) (fs : FS N C) (hw : WF fs) (src dest : List N) (u : Nat) (d : List N) (hs : get fs src = some (.link u d))
    (hr : destination fs src dest false ≠ []) : ∀ r, (copy lim fs src dest false false).1 ≠ .ok r := by
  intro r
  obtain ⟨p1, p2, p3, p4⟩ := prepare_spec lim fs hw src dest false false hr (by simp)
  unfold copy
  generalize prepare lim fs src dest false false = x at p1 p2 p3 p4
  obtain ⟨x1, fs1⟩ := x
  cases x1 with
  | error e => simp
  | ok r1 =>
    have : get fs1 src = some (.link u d) := by rw [← hs]; exact p2 src (by simp) (by rw [hs]; simp)
    simp [islink, this]

/-! ## Links -/

theorem common_le : ∀ (a b : List N), common a b ≤ a.length ∧ common a b ≤ b.length ∧ a.take (common a b) = b.take (common a b)
  | [], b => by simp [common]
  | a :: l, [] => by simp [common]
  | a :: l, b :: m => by
    simp only [common]
    split
    · rename_i h
      obtain ⟨h1, h2, h3⟩ := common_le l m
      simp [h, h1, h2, h3]
    · simp

theorem common_ge : ∀ (s a b : List N), s.length ≤ common (s ++ a) (s ++ b)
  | [], a, b => by simp
  | c :: s, a, b => by
    simp only [List.cons_append, common, if_true, List.length_cons]
    exact Nat.succ_le_succ (common_ge s a b)

/-- **C81.** A link leads to what it was made for. -/
theorem link_dest (fs : FS N C) (p dest : List N) (fs' : FS N C) (h : link fs p dest = (.ok (), fs')) : linkdest fs' p = some dest ∧
    ∀ q, q ≠ p → get fs' q = get fs q := by
  unfold link at h
  split at h
  · rename_i hg
    have hp : p ≠ [] := by rintro rfl; simp at hg
    simp only [Prod.mk.injEq, true_and] at h
    subst h
    constructor
    · simp only [linkdest, get_put _ _ _ _ hp, if_true, target]
      obtain ⟨h1, h2, h3⟩ := common_le p.dropLast dest
      have : p.dropLast.length - (p.dropLast.length - common p.dropLast dest) = common p.dropLast dest := by omega
      rw [this, h3, List.take_append_drop]
    · intro q hq
      rw [get_put _ _ _ _ hp, if_neg hq]
  · simp at h
  · simp at h

/-- **C81.** A link made inside a directory to something inside it moves with the directory. -/
theorem moved_link (lim : Nat) (fs fs1 fs2 : FS N C) (src dest x y : List N) (force rename : Bool) (hx : x ≠ [])
    (hlk : link fs (src ++ x) (src ++ y) = (.ok (), fs1)) (hw : WF fs1)
    (hl : force = true → ∀ u d, get fs1 (destination fs1 src dest rename) ≠ some (.link u d))
    (hr : destination fs1 src dest rename ≠ []) (r : List N) (h : move lim fs1 src dest force rename = (.ok r, fs2)) :
    linkdest fs2 (r ++ x) = some (r ++ y) := by
  obtain ⟨_, _, _, _, _, _, h7, _⟩ := move_ok lim fs1 hw src dest force rename hl hr r fs2 h
  unfold link at hlk
  split at hlk
  · rename_i hg
    have hp : src ++ x ≠ [] := by simp [hx]
    simp only [Prod.mk.injEq, true_and] at hlk
    subst hlk
    simp only [linkdest, h7, get_put _ _ _ _ hp, if_true, target]
    have hdl : ∀ s : List N, (s ++ x).dropLast = s ++ x.dropLast := fun s => List.dropLast_append_of_ne_nil hx
    simp only [hdl]
    have hk := common_ge src x.dropLast y
    obtain ⟨k1, k2, k3⟩ := common_le (src ++ x.dropLast) (src ++ y)
    generalize common (src ++ x.dropLast) (src ++ y) = k at hk k1 k2 k3
    obtain ⟨j, rfl⟩ : ∃ j, k = src.length + j := ⟨k - src.length, by omega⟩
    have e1 : (r ++ x.dropLast).length - ((src ++ x.dropLast).length - (src.length + j)) = r.length + j := by
      simp only [List.length_append] at k1 ⊢; omega
    rw [e1]
    have e2 : (src ++ y).drop (src.length + j) = y.drop j := by
      rw [List.drop_append]; simp
    have e3 : (r ++ x.dropLast).take (r.length + j) = r ++ x.dropLast.take j := by
      rw [List.take_append]; simp [List.take_of_length_le]
    have e4 : x.dropLast.take j = y.take j := by
      have : src ++ x.dropLast.take j = src ++ y.take j := by
        have := k3
        rw [List.take_append, List.take_append] at this
        simpa [List.take_of_length_le] using this
      exact List.append_cancel_left this
    rw [e2, e3, e4, List.append_assoc, List.take_append_drop]
  · simp at hlk
  · simp at hlk

end SC.LocalFs
