import Verif.LocalFs.Move
/-! # Sequences of operations, temporary names, and cases (C81) -/
namespace SC.LocalFs

variable {N C : Type} [DecidableEq N]

theorem wf_empty : WF ([] : FS N C) := fun p n h => absurd (get_empty (by simp)) h

theorem write_wf (fs : FS N C) (hw : WF fs) (p : List N) (c : C) : WF (write fs p c).2 := by
  unfold write
  split
  · rename_i h1 h2
    exact wf_put hw (by rintro rfl; simp at h2) h1 (Or.inr (by rw [h2]; simp))
  · rename_i h1 h2
    exact wf_put hw (by rintro rfl; simp at h2) h1 (Or.inr (by rw [h2]; simp))
  all_goals exact hw

theorem link_wf (fs : FS N C) (hw : WF fs) (p dest : List N) : WF (link fs p dest).2 := by
  unfold link
  split
  · rename_i h1 h2
    exact wf_put hw (by rintro rfl; simp at h2) h1 (Or.inr (by rw [h2]; simp))
  all_goals exact hw

/-- Operations without `force` on the destination. -/
inductive Op (N C : Type) where
  | mkdir (p : List N) (recursive force : Bool)
  | write (p : List N) (c : C)
  | link (p dest : List N)
  | remove (p : List N) (recursive : Bool)
  | move (src dest : List N) (rename : Bool)

def Op.run (lim : Nat) (fs : FS N C) : Op N C → FS N C
  | .mkdir p r f => (SC.LocalFs.mkdir fs p r f).2
  | .write p c => (SC.LocalFs.write fs p c).2
  | .link p d => (SC.LocalFs.link fs p d).2
  | .remove p r => (SC.LocalFs.remove lim fs p r).2
  | .move s d r => (SC.LocalFs.move lim fs s d false r).2

theorem move_wf (lim : Nat) (fs : FS N C) (hw : WF fs) (src dest : List N) (rename : Bool) : WF (move lim fs src dest false rename).2 := by
  by_cases hr : destination fs src dest rename = []
  · have : exists' fs [] = true := by simp [exists', stat, follow]
    simp only [move, prepare, hr, this, if_true, Bool.false_eq_true, if_false]
    exact hw
  · obtain ⟨p1, _, _, _⟩ := prepare_spec lim fs hw src dest false rename hr (by simp)
    unfold move
    generalize prepare lim fs src dest false rename = x at p1
    obtain ⟨x1, fs1⟩ := x
    cases x1 with
    | error e => exact p1
    | ok r =>
      simp only
      have h1 := osRename_ok fs1 p1 src r
      have h2 := osRename_error fs1 src r
      generalize osRename fs1 src r = y at h1 h2
      obtain ⟨y1, fs2⟩ := y
      cases y1 with
      | error e =>
        have := h2 e rfl
        simp only at this ⊢
        rw [this]; exact p1
      | ok _ => exact (h1 rfl).2.2.2.2.1

/-- **C81.** Whatever is done, in any order and with any failures, everything stays in directories. -/
theorem run_wf (lim : Nat) (ops : List (Op N C)) : WF (ops.foldl (Op.run lim) []) := by
  have : ∀ (ops : List (Op N C)) (fs : FS N C), WF fs → WF (ops.foldl (Op.run lim) fs) := by
    intro ops
    induction ops with
    | nil => intro fs h; exact h
    | cons o ops ih =>
      intro fs h
      apply ih
      cases o with
      | mkdir p r f => exact (mkdir_keeps fs h p r f).1
      | write p c => exact write_wf fs h p c
      | link p d => exact link_wf fs h p d
      | remove p r => exact (remove_only lim fs p r h).1
      | move s d r => exact move_wf lim fs h s d r
  exact this ops [] wf_empty

/-! ## Temporary names, fs.py:706-727 -/

/-- **C81.** When the wanted name is taken the temporary tree is removed and the rest is untouched. -/
theorem renameremove_taken (n : Nat) (fs : FS N C) (hw : WF fs) (p dest : List N) (hp : p ≠ []) (hl : ∀ u d, get fs p ≠ some (.link u d))
    (hd : exists' fs dest = true) : (renameremove (n + 1) fs p dest false).1 = .ok p ∧
      ∀ q, get (renameremove (n + 1) fs p dest false).2 q = if p <+: q then none else get fs q := by
  have hdest : destination fs p dest true = dest := by simp [destination]
  have hm : move (n + 1) fs p dest false true = (.error .already, fs) := by
    simp only [move, prepare, hdest, hd, if_true, Bool.false_eq_true, if_false]
  obtain ⟨h1, h2⟩ := remove_tree n fs hw p hp hl
  simp only [renameremove, hm]
  generalize remove (n + 1) fs p true = x at h1 h2
  obtain ⟨x1, x2⟩ := x
  simp only at h1 h2
  subst h1
  exact ⟨rfl, h2⟩

/-- **C81.** When it is free and the move works, the tree is there under the wanted name. -/
theorem renameremove_free (lim : Nat) (fs : FS N C) (p dest r : List N) (force : Bool) (fs' : FS N C)
    (h : move lim fs p dest force true = (.ok r, fs')) : renameremove lim fs p dest force = (.ok r, fs') ∧ r = dest := by
  refine ⟨by simp only [renameremove, h], ?_⟩
  unfold move at h
  have hd : destination fs p dest true = dest := by simp [destination]
  simp only [prepare, hd] at h
  split at h
  · simp at h
  · rename_i x1 _ heq
    have hx : x1 = dest := by
      split at heq
      · simp at heq
      · split at heq
        · simp at heq; exact heq.1.symm
        · split at heq
          · simp at heq
          · simp at heq; exact heq.1.symm
    split at h
    · simp at h
    · simp at h; rw [← h.1, hx]

/-! ## Cases -/

/-- `/1/2` with content 7, `/3` a directory, `/4` a link to `/1`. -/
def sample : FS Nat Nat := [([1], .dir), ([1, 2], .file 7), ([3], .dir), ([4], .link 0 [1])]

/-- A move into a directory. -/
example : (move 9 sample [1] [3] false false).1 = .ok [3, 1] ∧ get (move 9 sample [1] [3] false false).2 [3, 1, 2] = some (.file 7) ∧
    get (move 9 sample [1] [3] false false).2 [1, 2] = none := ⟨rfl, rfl, rfl⟩

/-- Missing directories are made. -/
example : (copy 9 sample [1] [5, 6, 7] false false).1 = .ok [5, 6, 7] ∧ get (copy 9 sample [1] [5, 6, 7] false false).2 [5, 6, 7, 2] = some (.file 7) ∧
    get (copy 9 sample [1] [5, 6, 7] false false).2 [1, 2] = some (.file 7) := ⟨rfl, rfl, rfl⟩

/-- The hypotheses of the theorems hold for it. -/
example : WF sample := by
  intro p n h
  obtain ⟨e, he, h2⟩ := mem_of_get (by simp) h
  simp only [sample, List.mem_cons, List.not_mem_nil, or_false] at he
  rcases he with rfl | rfl | rfl | rfl
  · have : p = [] := by cases p with
      | nil => rfl
      | cons a l => simp at h2
    subst this; rfl
  · have : p ++ [n] = [1] ++ [2] := h2.symm
    obtain ⟨rfl, _⟩ := List.append_inj' this rfl
    rfl
  · have : p = [] := by cases p with
      | nil => rfl
      | cons a l => simp at h2
    subst this; rfl
  · have : p = [] := by cases p with
      | nil => rfl
      | cons a l => simp at h2
    subst this; rfl

/-- Removing a link recursively removes the data. -/
theorem remove_link_data : (remove 9 sample [4] true).1 = .ok () ∧ get (remove 9 sample [4] true).2 [1, 2] = none := ⟨rfl, rfl⟩

/-- Copying a link raises, and what was to be replaced is gone. -/
theorem copy_link_lost : (copy 9 sample [4] [3, 5] true false).1 = .error .type ∧
    (copy 9 [([1], .dir), ([4], .link 0 [1]), ([3], .dir), ([3, 4], .file 8)] [4] [3] true false).1 = .error .type ∧
    get (copy 9 ([([1], .dir), ([4], .link 0 [1]), ([3], .dir), ([3, 4], .file 8)] : FS Nat Nat) [4] [3] true false).2 [3, 4] = none := ⟨rfl, rfl, rfl⟩

/-- Moving something that is not there with `force` removes the destination. -/
theorem move_missing_lost : (move 9 sample [8] [1, 2] true true).1 = .error .os ∧ get (move 9 sample [8] [1, 2] true true).2 [1, 2] = none := ⟨rfl, rfl⟩

/-- A directory made for the destination stays when the move fails. -/
theorem move_leaves_dirs : (move 9 sample [8] [5, 6] false true).1 = .error .os ∧ get (move 9 sample [8] [5, 6] false true).2 [5] = some .dir := ⟨rfl, rfl⟩

/-- A link that is moved alone leads elsewhere, since it is relative. -/
theorem moved_link_alone : linkdest sample [4] = some [1] ∧ (move 9 sample [4] [3, 4] false true).1 = .ok [3, 4] ∧
    linkdest (move 9 sample [4] [3, 4] false true).2 [3, 4] = some [3, 1] := ⟨rfl, rfl, rfl⟩

/-- A link inside a directory moves with it. -/
example : (link sample [1, 5] [1, 2]).1 = .ok () ∧ linkdest (move 9 (link sample [1, 5] [1, 2]).2 [1] [3] false false).2 [3, 1, 5] = some [3, 1, 2] :=
  ⟨rfl, rfl⟩

/-- A broken link. -/
example : exists' ([([4], .link 0 [9])] : FS Nat Nat) [4] = false := rfl

/-- **C81.** Making a directory that is there: fine with `force`, refused without; a file is never replaced.
Nothing changes. -/
theorem mkdir_existing (fs : FS N C) (p : List N) (recursive : Bool) :
    (stat fs p = some .dir → mkdir fs p recursive true = (.ok (), fs) ∧ mkdir fs p recursive false = (.error .already, fs)) ∧
    (∀ c, stat fs p = some (.file c) → mkdir fs p recursive true = (.error .notADir, fs) ∧ mkdir fs p recursive false = (.error .already, fs)) := by
  refine ⟨fun h => ?_, fun c h => ?_⟩ <;> simp [mkdir, exists', isfile, h]

/-- **C81.** Moving or copying something to a directory that is there puts it below that directory, with its own name. -/
theorem destination_below (fs : FS N C) (parent dest : List N) (name : N) (h : stat fs dest = some .dir) :
    destination fs (parent ++ [name]) dest false = dest ++ [name] ∧ destination fs (parent ++ [name]) dest true = dest := by
  simp [destination, isdir, h]

/-- **C81.** Otherwise it gets the new path. -/
theorem destination_path (fs : FS N C) (src dest : List N) (rename : Bool) (h : stat fs dest ≠ some .dir) :
    destination fs src dest rename = dest := by
  have : isdir fs dest = false := by
    unfold isdir
    split
    · rename_i h'; exact absurd h' h
    · rfl
  simp [destination, this]

end SC.LocalFs
