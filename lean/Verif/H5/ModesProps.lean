import Verif.H5.Modes
import Mathlib.Data.List.Basic
import Mathlib.Data.List.Induction
/-! # Open modes of HDF5 files and nodes: properties (C22) -/
namespace SC.H5.Modes

variable {D : Type}

/-! ## Specification -/

/-- A hierarchy: the root is a group and every other node is in a group. -/
structure WF (f : File D) : Prop where
  root : f [] = some .group
  parent : ∀ p n, f (p ++ [n]) ≠ none → f p = some .group

/-- The only difference is the dataset at `p`. -/
def OnlyAt (f g : File D) (p : Path) (d : D) : Prop := ∀ q, g q = if q = p then some (.dataset d) else f q

/-- What reading a node must give. -/
def readSpec (f : File D) (p : Path) : Option Unit → Except Err (Kind D)
  | none => match f p with
    | some k => .ok k
    | none => .error .missing
  | some () => match f p with
    | some _ => .error .alreadyExists
    | none => .error .missing

/-- What creating a missing node must give. -/
def createSpec (f : File D) (p : Path) (writable : Bool) (params : Option (Option D)) : Except Err D :=
  match f p.dropLast, params with
  | none, _ => .error .missingParent
  | some .group, some (some d) => if writable then .ok d else .error .other
  | _, _ => .error .other

/-! ## Helpers -/

theorem below_wf {f : File D} (hf : WF f) (p : Path) (d : D) (hp : f p = some (.dataset d)) (q : Path)
    (hq : p <+: q) (hne : q ≠ p) : f q = none := by
  obtain ⟨t, rfl⟩ := hq
  induction t using List.reverseRecOn with
  | nil => simp at hne
  | append_singleton t n ih =>
    by_contra hc
    have h1 : f (p ++ t) = some .group := hf.parent (p ++ t) n (by rwa [List.append_assoc])
    by_cases ht : t = []
    · subst ht
      rw [List.append_nil, hp] at h1
      cases h1
    · have := ih (by simpa using ht)
      rw [this] at h1
      cases h1

theorem createNode_spec (f : File D) (w : Bool) (p : Path) (m : Mode) (hm : m ≠ .r ∧ m ≠ .rp)
    (params : Option (Option D)) :
    match createSpec f p w params with
    | .ok d => OnlyAt f (createNode f w p m params).1 p d ∧
        (createNode f w p m params).2 = .ok (.dataset d)
    | .error e => createNode f w p m params = (f, .error e) := by
  simp only [createSpec, createNode, hm.1, hm.2, or_self, if_false]
  cases h : f p.dropLast with
  | none => simp
  | some k =>
    cases k with
    | dataset d => simp
    | group =>
      cases params with
      | none => simp
      | some o =>
        cases o with
        | none => simp
        | some d =>
          cases w with
          | false => simp
          | true => simp [OnlyAt, put]

/-! ## One open file -/

/-- Reading (`r`, `r+`) never changes anything, and the result is determined by the existence of the node. -/
theorem fopen_read (f : File D) (w : Bool) (p : Path) (m : Mode) (hm : m = .r ∨ m = .rp)
    (params : Option (Option D)) :
    fopen f w p m params = (f, readSpec f p (params.map fun _ => ())) := by
  simp only [fopen, readSpec]
  cases hp : f p with
  | none => rcases hm with rfl | rfl <;> cases params <;> simp [createNode]
  | some k => rcases hm with rfl | rfl <;> cases params <;> simp

/-- `x` and `w-` fail on an existing node, without changes. -/
theorem fopen_exclusive (f : File D) (w : Bool) (p : Path) (m : Mode) (hm : m = .x ∨ m = .wm)
    (params : Option (Option D)) (k : Kind D) (hk : f p = some k) :
    fopen f w p m params = (f, .error .alreadyExists) := by
  simp only [fopen, hk]
  rcases hm with rfl | rfl <;> simp

/-- `a` leaves an existing node as it is. -/
theorem fopen_append (f : File D) (w : Bool) (p : Path) (params : Option (Option D)) (k : Kind D)
    (hk : f p = some k) :
    fopen f w p .a params = (f, if params.isSome then .error .alreadyExists else .ok k) := by
  simp only [fopen, hk]
  cases params <;> simp

/-- A missing node is created by all modes except reading, under an existing group only, and nothing else
changes. -/
theorem fopen_create (f : File D) (w : Bool) (p : Path) (m : Mode) (hm : m ≠ .r ∧ m ≠ .rp)
    (params : Option (Option D)) (hk : f p = none) :
    match createSpec f p w params with
    | .ok d => OnlyAt f (fopen f w p m params).1 p d ∧ (fopen f w p m params).2 = .ok (.dataset d)
    | .error e => fopen f w p m params = (f, .error e) := by
  have : fopen f w p m params = createNode f w p m params := by simp [fopen, hk]
  rw [this]
  exact createNode_spec f w p m hm params

/-- `w` replaces an existing dataset and nothing else. -/
theorem fopen_write_dataset (f : File D) (hf : WF f) (p : Path) (d d' : D) (hk : f p = some (.dataset d)) :
    OnlyAt f (fopen f true p .w (some (some d'))).1 p d' ∧
      (fopen f true p .w (some (some d'))).2 = .ok (.dataset d') := by
  have hp : p ≠ [] := by
    rintro rfl
    rw [hf.root] at hk; cases hk
  have hpar : f p.dropLast = some .group := by
    refine hf.parent p.dropLast (p.getLast hp) ?_
    rw [List.dropLast_append_getLast hp, hk]
    simp
  have hdel : delete f p p.dropLast = some .group := by
    have hnp : ¬ p <+: p.dropLast := by
      intro h
      have := h.length_le
      rw [List.length_dropLast] at this
      have := List.length_pos_of_ne_nil hp
      omega
    simp [delete, hnp, hpar]
  have e : fopen f true p .w (some (some d')) = (put (delete f p) p (.dataset d'), .ok (.dataset d')) := by
    simp [fopen, hk, createNode, hdel]
  rw [e]
  refine ⟨fun q => ?_, rfl⟩
  simp only [put]
  by_cases hq : q = p
  · simp [hq]
  · simp only [hq, if_false, delete]
    split
    · rename_i hpq
      exact (below_wf hf p d hk q hpq hq).symm
    · rfl

/-- `w` refuses to replace a node of the other kind, without changes. -/
theorem fopen_write_kind (f : File D) (w : Bool) (p : Path) :
    (∀ params : Option D, f p = some .group → fopen f w p .w (some params) = (f, .error .notAFile)) ∧
    (∀ d, f p = some (.dataset d) → fopen f w p .w none = (f, .error .notADirectory)) := by
  constructor
  · intro params hk; simp [fopen, hk]
  · intro d hk; simp [fopen, hk]

/-- Without write access nothing ever changes. -/
theorem fopen_readonly (f : File D) (p : Path) (m : Mode) (params : Option (Option D)) :
    (fopen f false p m params).1 = f := by
  have hc : ∀ g : File D, (createNode g false p m params).1 = g := by
    intro g
    simp only [createNode]
    split
    · rfl
    · split
      · rfl
      · rfl
      · cases params with
        | none => rfl
        | some o => cases o <;> simp
  simp only [fopen]
  split
  · split
    · rfl
    · split
      · split
        · rfl
        · rfl
        · simpa using hc f
      · split <;> rfl
  · exact hc f

/-- The hierarchy is kept by every mode, whatever the outcome (the root is not opened). -/
theorem fopen_wf (f : File D) (hf : WF f) (w : Bool) (p : Path) (hp : p ≠ []) (m : Mode)
    (params : Option (Option D)) : WF (fopen f w p m params).1 := by
  have hput : ∀ (g : File D) (d : D), WF g → g p.dropLast = some .group → (∀ q, p <+: q → g q = none) →
      WF (put g p (.dataset d)) := by
    intro g d hg hpar hbelow
    constructor
    · simp [put, hp.symm, hg.root]
    · intro q n h
      have hpq : p <+: q → False := by
        intro hpq
        have h1 : g (q ++ [n]) = none := hbelow _ (hpq.trans (List.prefix_append q [n]))
        simp only [put] at h
        split at h
        · rename_i e
          have h2 := hpq.length_le
          have h3 := congrArg List.length e
          simp at h3
          omega
        · exact h h1
      have hqp : q ≠ p := by rintro rfl; exact hpq List.prefix_rfl
      simp only [put, hqp, if_false]
      simp only [put] at h
      split at h
      · rename_i e
        rw [← e, List.dropLast_concat] at hpar
        exact hpar
      · exact hg.parent q n h
  have hdel : WF (delete f p) := by
    constructor
    · simp [delete, hp, hf.root]
    · intro q n h
      simp only [delete] at h ⊢
      split at h
      · exact absurd rfl h
      · rename_i hn
        rw [if_neg (fun hq => hn (hq.trans (List.prefix_append q [n])))]
        exact hf.parent q n h
  have hcr : ∀ g : File D, WF g → g p = none → WF (createNode g w p m params).1 := by
    intro g hg hgp
    have hbelow : ∀ q, p <+: q → g q = none := by
      rintro q ⟨t, rfl⟩
      induction t using List.reverseRecOn with
      | nil => simpa using hgp
      | append_singleton t n ih =>
        by_contra hc
        have := hg.parent (p ++ t) n (by rwa [List.append_assoc])
        rw [ih] at this
        cases this
    simp only [createNode]
    split
    · exact hg
    · split
      · exact hg
      · exact hg
      · rename_i hpar
        cases params with
        | none => exact hg
        | some o =>
          cases o with
          | none => exact hg
          | some d =>
            cases w with
            | false => exact hg
            | true => exact hput g d hg hpar hbelow
  simp only [fopen]
  split
  · split
    · exact hf
    · split
      · split
        · exact hf
        · exact hf
        · cases w with
          | false =>
            have := fopen_readonly f p m params
            simp only [Bool.false_eq_true, if_false]
            have hc : (createNode f false p m params).1 = f := by
              simp only [createNode]
              split
              · rfl
              · split
                · rfl
                · rfl
                · cases params with
                  | none => rfl
                  | some o => cases o <;> simp
            rw [hc]; exact hf
          | true =>
            simp only [if_true]
            exact hcr _ hdel (by simp [delete])
      · split <;> exact hf
  · rename_i h
    exact hcr f hf h

/-- An error means that nothing was changed, except possibly with mode `w` on an existing node. -/
theorem fopen_error_partial (f : File D) (w : Bool) (p : Path) (m : Mode) (params : Option (Option D)) (e : Err)
    (h : (fopen f w p m params).2 = .error e) (hm : m ≠ .w ∨ f p = none) : (fopen f w p m params).1 = f := by
  have hc : (createNode f w p m params).2 = .error e → (createNode f w p m params).1 = f := by
    simp only [createNode]
    split
    · simp
    · split
      · simp
      · simp
      · cases params with
        | none => simp
        | some o => cases o <;> cases w <;> simp
  simp only [fopen] at h ⊢
  split at h
  · rename_i k hk
    have hm' : m ≠ .w := by
      rcases hm with hm | hm
      · exact hm
      · rw [hk] at hm; cases hm
    simp only [hm', if_false]
    split
    · rfl
    · split <;> rfl
  · exact hc h

/-! ## The device -/

/-- The two tables together: the mode of the device is used for everything, except that reading requests
are opened for reading, unless the device has mode `x`. -/
theorem deviceMode_spec (dflt : Mode) (mode : Option Mode) (hd : deviceInit dflt = true) :
    deviceMode dflt mode = if mode = some .r ∧ dflt ≠ .x then .r else dflt := by
  cases dflt <;> cases mode <;> (try (rename_i m; cases m)) <;> first | rfl | (simp [deviceInit] at hd)

/-- With a device of mode `r`, `r+` or `a`, reading a node changes nothing and creates no file. -/
theorem open_read_partial (dflt : Mode) (hd : dflt = .r ∨ dflt = .rp ∨ dflt = .a) (dev : Dev D)
    (hh : dev.handle = none) (p : Path) (params : Option (Option D)) :
    openNode dflt dev p (some .r) params = (dev.file, match dev.file with
      | none => .error .missing
      | some f => readSpec f p (params.map fun _ => ())) := by
  have hm : deviceMode dflt (some .r) = .r := by rcases hd with rfl | rfl | rfl <;> rfl
  have hp : pathDefaults dflt (some .r) = (.r, .r) := by rcases hd with rfl | rfl | rfl <;> rfl
  cases hf : dev.file with
  | none => simp [openNode, h5open, hh, hf, hp, hm, h5pyFile]
  | some f =>
    simp only [openNode, h5open, hh, hf, hp, hm, h5pyFile]
    rw [fopen_read f false p .r (.inl rfl)]

/-- With a device of mode `r` nothing ever changes, whatever is asked for. -/
theorem open_readonly (dev : Dev D) (hh : dev.handle = none) (p : Path) (mode : Option Mode)
    (params : Option (Option D)) : (openNode .r dev p mode params).1 = dev.file := by
  have hm : ∀ m, deviceMode .r m = .r := fun m => rfl
  cases hf : dev.file with
  | none => simp [openNode, h5open, hh, hf, hm, h5pyFile]
  | some f =>
    simp only [openNode, h5open, hh, hf, hm, h5pyFile]
    rw [fopen_readonly]

/-- With a device of mode `r+` or `a` and an existing file every other mode works on the file as it is:
the theorems on one open file apply. -/
theorem open_existing_partial (dflt : Mode) (hd : dflt = .rp ∨ dflt = .a) (f : File D) (p : Path) (m : Mode)
    (hm : m ≠ .r) (params : Option (Option D)) :
    openNode dflt ⟨some f, none⟩ p (some m) params
      = (some (fopen f true p m params).1, (fopen f true p m params).2) := by
  rcases hd with rfl | rfl <;> cases m <;> first | (exact absurd rfl hm) | rfl

/-- The same holds inside of an open device, whatever its mode and the mode of the handle. -/
theorem open_nested (dflt : Mode) (f : File D) (w : Bool) (p : Path) (m : Mode) (params : Option (Option D)) :
    openNode dflt ⟨some f, some w⟩ p (some m) params
      = (some (fopen f w p m params).1, (fopen f w p m params).2) := by
  simp [openNode, h5open, pathDefaults]

/-- With a device of mode `r+` no file is ever created. -/
theorem open_rplus_missing (p : Path) (mode : Option Mode) (params : Option (Option D)) :
    openNode .rp ⟨none, none⟩ p mode params = (none, .error .missing) := by
  cases mode with
  | none => rfl
  | some m => cases m <;> rfl

/-! ## Examples -/

/-- A group `g` with a dataset `d`. -/
def f1 : File Nat := fun p =>
  if p = [] then some .group else if p = ["g"] then some .group
  else if p = ["g", "d"] then some (.dataset 5) else none

theorem f1_wf : WF f1 := by
  constructor
  · rfl
  · intro p n h
    simp only [f1] at h
    by_cases h1 : p = []
    · subst h1; rfl
    · by_cases h2 : p = ["g"]
      · subst h2; decide
      · exfalso
        have e1 : p ++ [n] ≠ ["g"] := by
          intro e
          have := congrArg List.dropLast e
          simp at this
          exact h1 this
        have e2 : p ++ [n] ≠ ["g", "d"] := by
          intro e
          have := congrArg List.dropLast e
          simp at this
          exact h2 this
        simp [e1, e2] at h

example : (fopen f1 true ["g", "d"] .w (some (some 6))).1 ["g", "d"] = some (.dataset 6) := by decide
example : (fopen f1 true ["g", "e"] .x (some (some 6))).1 ["g", "e"] = some (.dataset 6) := by decide
example : (fopen f1 true ["h", "e"] .a (some (some 6))).2 = .error .missingParent := by decide
example : (fopen f1 true ["g", "d"] .a none).2 = .ok (.dataset 5) := by decide
example : (openNode .a ⟨some f1, none⟩ ["g", "d"] (some .r) none).2 = .ok (.dataset 5) := by decide

/-! ## What does not hold -/

/-- `w-` is documented for devices but refused by the base class. -/
theorem wminus_refused : deviceInit .wm = false := by decide

/-- With a device of mode `w` the file is truncated whenever a node is opened, also for reading: the table of
the base class turns the mode `a` of line 404 back into `w`. -/
theorem read_truncates (f : File D) (p : Path) (hp : p ≠ []) :
    openNode .w ⟨some f, none⟩ p (some .r) none = (some emptyFile, .error .missing) := by
  simp [openNode, h5open, pathDefaults, deviceMode, localDefaults, h5Defaults, h5pyFile, fopen, emptyFile,
    hp, createNode]

/-- With a device of mode `x` reading creates the file, and fails as soon as it exists. -/
theorem read_creates (f : File D) (p : Path) (hp : p ≠ []) :
    openNode (D := D) .x ⟨none, none⟩ p (some .r) none = (some emptyFile, .error .missing) ∧
    openNode .x ⟨some f, none⟩ p (some .r) none = (some f, .error .other) := by
  constructor
  · simp [openNode, h5open, pathDefaults, deviceMode, localDefaults, h5Defaults, h5pyFile, fopen, emptyFile,
      hp, createNode]
  · rfl

/-- Mode `r+` of a node creates the file when the device has mode `a`. -/
theorem rplus_creates (p : Path) (hp : p ≠ []) :
    openNode (D := D) .a ⟨none, none⟩ p (some .rp) none = (some emptyFile, .error .missing) := by
  simp [openNode, h5open, pathDefaults, deviceMode, localDefaults, h5Defaults, h5pyFile, fopen, emptyFile,
      hp, createNode]

/-- `w` without arguments deletes a group with everything below and then fails. -/
theorem write_destroys_group (f : File D) (p : Path) (hk : f p = some .group) :
    ∃ e, fopen f true p .w none = (delete f p, .error e) := by
  simp only [fopen, hk, createNode]
  simp only [reduceCtorEq, or_self, if_false, if_true]
  split
  · exact ⟨_, rfl⟩
  · exact ⟨_, rfl⟩
  · exact ⟨_, rfl⟩

/-- `w` with arguments that `create_dataset` refuses deletes the dataset and then fails. -/
theorem write_destroys_dataset :
    (fopen f1 true ["g", "d"] .w (some none)).2 = .error .other ∧
      (fopen f1 true ["g", "d"] .w (some none)).1 ["g", "d"] = none := by decide

/-- `a` without arguments does not create a missing node. -/
theorem append_without_arguments : (fopen f1 true ["g", "e"] .a none).2 = .error .other := by decide

end SC.H5.Modes
