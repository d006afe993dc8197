import Verif.LocalFs.Model
import Mathlib.Tactic.Tauto
/-! # Lemmas on the entries of a file system -/
namespace SC.LocalFs

variable {N C : Type} [DecidableEq N]

/-- Everything is in a directory. -/
def WF (fs : FS N C) : Prop := ∀ p n, get fs (p ++ [n]) ≠ none → get fs p = some .dir

@[simp] theorem get_nil (fs : FS N C) : get fs [] = some .dir := by simp [get]

theorem get_empty {p : List N} (h : p ≠ []) : get ([] : FS N C) p = none := by simp [get, h]

theorem get_cons (e : List N × Node N C) (fs : FS N C) {p : List N} (h : p ≠ []) :
    get (e :: fs) p = if e.1 = p then some e.2 else get fs p := by
  simp only [get, h, if_false, List.find?_cons]
  by_cases he : e.1 = p <;> simp [he]

theorem get_append (fs gs : FS N C) (p : List N) : get (fs ++ gs) p = (get fs p).or (get gs p) := by
  by_cases h : p = []
  · subst h; simp
  · induction fs with
    | nil => simp [get_empty h]
    | cons e fs ih =>
      rw [List.cons_append, get_cons _ _ h, get_cons _ _ h, ih]
      split <;> simp

theorem get_filter (f : List N → Bool) (fs : FS N C) {p : List N} (h : p ≠ []) :
    get (fs.filter fun e => f e.1) p = if f p then get fs p else none := by
  induction fs with
  | nil => simp [get_empty h]
  | cons e fs ih =>
    rw [List.filter_cons]
    by_cases he : e.1 = p
    · subst he
      by_cases hf : f e.1 = true
      · simp [hf, get_cons _ _ h]
      · simp only [hf, Bool.false_eq_true, if_false]
        rw [ih]; simp [hf]
    · by_cases hf : f e.1 = true
      · simp only [hf, if_true]
        rw [get_cons _ _ h, get_cons _ _ h, ih]; simp [he]
      · simp only [hf, Bool.false_eq_true, if_false]
        rw [get_cons _ _ h, ih]; simp [he]

theorem get_erase (fs : FS N C) (p q : List N) (hp : p ≠ []) : get (erase fs p) q = if q = p then none else get fs q := by
  by_cases hq : q = []
  · subst hq; simp [Ne.symm hp]
  · unfold erase
    rw [get_filter (fun k => !decide (k = p)) fs hq]
    by_cases h : q = p <;> simp [h]

theorem get_put (fs : FS N C) (p q : List N) (n : Node N C) (hp : p ≠ []) : get (put fs p n) q = if q = p then some n else get fs q := by
  by_cases hq : q = []
  · subst hq; simp [Ne.symm hp]
  · unfold put
    rw [get_cons _ _ hq, get_filter (fun k => !decide (k = p)) fs hq]
    by_cases h : q = p
    · simp [h]
    · simp [h, Ne.symm h]

theorem get_rmtree (fs : FS N C) (p q : List N) (hp : p ≠ []) : get (rmtree fs p) q = if p <+: q then none else get fs q := by
  by_cases hq : q = []
  · subst hq
    have : ¬ p <+: [] := by simpa using hp
    simp [this]
  · unfold rmtree
    rw [get_filter (fun k => !p.isPrefixOf k) fs hq]
    by_cases h : p <+: q
    · have h' : p.isPrefixOf q = true := List.isPrefixOf_iff_prefix.2 h
      simp [h, h']
    · have h' : p.isPrefixOf q = false := by rw [← Bool.not_eq_true, List.isPrefixOf_iff_prefix]; exact h
      simp [h, h']

theorem get_ne_none {fs : FS N C} {e : List N × Node N C} (h : e ∈ fs) : get fs e.1 ≠ none := by
  by_cases he : e.1 = []
  · rw [he]; simp
  · induction fs with
    | nil => simp at h
    | cons d fs ih =>
      rw [get_cons _ _ he]
      split
      · simp
      · rcases List.mem_cons.1 h with rfl | h
        · contradiction
        · exact ih h

theorem mem_of_get {fs : FS N C} {p : List N} (hp : p ≠ []) (h : get fs p ≠ none) : ∃ e ∈ fs, e.1 = p := by
  induction fs with
  | nil => exact absurd (get_empty hp) h
  | cons d fs ih =>
    rw [get_cons _ _ hp] at h
    by_cases hd : d.1 = p
    · exact ⟨d, by simp, hd⟩
    · rw [if_neg hd] at h
      obtain ⟨e, he, h2⟩ := ih h
      exact ⟨e, by simp [he], h2⟩

/-- What is above an entry is a directory. -/
theorem WF.above {fs : FS N C} (hw : WF fs) {p : List N} : ∀ (x : List N), get fs (p ++ x) ≠ none → x ≠ [] → get fs p = some .dir := by
  intro x
  induction x using List.reverseRecOn with
  | nil => intro _ h; exact absurd rfl h
  | append_singleton x n ih =>
    intro h _
    have h1 := hw (p ++ x) n (by rw [List.append_assoc]; exact h)
    by_cases hx : x = []
    · subst hx; simpa using h1
    · exact ih (by rw [h1]; simp) hx

theorem WF.above' {fs : FS N C} (hw : WF fs) {p q : List N} (hpq : p <+: q) (hne : p ≠ q) (h : get fs q ≠ none) : get fs p = some .dir := by
  obtain ⟨x, rfl⟩ := hpq
  exact hw.above x h (by rintro rfl; simp at hne)

theorem WF.below {fs : FS N C} (hw : WF fs) {p : List N} (h : get fs p ≠ some .dir) {q : List N} (hpq : p <+: q) (hne : p ≠ q) : get fs q = none := by
  by_contra h2
  exact h (hw.above' hpq hne h2)

omit [DecidableEq N] in
theorem prefix_snoc {p q : List N} {n : N} (h : p <+: q ++ [n]) (hne : p ≠ q ++ [n]) : p <+: q := by
  obtain ⟨x, hx⟩ := h
  induction x using List.reverseRecOn with
  | nil => simp at hx; exact absurd hx hne
  | append_singleton x m _ =>
    rw [← List.append_assoc] at hx
    have := List.append_inj' hx rfl
    exact ⟨x, this.1⟩

theorem wf_put {fs : FS N C} (hw : WF fs) {p : List N} {n : Node N C} (hp : p ≠ []) (hpar : get fs p.dropLast = some .dir)
    (h : (∃ c, n = .dir ∧ c = get fs p ∧ (c = none ∨ c = some .dir)) ∨ get fs p ≠ some .dir) : WF (put fs p n) := by
  intro q m hq
  rw [get_put _ _ _ _ hp] at hq ⊢
  by_cases h1 : q ++ [m] = p
  · subst h1
    rw [List.dropLast_concat] at hpar
    rw [if_neg (by intro e; simpa using congrArg List.length e)]
    exact hpar
  · rw [if_neg h1] at hq
    have h2 := hw q m hq
    by_cases h3 : q = p
    · subst h3
      rcases h with ⟨c, hn, _⟩ | h
      · rw [hn, if_pos rfl]
      · exact absurd h2 h
    · rw [if_neg h3]; exact h2

theorem wf_erase {fs : FS N C} (hw : WF fs) {p : List N} (hp : p ≠ []) (h : ∀ n, get fs (p ++ [n]) = none) : WF (erase fs p) := by
  intro q m hq
  rw [get_erase _ _ _ hp] at hq ⊢
  by_cases h1 : q ++ [m] = p
  · simp [h1] at hq
  · rw [if_neg h1] at hq
    have h2 := hw q m hq
    by_cases h3 : q = p
    · subst h3; exact absurd (h m) hq
    · rw [if_neg h3]; exact h2

theorem wf_rmtree {fs : FS N C} (hw : WF fs) {p : List N} (hp : p ≠ []) : WF (rmtree fs p) := by
  intro q m hq
  rw [get_rmtree _ _ _ hp] at hq ⊢
  by_cases h1 : p <+: q ++ [m]
  · simp [h1] at hq
  · rw [if_neg h1] at hq
    rw [if_neg (fun h => h1 (h.trans (List.prefix_append _ _)))]
    exact hw q m hq

/-! ## Moving entries -/

def moved (src dst : List N) (fs : FS N C) : FS N C := fs.map fun e => if src.isPrefixOf e.1 then rekey src dst e else e

theorem get_moved (src dst : List N) (hs : src ≠ []) (hd : dst ≠ []) (hsd : ¬ src <+: dst) (hds : ¬ dst <+: src) (q : List N) : ∀ (fs : FS N C),
    (∀ e ∈ fs, ¬ dst <+: e.1) → get (moved src dst fs) q =
      if dst <+: q then get fs (src ++ q.drop dst.length) else if src <+: q then none else get fs q := by
  by_cases hq : q = []
  · subst hq
    intro fs _
    have h1 : ¬ dst <+: [] := by simpa using hd
    have h2 : ¬ src <+: [] := by simpa using hs
    simp [h1, h2]
  · intro fs
    have hsne : ∀ x, src ++ x ≠ [] := by simp [hs]
    induction fs with
    | nil =>
      intro _
      simp only [moved, List.map_nil, get_empty hq, get_empty (hsne _)]
      split <;> simp
    | cons e fs ih =>
      intro h
      have ih := ih (fun e he => h e (by simp [he]))
      simp only [moved, List.map_cons] at ih ⊢
      by_cases hse : src <+: e.1
      · have hse' : src.isPrefixOf e.1 = true := List.isPrefixOf_iff_prefix.2 hse
        simp only [hse', if_true]
        rw [get_cons _ _ hq, get_cons _ _ (hsne _), get_cons _ _ hq, ih]
        obtain ⟨x, hx⟩ := hse
        simp only [rekey, ← hx, List.drop_left]
        by_cases hdq : dst <+: q
        · obtain ⟨y, rfl⟩ := hdq
          simp
        · rw [if_neg hdq, if_neg hdq]
          rw [if_neg (by rintro rfl; exact hdq (List.prefix_append _ _))]
          by_cases hsq : src <+: q
          · simp [hsq]
          · rw [if_neg hsq, if_neg hsq, if_neg (by rintro rfl; exact hsq (List.prefix_append _ _))]
      · have hse' : src.isPrefixOf e.1 = false := by rw [← Bool.not_eq_true, List.isPrefixOf_iff_prefix]; exact hse
        simp only [hse', Bool.false_eq_true, if_false]
        rw [get_cons _ _ hq, get_cons _ _ (hsne _), get_cons _ _ hq, ih]
        by_cases he : e.1 = q
        · have hd' : ¬ dst <+: q := he ▸ h e (by simp)
          have hs' : ¬ src <+: q := he ▸ hse
          simp only [he, if_true, hd', hs', if_false]
        · rw [if_neg he]
          have hne : ¬ e.1 = src ++ q.drop dst.length := by
            intro h2; exact hse (by rw [h2]; exact List.prefix_append _ _)
          simp only [hne, he, if_false]

theorem get_copied (src dst : List N) (hs : src ≠ []) (hd : dst ≠ []) (q : List N) : ∀ (fs : FS N C),
    get ((fs.filter fun e => src.isPrefixOf e.1).map (rekey src dst)) q =
      if q = [] then some .dir else if dst <+: q then get fs (src ++ q.drop dst.length) else none := by
  by_cases hq : q = []
  · subst hq; simp
  · intro fs
    have hsne : ∀ x, src ++ x ≠ [] := by simp [hs]
    rw [if_neg hq]
    induction fs with
    | nil =>
      simp only [List.filter_nil, List.map_nil, get_empty hq, get_empty (hsne _)]
      split <;> simp
    | cons e fs ih =>
      rw [List.filter_cons]
      by_cases hse : src <+: e.1
      · rw [if_pos (by simpa using hse), List.map_cons, get_cons _ _ hq, get_cons _ _ (hsne _), ih]
        obtain ⟨x, hx⟩ := hse
        simp only [rekey, ← hx, List.drop_left]
        by_cases hdq : dst <+: q
        · obtain ⟨y, rfl⟩ := hdq
          simp
        · rw [if_neg hdq, if_neg hdq, if_neg (by rintro rfl; exact hdq (List.prefix_append _ _))]
      · have hne : ¬ e.1 = src ++ q.drop dst.length := by
          intro h2; exact hse (by rw [h2]; exact List.prefix_append _ _)
        rw [if_neg (by simpa using hse), ih, get_cons _ _ (hsne _), if_neg hne]

/-! ## Following links -/

theorem stat_get {fs : FS N C} {p : List N} (h : ∀ u d, get fs p ≠ some (.link u d)) : stat fs p = get fs p := by
  unfold stat follow
  cases hg : get fs p with
  | none => rfl
  | some n => cases n with
    | link u d => exact absurd hg (h u d)
    | dir => rfl
    | file c => rfl

theorem stat_isSome {fs : FS N C} {p : List N} (h : (stat fs p).isSome) : get fs p ≠ none := by
  intro e
  unfold stat follow at h
  rw [e] at h
  simp at h

end SC.LocalFs
