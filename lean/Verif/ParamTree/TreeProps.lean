import Verif.ParamTree.Props
/-! # C17: changing the tree, histories, deviations -/
namespace SC.ParamTree
open SC.Py

variable {K V : Type} [DecidableEq K] [DecidableEq V]
set_option linter.unusedSectionVars false

/-! ## moving several nodes to one parent -/

theorem setParent_not_below {s : Forest K V} (hs : WF s) {i n : Nat} (hi : i < s.size) (hn : n < s.size)
    (hb : ¬ Below s n i) : WF (setParent s i (some n)) ∧ (setParent s i (some n)).size = s.size ∧
    (∀ j, (setParent s i (some n)).data j = s.data j) ∧
    ∀ j, (setParent s i (some n)).parent j = if j = i then some n else s.parent j := by
  classical
  obtain ⟨h1, h2, h3, h4⟩ := setParent_spec hs hi (node := some n) (by simpa using hn)
  refine ⟨h1, h2, h3, fun j => ?_⟩
  have hne : (some n : Option Nat) ≠ some i := by
    intro e; simp only [Option.some.injEq] at e; subst e; exact hb Relation.ReflTransGen.refl
  rw [h4 hne j]
  split
  · rfl
  · rw [if_neg]
    rintro ⟨e, h⟩
    simp only [Option.some.injEq] at e; subst e; exact hb h

/-- Moving nodes one by one to `n`, when `n` is never below them. -/
theorem foldl_setParent {s : Forest K V} (hs : WF s) {n : Nat} (hn : n < s.size) (l : List Nat)
    (hl : ∀ c ∈ l, c < s.size)
    (hb : ∀ t : Forest K V, WF t → ∀ done, (∀ j, t.parent j = if j ∈ done then some n else s.parent j) →
      ∀ c ∈ l, c ∉ done → done ⊆ l → ¬ Below t n c) (hnd : l.Nodup) :
    WF (l.foldl (fun t c => setParent t c (some n)) s) ∧
    (l.foldl (fun t c => setParent t c (some n)) s).size = s.size ∧
    (∀ j, (l.foldl (fun t c => setParent t c (some n)) s).data j = s.data j) ∧
    ∀ j, (l.foldl (fun t c => setParent t c (some n)) s).parent j = if j ∈ l then some n else s.parent j := by
  have gen : ∀ (todo done : List Nat) (t : Forest K V), l = done ++ todo → WF t → t.size = s.size →
      (∀ j, t.data j = s.data j) → (∀ j, t.parent j = if j ∈ done then some n else s.parent j) →
      WF (todo.foldl (fun t c => setParent t c (some n)) t) ∧
      (todo.foldl (fun t c => setParent t c (some n)) t).size = s.size ∧
      (∀ j, (todo.foldl (fun t c => setParent t c (some n)) t).data j = s.data j) ∧
      ∀ j, (todo.foldl (fun t c => setParent t c (some n)) t).parent j = if j ∈ l then some n else s.parent j := by
    intro todo
    induction todo with
    | nil =>
      intro done t e h1 h2 h3 h4
      rw [List.append_nil] at e; subst e
      exact ⟨h1, h2, h3, h4⟩
    | cons c todo ih =>
      intro done t e h1 h2 h3 h4
      have hc : c ∈ l := by rw [e]; simp
      have hcd : c ∉ done := by
        intro h
        rw [e] at hnd
        exact (List.nodup_append.mp hnd).2.2 c h c (by simp) rfl
      obtain ⟨g1, g2, g3, g4⟩ := setParent_not_below h1 (i := c) (n := n) (by rw [h2]; exact hl c hc)
        (by rw [h2]; exact hn) (hb t h1 done h4 c hc hcd (by rw [e]; simp))
      refine ih (done ++ [c]) _ (by rw [e]; simp) g1 (by rw [g2, h2]) (fun j => by rw [g3, h3]) fun j => ?_
      rw [g4, h4]
      by_cases hjc : j = c
      · simp [hjc]
      · simp [hjc]
  exact gen l [] s rfl hs rfl (fun _ => rfl) (fun j => by simp)

/-- Two trees in which corresponding steps upwards see the same. -/
theorem getitem_congr {s t : Forest K V} (hs : WF s) (ht : WF t) (good : Nat → Prop)
    (hz : ∀ j, good j → j < s.size ∧ j < t.size)
    (hd : ∀ j k, good j → Dict.get? (t.data j) k = Dict.get? (s.data j) k)
    (hp : ∀ j k, good j → (∀ a, good a → Relation.TransGen (IsParent s) a j → getitem t a k = getitem s a k) →
      ((t.parent j).bind fun p => getitem t p k) = (s.parent j).bind fun p => getitem s p k) :
    ∀ j k, good j → getitem t j k = getitem s j k := by
  intro j k
  induction j using hs.acyclic.transGen.induction with
  | _ j ih =>
    intro hj
    rw [getitem_rec ht (hz j hj).2, getitem_rec hs (hz j hj).1, hd j k hj]
    congr 1
    exact hp j k hj fun a ha hab => ih a hab ha

/-! ## removing a node -/

/-- The tree with the parameters of one node erased. -/
def clear (s : Forest K V) (i : Nat) : Forest K V := s.upd i fun r => { r with data := [] }

theorem sameShape_clear (s : Forest K V) (i : Nat) : SameShape s (clear s i) := sameShape_data s i fun _ => []

theorem data_clear (s : Forest K V) (i j : Nat) : (clear s i).data j = if j = i then [] else s.data j := by
  rw [clear, data_upd]

/-- Structure after removing a node that has a parent. -/
theorem remove_struct {s : Forest K V} (hs : WF s) {i p : Nat} (hp : s.parent i = some p) :
    WF (setParent ((s.children i).foldl (fun t c => setParent t c (some p)) s) i none) ∧
    (setParent ((s.children i).foldl (fun t c => setParent t c (some p)) s) i none).size = s.size ∧
    (∀ j, (setParent ((s.children i).foldl (fun t c => setParent t c (some p)) s) i none).data j = s.data j) ∧
    ∀ j, (setParent ((s.children i).foldl (fun t c => setParent t c (some p)) s) i none).parent j =
      if j = i then none else if s.parent j = some i then some p else s.parent j := by
  classical
  have hpz := (hs.closed _ _ hp).2
  have hiz := (hs.closed _ _ hp).1
  have hii : i ∉ s.children i := by
    intro h
    exact below_antisymm hs ((hs.links i i).mp h) Relation.ReflTransGen.refl
  obtain ⟨h1, h2, h3, h4⟩ := foldl_setParent hs hpz (s.children i)
    (fun c hc => (hs.closed _ _ ((hs.links i c).mp hc)).1)
    (fun t ht done hpar c hc hcd hsub hb => by
      have e1 : t.parent c = some i := by rw [hpar, if_neg hcd]; exact (hs.links i c).mp hc
      have e2 : t.parent i = some p := by
        rw [hpar, if_neg fun h => hii (hsub h)]; exact hp
      exact below_antisymm ht e2 (Relation.ReflTransGen.tail hb e1))
    (hs.nodup i)
  obtain ⟨g1, g2, g3, g4⟩ := setParent_spec h1 (i := i) (by rw [h2]; exact hiz) (node := none) (by simp)
  refine ⟨g1, by rw [g2, h2], fun j => by rw [g3, h3], fun j => ?_⟩
  rw [g4 (by simp)]
  split
  · rfl
  · simp only [reduceCtorEq, false_and, if_false]
    rw [h4]
    by_cases hc : s.parent j = some i
    · rw [if_pos ((hs.links i j).mpr hc), if_pos hc]
    · rw [if_neg fun h => hc ((hs.links i j).mp h), if_neg hc]

/-- **C17.**  Removing a single node: every other node sees what it would see if the removed node
defined nothing; the removed node stands alone with its own parameters. -/
theorem remove_spec {s : Forest K V} (hs : WF s) {i : Nat} (hi : i < s.size) :
    WF (remove s i) ∧ (∀ j k, j < s.size → j ≠ i → getitem (remove s i) j k = getitem (clear s i) j k) ∧
    (∀ k, getitem (remove s i) i k = Dict.get? (s.data i) k) := by
  have hc := (sameShape_clear s i).wf hs
  cases hp : s.parent i with
  | some p =>
    have e : remove s i = setParent ((s.children i).foldl (fun t c => setParent t c (some p)) s) i none := by
      simp [remove, hp]
    obtain ⟨h1, h2, h3, h4⟩ := remove_struct hs hp
    rw [← e] at h1 h2 h3 h4
    refine ⟨h1, ?_, ?_⟩
    · intro j k hj hji
      refine getitem_congr hc h1 (fun j => j < s.size ∧ j ≠ i) ?_ ?_ ?_ j k ⟨hj, hji⟩
      · intro j hj; rw [h2, (sameShape_clear s i).size]; exact ⟨hj.1, hj.1⟩
      · intro j k hj; rw [h3, data_clear, if_neg hj.2]
      · intro j k hj ih
        rw [h4, if_neg hj.2, (sameShape_clear s i).parent]
        have hpi : p ≠ i := fun e => below_antisymm hs hp (e ▸ Relation.ReflTransGen.refl)
        by_cases hq : s.parent j = some i
        · rw [if_pos hq, hq]
          simp only [Option.bind_some]
          rw [getitem_rec hc (by rw [(sameShape_clear s i).size]; exact hi), data_clear, if_pos rfl,
            (sameShape_clear s i).parent, hp]
          simp only [Dict.get?, Option.none_or, Option.bind_some]
          apply ih p ⟨(hs.closed _ _ hp).2, hpi⟩
          refine Relation.TransGen.head (b := i) ?_ (Relation.TransGen.single ?_)
          · simp only [IsParent, (sameShape_clear s i).parent]; exact hp
          · simp only [IsParent, (sameShape_clear s i).parent]; exact hq
        · rw [if_neg hq]
          cases hq' : s.parent j with
          | none => rfl
          | some q =>
            simp only [Option.bind_some]
            apply ih q ⟨(hs.closed _ _ hq').2, fun e => hq (e ▸ hq')⟩
            refine Relation.TransGen.single ?_
            simp only [IsParent, (sameShape_clear s i).parent]; exact hq'
    · intro k
      rw [getitem_rec h1 (by rw [h2]; exact hi), h4, if_pos rfl, h3]
      simp
  | none =>
    -- a root gets a new, empty root first
    obtain ⟨n1, n2, n3, n4⟩ := newNode_spec hs none (by simp)
    have hnb : ¬ Below (newNode s none) s.size i := by
      intro hb
      rcases Relation.ReflTransGen.cases_head hb with e | ⟨c, hc', _⟩
      · omega
      · simp only [IsParent, n4, if_true] at hc'; simp at hc'
    obtain ⟨m1, m2, m3, m4⟩ := setParent_not_below n1 (i := i) (n := s.size) (by omega) (by omega) hnb
    have hpar : (setParent (newNode s none) i (some s.size)).parent i = some s.size := by rw [m4, if_pos rfl]
    have e : remove s i = setParent (((setParent (newNode s none) i (some s.size)).children i).foldl
        (fun t c => setParent t c (some s.size)) (setParent (newNode s none) i (some s.size))) i none := by
      simp only [remove, hp, if_true, hpar]
    obtain ⟨h1, h2, h3, h4⟩ := remove_struct m1 hpar
    rw [← e] at h1 h2 h3 h4
    refine ⟨h1, ?_, ?_⟩
    · intro j k hj hji
      refine getitem_congr hc h1 (fun j => j < s.size ∧ j ≠ i) ?_ ?_ ?_ j k ⟨hj, hji⟩
      · intro j hj; rw [h2, m2, n2, (sameShape_clear s i).size]; exact ⟨hj.1, by omega⟩
      · intro j k hj; rw [h3, m3, n3, data_clear, if_neg hj.2, if_neg (by omega)]
      · intro j k hj ih
        have e1 : (setParent (newNode s none) i (some s.size)).parent j = s.parent j := by
          have := hj.1
          rw [m4, if_neg hj.2, n4, if_neg (by omega)]
        rw [h4, if_neg hj.2, (sameShape_clear s i).parent, e1]
        by_cases hq : s.parent j = some i
        · rw [if_pos hq, hq]
          simp only [Option.bind_some]
          rw [getitem_rec hc (by rw [(sameShape_clear s i).size]; exact hi), data_clear, if_pos rfl,
            (sameShape_clear s i).parent, hp]
          have e2 : (setParent (newNode s none) i (some s.size)).parent s.size = none := by
            rw [m4, if_neg (by omega), n4, if_pos rfl]
          rw [getitem_rec h1 (by omega), h3, m3, n3, if_pos rfl, h4, if_neg (by omega), e2]
          simp [Dict.get?]
        · rw [if_neg hq]
          cases hq' : s.parent j with
          | none => rfl
          | some q =>
            simp only [Option.bind_some]
            apply ih q ⟨(hs.closed _ _ hq').2, fun e => hq (e ▸ hq')⟩
            refine Relation.TransGen.single ?_
            simp only [IsParent, (sameShape_clear s i).parent]; exact hq'
    · intro k
      rw [getitem_rec h1 (by omega), h4, if_pos rfl, h3, m3, n3, if_neg (by omega)]
      simp

/-! ## inserting a new node -/

/-- **C17.**  Inserting a new node before a node that has a parent changes no reading; the new node
sees what the old parent sees. -/
theorem insertBefore_new {s : Forest K V} (hs : WF s) {i p : Nat} (hp : s.parent i = some p) :
    WF (insertBefore s i none).1 ∧ (insertBefore s i none).2 = some s.size ∧
    (insertBefore s i none).1.parent i = some s.size ∧ (insertBefore s i none).1.parent s.size = some p ∧
    (∀ j k, j < s.size → getitem (insertBefore s i none).1 j k = getitem s j k) ∧
    (∀ k, getitem (insertBefore s i none).1 s.size k = getitem s p k) := by
  have hpz := (hs.closed _ _ hp).2
  have hiz := (hs.closed _ _ hp).1
  obtain ⟨n1, n2, n3, n4⟩ := newNode_spec hs none (by simp)
  have hnb : ¬ Below (newNode s none) s.size i := by
    intro hb
    rcases Relation.ReflTransGen.cases_head hb with e | ⟨c, hc', _⟩
    · omega
    · simp only [IsParent, n4, if_true] at hc'; simp at hc'
  obtain ⟨m1, m2, m3, m4⟩ := setParent_not_below n1 (i := i) (n := s.size) (by omega) (by omega) hnb
  have keep : (newNode s none).parent i = some p := by rw [n4, if_neg (by omega)]; exact hp
  have hpn : (setParent (newNode s none) i (some s.size)).parent s.size = none := by
    rw [m4, if_neg (by omega), n4, if_pos rfl]
  have hnb2 : ¬ Below (setParent (newNode s none) i (some s.size)) p s.size := by
    have aux : ∀ j, Below (setParent (newNode s none) i (some s.size)) j s.size → j = s.size ∨ Below s j i := by
      intro j hb
      induction hb using Relation.ReflTransGen.head_induction_on with
      | refl => exact Or.inl rfl
      | @head a c h1 _ ih =>
        right
        by_cases hai : a = i
        · rw [hai]; exact Relation.ReflTransGen.refl
        · have h1' : s.parent a = some c := by
            have h := h1
            simp only [IsParent, m4, hai, if_false, n4] at h
            by_cases haz : a = s.size
            · rw [if_pos haz] at h; simp at h
            · rw [if_neg haz] at h; exact h
          rcases ih with e | e
          · have := (hs.closed _ _ h1').2; omega
          · exact Relation.ReflTransGen.head h1' e
    intro hb
    rcases aux p hb with e | e
    · omega
    · exact below_antisymm hs hp e
  obtain ⟨q1, q2, q3, q4⟩ := setParent_not_below m1 (i := s.size) (n := p) (by omega) (by omega) hnb2
  have e : insertBefore s i none = (setParent (setParent (newNode s none) i (some s.size)) s.size (some p), some s.size) := by
    simp [insertBefore, withNode, hp, keep, hpn]
  rw [e]
  have getp : ∀ j, j < s.size → (setParent (setParent (newNode s none) i (some s.size)) s.size (some p)).parent j =
      if j = i then some s.size else s.parent j := by
    intro j hj
    rw [q4, if_neg (by omega), m4, n4]
    split
    · rfl
    · rw [if_neg (by omega)]
  have getn : (setParent (setParent (newNode s none) i (some s.size)) s.size (some p)).parent s.size = some p := by
    rw [q4, if_pos rfl]
  have rd : ∀ k, getitem (setParent (setParent (newNode s none) i (some s.size)) s.size (some p)) s.size k =
      getitem (setParent (setParent (newNode s none) i (some s.size)) s.size (some p)) p k := by
    intro k
    rw [getitem_rec q1 (by omega), getn, q3, m3, n3, if_pos rfl]
    simp [Dict.get?]
  have main : ∀ j k, j < s.size →
      getitem (setParent (setParent (newNode s none) i (some s.size)) s.size (some p)) j k = getitem s j k := by
    refine getitem_congr hs q1 (fun j => j < s.size) ?_ ?_ ?_
    · intro j hj; exact ⟨hj, by omega⟩
    · intro j k hj; rw [q3, m3, n3, if_neg (by omega)]
    · intro j k hj ih
      rw [getp j hj]
      by_cases hji : j = i
      · subst hji
        rw [if_pos rfl, hp]
        simp only [Option.bind_some, rd]
        exact ih p hpz (Relation.TransGen.single hp)
      · rw [if_neg hji]
        cases hq : s.parent j with
        | none => rfl
        | some q =>
          simp only [Option.bind_some]
          exact ih q (hs.closed _ _ hq).2 (Relation.TransGen.single hq)
  exact ⟨q1, rfl, by rw [getp i hiz, if_pos rfl], getn, main, fun k => by rw [rd k]; exact main p k hpz⟩

/-- **C17 (deviation).**  Inserting a new node before a root does nothing and returns nothing. -/
theorem insertBefore_root (s : Forest K V) (i : Nat) (hp : s.parent i = none) :
    insertBefore s i none = (s, none) := by
  simp [insertBefore, hp]

/-- **C17 (deviation).**  `insert_after` without a node always raises. -/
theorem insertAfter_default (s : Forest K V) (i : Nat) (b : Bool) : insertAfter s i none b = none := rfl

/-- **C17.**  Inserting a new, separate node after a node changes no reading: the former children
are now below the new node, which is below the node. -/
theorem insertAfter_new {s : Forest K V} (hs : WF s) {i : Nat} (hi : i < s.size) :
    ∃ t, insertAfter (newNode s none) i (some s.size) = some (t, s.size) ∧ WF t ∧
    (∀ j, j < s.size → t.parent j = if s.parent j = some i then some s.size else s.parent j) ∧
    t.parent s.size = some i ∧ (∀ j k, j < s.size → getitem t j k = getitem s j k) := by
  obtain ⟨n1, n2, n3, n4⟩ := newNode_spec hs none (by simp)
  have hch : ∀ c, c ∈ (newNode s none).children i ↔ s.parent c = some i := by
    intro c
    rw [n1.links, n4]
    split
    · rename_i e; subst e; simp [parent_size hs]
    · rfl
  obtain ⟨m1, m2, m3, m4⟩ := foldl_setParent n1 (n := s.size) (by omega) ((newNode s none).children i)
    (fun c hc => (n1.closed _ _ ((n1.links i c).mp hc)).1)
    (fun t ht done hpar c hc hcd hsub hb => by
      have hcz := (hs.closed _ _ ((hch c).mp hc)).1
      rcases Relation.ReflTransGen.cases_head hb with e | ⟨d, hd, _⟩
      · omega
      · simp only [IsParent, hpar, n4, if_true] at hd
        have : s.size ∉ done := fun h => by have := (hs.closed _ _ ((hch _).mp (hsub h))).1; omega
        rw [if_neg this] at hd; simp at hd)
    (n1.nodup i)
  have hnb : ¬ Below (((newNode s none).children i).foldl (fun t c => setParent t c (some s.size)) (newNode s none)) i s.size := by
    have aux : ∀ j, Below (((newNode s none).children i).foldl (fun t c => setParent t c (some s.size)) (newNode s none)) j s.size →
        j = s.size ∨ ∃ c, s.parent c = some i ∧ Below s j c := by
      intro j hb
      induction hb using Relation.ReflTransGen.head_induction_on with
      | refl => exact Or.inl rfl
      | @head a c h1 _ ih =>
        right
        have h := h1
        simp only [IsParent, m4, hch, n4] at h
        by_cases hac : s.parent a = some i
        · exact ⟨a, hac, Relation.ReflTransGen.refl⟩
        · rw [if_neg hac] at h
          by_cases haz : a = s.size
          · rw [if_pos haz] at h; simp at h
          · rw [if_neg haz] at h
            rcases ih with e | ⟨d, hd, hbd⟩
            · have := (hs.closed _ _ h).2; omega
            · exact ⟨d, hd, Relation.ReflTransGen.head h hbd⟩
    intro hb
    rcases aux i hb with e | ⟨c, hc, hb'⟩
    · omega
    · exact below_antisymm hs hc hb'
  obtain ⟨q1, q2, q3, q4⟩ := setParent_not_below m1 (i := s.size) (n := i) (by omega) (by omega) hnb
  refine ⟨_, ?_, q1, ?_, ?_, ?_⟩
  · have h1 : (newNode s none).parent s.size = none := by rw [n4, if_pos rfl]
    have h2 : s.size ≠ i := by omega
    simp [insertAfter, h1, h2]
  · intro j hj
    rw [q4, if_neg (by omega), m4]
    by_cases hc : s.parent j = some i
    · rw [if_pos ((hch j).mpr hc), if_pos hc]
    · rw [if_neg fun h => hc ((hch j).mp h), if_neg hc, n4, if_neg (by omega)]
  · rw [q4, if_pos rfl]
  · refine getitem_congr hs q1 (fun j => j < s.size) ?_ ?_ ?_
    · intro j hj; exact ⟨hj, by omega⟩
    · intro j k hj; rw [q3, m3, n3, if_neg (by omega)]
    · intro j k hj ih
      rw [q4, if_neg (by omega), m4]
      by_cases hc : s.parent j = some i
      · rw [if_pos ((hch j).mpr hc), hc]
        simp only [Option.bind_some]
        rw [getitem_rec q1 (by omega), q3, m3, n3, if_pos rfl, q4, if_pos rfl]
        simp only [Dict.get?, Option.none_or, Option.bind_some]
        exact ih i hi (Relation.TransGen.single hc)
      · rw [if_neg fun h => hc ((hch j).mp h), n4, if_neg (by omega)]
        cases hq : s.parent j with
        | none => rfl
        | some q =>
          simp only [Option.bind_some]
          exact ih q (hs.closed _ _ hq).2 (Relation.TransGen.single hq)

/-- **C17.**  A branch inherits everything from its parent and nothing else changes. -/
theorem branch_spec {s : Forest K V} (hs : WF s) {i : Nat} (hi : i < s.size) :
    WF (branch s i) ∧ (∀ k, getitem (branch s i) s.size k = getitem s i k) ∧
    ∀ j k, j < s.size → getitem (branch s i) j k = getitem s j k := by
  obtain ⟨n1, n2, n3, n4⟩ := newNode_spec hs (some i) (by simpa using hi)
  have main : ∀ j k, j < s.size → getitem (branch s i) j k = getitem s j k := by
    refine getitem_congr hs n1 (fun j => j < s.size) ?_ ?_ ?_
    · intro j hj; exact ⟨hj, by omega⟩
    · intro j k hj; rw [n3, if_neg (by omega)]
    · intro j k hj ih
      rw [n4, if_neg (by omega)]
      cases hq : s.parent j with
      | none => rfl
      | some q =>
        simp only [Option.bind_some]
        exact ih q (hs.closed _ _ hq).2 (Relation.TransGen.single hq)
  refine ⟨n1, fun k => ?_, main⟩
  have e : getitem (branch s i) s.size k = getitem (branch s i) i k := by
    show getitem (newNode s (some i)) s.size k = getitem (newNode s (some i)) i k
    rw [getitem_rec n1 (by omega), n3, if_pos rfl, n4, if_pos rfl]
    simp [Dict.get?]
  rw [e]; exact main i k hi

/-! ## histories -/

theorem foldl_wf {s : Forest K V} (hs : WF s) (node : Option Nat) (hn : ∀ n, node = some n → n < s.size)
    (l : List Nat) (hl : ∀ c ∈ l, c < s.size) :
    WF (l.foldl (fun t c => setParent t c node) s) ∧ (l.foldl (fun t c => setParent t c node) s).size = s.size := by
  induction l generalizing s with
  | nil => exact ⟨hs, rfl⟩
  | cons c l ih =>
    obtain ⟨h1, h2, _, _⟩ := setParent_spec hs (hl c (by simp)) hn
    obtain ⟨g1, g2⟩ := ih h1 (fun n e => by rw [h2]; exact hn n e) (fun c' hc' => by rw [h2]; exact hl c' (by simp [hc']))
    exact ⟨g1, by rw [List.foldl_cons, g2, h2]⟩

theorem remove_wf {s : Forest K V} (hs : WF s) {i : Nat} (hi : i < s.size) (b : Bool) :
    WF (remove s i b) ∧ s.size ≤ (remove s i b).size := by
  cases b with
  | false =>
    obtain ⟨h1, h2, _, _⟩ := setParent_spec hs hi (node := none) (by simp)
    exact ⟨h1, by simp only [remove]; rw [show (if false = true then _ else s) = s from rfl, h2]⟩
  | true =>
    have h0 : ∃ s0, WF s0 ∧ s.size ≤ s0.size ∧
        s0 = (if s.parent i = none then setParent (newNode s none) i (some s.size) else s) := by
      by_cases hp : s.parent i = none
      · obtain ⟨n1, n2, _, _⟩ := newNode_spec hs none (by simp)
        obtain ⟨h1, h2, _, _⟩ := setParent_spec n1 (i := i) (by omega) (node := some s.size)
          (by simp only [Option.some.injEq, forall_eq']; omega)
        exact ⟨_, h1, by omega, by rw [if_pos hp]⟩
      · exact ⟨s, hs, Nat.le_refl _, by rw [if_neg hp]⟩
    obtain ⟨s0, h1, h2, h3⟩ := h0
    have hpz : ∀ n, s0.parent i = some n → n < s0.size := fun n hn => (h1.closed _ _ hn).2
    obtain ⟨g1, g2⟩ := foldl_wf h1 (s0.parent i) hpz (s0.children i)
      (fun c hc => (h1.closed _ _ ((h1.links i c).mp hc)).1)
    obtain ⟨q1, q2, _, _⟩ := setParent_spec g1 (i := i) (by omega) (node := none) (by simp)
    have e : remove s i true = setParent ((s0.children i).foldl (fun t c => setParent t c (s0.parent i)) s0) i none := by
      simp only [remove, if_true, ← h3]
    rw [e]; exact ⟨q1, by omega⟩

theorem step_wf {s : Forest K V} (hs : WF s) (op : Op K V) : WF (step s op) := by
  unfold step
  split
  · rename_i hv
    cases op with
    | new p =>
      simp only [Op.valid, Option.all_eq_true, decide_eq_true_eq] at hv
      exact (newNode_spec hs p fun n e => hv n (by rw [e])).1
    | set i k v => exact (sameShape_setitem s i k v).wf hs
    | del i k => exact (foldl_delete k _ s).1.wf hs
    | delLocal i k => exact (sameShape_deleteLocal s k i).wf hs
    | updRec i d =>
      have a : ∀ (l : Dict K V) (t : Forest K V), WF t → WF (l.foldl (fun s p => setitem s i p.1 p.2) t) := by
        intro l
        induction l with
        | nil => intro t ht; exact ht
        | cons p l ih => intro t ht; exact ih _ ((sameShape_setitem t i p.1 p.2).wf ht)
      have b : ∀ (l : List K) (t : Forest K V), WF t → WF (l.foldl (fun s k => deleteChildren s i k) t) := by
        intro l
        induction l with
        | nil => intro t ht; exact ht
        | cons k l ih => intro t ht; exact ih _ ((foldl_delete k _ t).1.wf ht)
      exact b _ _ (a d s hs)
    | parent i p =>
      simp only [Op.valid, Bool.and_eq_true, decide_eq_true_eq, Option.all_eq_true] at hv
      exact (setParent_spec hs hv.1 fun n e => hv.2 n (by rw [e])).1
    | remove i b =>
      simp only [Op.valid, decide_eq_true_eq] at hv
      exact (remove_wf hs hv b).1
    | before i p b =>
      simp only [Op.valid, Bool.and_eq_true, decide_eq_true_eq, Option.all_eq_true] at hv
      simp only [insertBefore]
      split
      · exact hs
      · -- the state with the node to insert
        have h0 : ∃ s1 n, WF s1 ∧ s.size ≤ s1.size ∧ n < s1.size ∧
            withNode s p = (s1, n) := by
          cases p with
          | none =>
            obtain ⟨n1, n2, _, _⟩ := newNode_spec hs none (by simp)
            exact ⟨_, _, n1, by omega, by omega, rfl⟩
          | some n => exact ⟨s, n, hs, Nat.le_refl _, hv.2 n (by simp), rfl⟩
        obtain ⟨s1, n, h1, h2, h3, h4⟩ := h0
        simp only [h4]
        have h5 : ∃ s2, WF s2 ∧ s1.size ≤ s2.size ∧ s2 = (if b = true then remove s1 n else s1) := by
          cases b with
          | false => exact ⟨s1, h1, Nat.le_refl _, rfl⟩
          | true => exact ⟨_, (remove_wf h1 h3 true).1, (remove_wf h1 h3 true).2, rfl⟩
        obtain ⟨s2, g1, g2, g3⟩ := h5
        simp only [← g3]
        obtain ⟨q1, q2, _, _⟩ := setParent_spec g1 (i := i) (by omega) (node := some n)
          (by simp only [Option.some.injEq, forall_eq']; omega)
        split
        · exact (setParent_spec q1 (by omega) fun m hm => by
            have := (g1.closed _ _ hm).2; omega).1
        · exact q1
    | after i n b =>
      simp only [Op.valid, Bool.and_eq_true, decide_eq_true_eq] at hv
      simp only [insertAfter]
      split
      · exact hs
      · have h5 : ∃ s2, WF s2 ∧ s.size ≤ s2.size ∧ s2 = (if b = true then remove s n else s) := by
          cases b with
          | false => exact ⟨s, hs, Nat.le_refl _, rfl⟩
          | true => exact ⟨_, (remove_wf hs hv.2 true).1, (remove_wf hs hv.2 true).2, rfl⟩
        obtain ⟨s2, g1, g2, g3⟩ := h5
        simp only [← g3, Option.map_some, Option.getD_some]
        obtain ⟨q1, q2⟩ := foldl_wf g1 (some n) (by simp only [Option.some.injEq, forall_eq']; omega) (s2.children i)
          (fun c hc => (g1.closed _ _ ((g1.links i c).mp hc)).1)
        exact (setParent_spec q1 (by omega) (node := some i)
          (by simp only [Option.some.injEq, forall_eq']; omega)).1
  · exact hs

/-- **C17.**  Every history of creating, setting, resetting, moving, inserting and removing leaves a
forest: links both ways, no cycles.  So every loop over parents and children ends, and every read
returns the nearest definition (`getitem_nearest`). -/
theorem run_wf (ops : List (Op K V)) : WF (run ops) := by
  have gen : ∀ (l : List (Op K V)) (s : Forest K V), WF s → WF (l.foldl step s) := by
    intro l
    induction l with
    | nil => intro s hs; exact hs
    | cons op l ih => intro s hs; exact ih _ (step_wf hs op)
  exact gen ops _ wf_empty

/-- **C17.**  After any history. -/
theorem run_getitem (ops : List (Op K V)) (i : Nat) (hi : i < (run ops).size) (k : K) (v : V) :
    getitem (run ops) i k = some v ↔ Sees (run ops) i k v := getitem_nearest (run_wf ops) hi k v

/-- **C17 (deviation).**  "Own values win" fails when the value set equals the inherited one: it is
not stored, so a later change of the parent overrides it. -/
theorem equal_value_not_stored {s : Forest K V} (hs : WF s) {i p : Nat} (hp : s.parent i = some p) (k : K) (v w : V)
    (hl : Dict.get? (s.data i) k = none) (hv : getitem s p k = some v) :
    getitem (setitem (setitem s i k v) p k w) i k = some w := by
  have hi := (hs.closed _ _ hp).1
  have hpz := (hs.closed _ _ hp).2
  have h1 : getitem s i k = some v := by rw [getitem_rec hs hi, hl, hp]; simpa using hv
  have e : setitem s i k v = s := by simp [setitem, h1]
  rw [e]
  exact (setitem_inherited hs hpz k w i hi).1 (.up hl hp .here)

/-! ## concrete cases -/

/-- a root (0) with children 1 and 2, grandchild 3 of 1 -/
def demo : Forest Nat Nat :=
  run [.new none, .new (some 0), .new (some 0), .new (some 1), .set 0 7 100, .set 1 7 200, .set 2 8 300]

example : demo.size = 4 ∧ getitem demo 3 7 = some 200 ∧ getitem demo 2 7 = some 100 ∧ getitem demo 0 8 = none := by decide
example : getitem (deleteLocal demo 7 1) 3 7 = some 100 := by decide
example : getitem (updateRecursive demo 0 [(7, 5)]) 3 7 = some 5 := by decide
example : getitem (remove demo 1) 3 7 = some 100 ∧ (remove demo 1).parent 3 = some 0 := by decide
example : (insertBefore demo 1 none).2 = some 4 ∧ (insertBefore demo 1 none).1.parent 1 = some 4 := by decide
-- moving a node below its own grandchild
example : (setParent demo 0 (some 3)).parent 0 = some 3 ∧ (setParent demo 0 (some 3)).parent 3 = none ∧
    (setParent demo 0 (some 3)).parent 1 = some 0 := by decide
example : iterKeys demo 2 = [8, 7] := by decide
-- own value equal to the inherited one
example : getitem (setitem (setitem demo 2 7 100) 0 7 9) 2 7 = some 9 := by decide

end SC.ParamTree
