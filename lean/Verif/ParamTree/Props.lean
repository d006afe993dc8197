import Verif.ParamTree.Lemmas
import Verif.ListTools.Props
/-! # C17: inheritance of parameters -/
namespace SC.ParamTree
open SC.Py

variable {K V : Type} [DecidableEq K] [DecidableEq V]
set_option linter.unusedSectionVars false

/-! ## reading -/

theorem findSome_sees {s : Forest K V} {i : Nat} {l : List Nat} (h : Chain s i l) (k : K) (v : V) :
    l.findSome? (fun j => Dict.get? (s.data j) k) = some v ↔ Sees s i k v := by
  induction h with
  | @root i h =>
    simp only [List.findSome?_cons, List.findSome?_nil]
    constructor
    · intro hv; cases hd : Dict.get? (s.data i) k with
      | none => rw [hd] at hv; simp at hv
      | some w => rw [hd] at hv; simp only [Option.some.injEq] at hv; subst hv; exact .own hd
    · intro hv
      cases hv with
      | own hd => rw [hd]
      | inherited _ hp _ => rw [h] at hp; simp at hp
  | @step i p l h _ ih =>
    simp only [List.findSome?_cons]
    cases hd : Dict.get? (s.data i) k with
    | none =>
      simp only [ih]
      constructor
      · intro hv; exact .inherited hd h hv
      · intro hv
        cases hv with
        | own hd' => rw [hd] at hd'; simp at hd'
        | inherited _ hp hv => rw [h] at hp; simp only [Option.some.injEq] at hp; subst hp; exact hv
    | some w =>
      constructor
      · intro hv; simp only [Option.some.injEq] at hv; subst hv; exact .own hd
      · intro hv
        cases hv with
        | own hd' => rw [hd] at hd'; exact hd'
        | inherited hd' _ _ => rw [hd] at hd'; simp at hd'

/-- **C17.**  Reading a parameter gives the value of the nearest node, itself or an ancestor, that
defines it. -/
theorem getitem_nearest {s : Forest K V} (hs : WF s) {i : Nat} (hi : i < s.size) (k : K) (v : V) :
    getitem s i k = some v ↔ Sees s i k v := findSome_sees (iterUp_chain hs hi) k v

/-- Reading, as a recursion over the parents. -/
theorem getitem_rec {s : Forest K V} (hs : WF s) {i : Nat} (hi : i < s.size) (k : K) :
    getitem s i k = (Dict.get? (s.data i) k).or ((s.parent i).bind fun p => getitem s p k) := by
  obtain ⟨l, hl⟩ := Chain.exists hs i
  have e : iterUp s i = l := (iterUp_chain hs hi).unique hl
  cases hl with
  | root h => simp only [getitem, e, h, List.findSome?_cons, List.findSome?_nil, Option.bind_none]
              cases Dict.get? (s.data i) k <;> rfl
  | step h hc =>
    have hp := (hs.closed _ _ h).2
    have e2 := (iterUp_chain hs hp).unique hc
    simp only [getitem, e, h, List.findSome?_cons, Option.bind_some, e2]
    cases Dict.get? (s.data i) k <;> rfl

/-- **C17.**  Membership and iteration agree with reading: exactly the readable keys, each once. -/
theorem keys_spec {s : Forest K V} (hs : WF s) {i : Nat} (hi : i < s.size) :
    (∀ k, contains s i k = (getitem s i k).isSome) ∧
    (iterKeys s i).Nodup ∧ ∀ k, k ∈ iterKeys s i ↔ (getitem s i k).isSome := by
  have key : ∀ k, (getitem s i k).isSome ↔ ∃ j ∈ iterUp s i, k ∈ Dict.keys (s.data j) := by
    intro k
    simp only [getitem, List.findSome?_isSome_iff, Dict.get?_isSome]
  have u := ListTools.uniqueEverseen_nodup (id : K → K) ((iterUp s i).flatMap fun j => Dict.keys (s.data j))
  rw [List.map_id] at u
  refine ⟨?_, u.1, ?_⟩
  · intro k
    rw [Bool.eq_iff_iff, key]
    simp [contains]
  · intro k
    rw [key]
    have := u.2.1 k
    rw [List.map_id, List.mem_flatMap] at this
    exact this

/-! ## writing -/

/-- States with the same structure. -/
structure SameShape (s t : Forest K V) : Prop where
  size : t.size = s.size
  parent : ∀ j, t.parent j = s.parent j
  children : ∀ j, t.children j = s.children j

theorem SameShape.refl (s : Forest K V) : SameShape s s := ⟨rfl, fun _ => rfl, fun _ => rfl⟩
theorem SameShape.trans {s t u : Forest K V} (h : SameShape s t) (h' : SameShape t u) : SameShape s u :=
  ⟨by rw [h'.size, h.size], fun j => by rw [h'.parent, h.parent], fun j => by rw [h'.children, h.children]⟩

theorem SameShape.wf {s t : Forest K V} (h : SameShape s t) (hs : WF s) : WF t := by
  refine ⟨?_, ?_, ?_, ?_⟩
  · intro i p hp; rw [h.parent] at hp; rw [h.size]; exact hs.closed i p hp
  · intro p c; rw [h.parent, h.children]; exact hs.links p c
  · intro p; rw [h.children]; exact hs.nodup p
  · have : IsParent t = IsParent s := by funext p c; simp only [IsParent, h.parent]
    rw [this]; exact hs.acyclic

theorem SameShape.below {s t : Forest K V} (h : SameShape s t) (i j : Nat) : Below t i j ↔ Below s i j := by
  have : IsParent t = IsParent s := by funext p c; simp only [IsParent, h.parent]
  simp only [Below, this]

theorem sameShape_data (s : Forest K V) (i : Nat) (f : Dict K V → Dict K V) :
    SameShape s (s.upd i fun r => { r with data := f r.data }) := by
  refine ⟨rfl, fun j => ?_, fun j => ?_⟩
  · rw [parent_upd]; split
    · rename_i e; subst e; rfl
    · rfl
  · rw [children_upd]; split
    · rename_i e; subst e; rfl
    · rfl

theorem sameShape_setitem (s : Forest K V) (i : Nat) (k : K) (v : V) : SameShape s (setitem s i k v) := by
  unfold setitem; split
  · exact .refl s
  · exact sameShape_data s i (fun d => Dict.set d k v)

/-- **C17.**  After `node[k] = v` the node reads `v`; keys other than `k` are unaffected
everywhere. -/
theorem setitem_get {s : Forest K V} (hs : WF s) {i : Nat} (hi : i < s.size) (k : K) (v : V) :
    getitem (setitem s i k v) i k = some v ∧
    ∀ j < s.size, ∀ k', k' ≠ k → getitem (setitem s i k v) j k' = getitem s j k' := by
  have sh := sameShape_setitem s i k v
  have hw := sh.wf hs
  by_cases h : getitem s i k = some v
  · have : setitem s i k v = s := by simp [setitem, h]
    rw [this]; exact ⟨h, fun _ _ _ _ => rfl⟩
  · have e : setitem s i k v = s.upd i fun r => { r with data := Dict.set r.data k v } := by simp [setitem, h]
    have hd : ∀ j, (setitem s i k v).data j = if j = i then Dict.set (s.data i) k v else s.data j := by
      intro j; rw [e, data_upd]; rfl
    constructor
    · rw [getitem_rec hw (by rw [sh.size]; exact hi), hd]
      simp [Dict.get?_set]
    · intro j
      induction j using hs.acyclic.induction with
      | _ j ih =>
        intro hj k' hk
        rw [getitem_rec hw (by rw [sh.size]; exact hj), getitem_rec hs hj, hd, sh.parent]
        have e1 : Dict.get? (if j = i then Dict.set (s.data i) k v else s.data j) k' = Dict.get? (s.data j) k' := by
          split
          · rename_i e; subst e; rw [Dict.get?_set, if_neg (Ne.symm hk)]
          · rfl
        rw [e1]
        congr 1
        cases hp : s.parent j with
        | none => rfl
        | some p => simp only [Option.bind_some]; exact ih p hp (hs.closed _ _ hp).2 k' hk

/-- **C17.**  Setting a value on a node changes nothing for nodes that are not below it: ancestors,
siblings, other trees. -/
theorem setitem_local {s : Forest K V} (hs : WF s) {i : Nat} (k : K) (v : V) (j : Nat)
    (hj : j < s.size) (hb : ¬ Below s j i) (k' : K) : getitem (setitem s i k v) j k' = getitem s j k' := by
  have sh := sameShape_setitem s i k v
  have hw := sh.wf hs
  by_cases h : getitem s i k = some v
  · have : setitem s i k v = s := by simp [setitem, h]
    rw [this]
  · have e : setitem s i k v = s.upd i fun r => { r with data := Dict.set r.data k v } := by simp [setitem, h]
    have hd : ∀ j, (setitem s i k v).data j = if j = i then Dict.set (s.data i) k v else s.data j := by
      intro j; rw [e, data_upd]; rfl
    induction j using hs.acyclic.induction with
    | _ j ih =>
      have hji : j ≠ i := fun e => hb (e ▸ Relation.ReflTransGen.refl)
      rw [getitem_rec hw (by rw [sh.size]; exact hj), getitem_rec hs hj, hd, sh.parent, if_neg hji]
      congr 1
      cases hp : s.parent j with
      | none => rfl
      | some p =>
        simp only [Option.bind_some]
        exact ih p hp (hs.closed _ _ hp).2 fun hb' => hb (Relation.ReflTransGen.head hp hb')

/-- `i` is the first node upwards from `j` at which a definition of `k` counts: no node on the way
(`i` excluded) defines it. -/
inductive Exposed (s : Forest K V) (k : K) (i : Nat) : Nat → Prop
  | here : Exposed s k i i
  | up {j p} : Dict.get? (s.data j) k = none → s.parent j = some p → Exposed s k i p → Exposed s k i j

/-- **C17.**  Nodes below that do not define the key in between inherit the new value; the others
keep what they see. -/
theorem setitem_inherited {s : Forest K V} (hs : WF s) {i : Nat} (hi : i < s.size) (k : K) (v : V) (j : Nat)
    (hj : j < s.size) :
    (Exposed s k i j → getitem (setitem s i k v) j k = some v) ∧
    (¬ Exposed s k i j → getitem (setitem s i k v) j k = getitem s j k) := by
  have sh := sameShape_setitem s i k v
  have hw := sh.wf hs
  by_cases h : getitem s i k = some v
  · have : setitem s i k v = s := by simp [setitem, h]
    rw [this]
    refine ⟨fun he => ?_, fun _ => rfl⟩
    induction he with
    | here => exact h
    | @up j p h1 h2 _ ih =>
      rw [getitem_rec hs hj, h1, h2]
      simpa using ih (hs.closed _ _ h2).2
  · have e : setitem s i k v = s.upd i fun r => { r with data := Dict.set r.data k v } := by simp [setitem, h]
    have hd : ∀ j, (setitem s i k v).data j = if j = i then Dict.set (s.data i) k v else s.data j := by
      intro j; rw [e, data_upd]; rfl
    constructor
    · intro he
      induction he with
      | here => exact (setitem_get hs hi k v).1
      | @up j p h1 h2 _ ih =>
        by_cases hji : j = i
        · rw [hji]; exact (setitem_get hs hi k v).1
        · rw [getitem_rec hw (by rw [sh.size]; exact hj), hd, if_neg hji, h1, sh.parent, h2]
          simpa using ih (hs.closed _ _ h2).2
    · intro he
      induction j using hs.acyclic.induction with
      | _ j ih =>
        have hji : j ≠ i := fun e => he (e ▸ .here)
        rw [getitem_rec hw (by rw [sh.size]; exact hj), getitem_rec hs hj, hd, sh.parent, if_neg hji]
        cases hd1 : Dict.get? (s.data j) k with
        | some w => rfl
        | none =>
          simp only [Option.none_or]
          cases hp : s.parent j with
          | none => rfl
          | some p =>
            simp only [Option.bind_some]
            exact ih p hp (hs.closed _ _ hp).2 fun he' => he (.up hd1 hp he')

/-! ## resetting -/

theorem sameShape_deleteLocal (s : Forest K V) (k : K) (i : Nat) : SameShape s (deleteLocal s k i) :=
  sameShape_data s i (fun d => Dict.del d k)

theorem data_deleteLocal (s : Forest K V) (k : K) (i j : Nat) :
    (deleteLocal s k i).data j = if j = i then Dict.del (s.data i) k else s.data j := by
  rw [deleteLocal, data_upd]; rfl

theorem foldl_delete (k : K) (l : List Nat) (s : Forest K V) :
    SameShape s (l.foldl (fun s j => deleteLocal s k j) s) ∧
    ∀ j k', Dict.get? ((l.foldl (fun s j => deleteLocal s k j) s).data j) k' =
      if j ∈ l ∧ k = k' then none else Dict.get? (s.data j) k' := by
  induction l generalizing s with
  | nil => exact ⟨.refl s, fun j k' => by simp⟩
  | cons a l ih =>
    obtain ⟨h1, h2⟩ := ih (deleteLocal s k a)
    refine ⟨(sameShape_deleteLocal s k a).trans h1, fun j k' => ?_⟩
    rw [List.foldl_cons, h2, data_deleteLocal]
    by_cases hja : j = a
    · subst hja
      simp only [if_true, List.mem_cons, true_or, true_and, Dict.get?_del]
      by_cases hk : k = k' <;> simp [hk]
    · simp [hja]

/-- **C17.**  Resetting a key locally restores the inherited value. -/
theorem deleteLocal_restores {s : Forest K V} (hs : WF s) {i : Nat} (hi : i < s.size) (k : K) :
    getitem (deleteLocal s k i) i k = (s.parent i).bind fun p => getitem s p k := by
  have sh := sameShape_deleteLocal s k i
  have hw := sh.wf hs
  rw [getitem_rec hw (by rw [sh.size]; exact hi), data_deleteLocal, if_pos rfl, Dict.get?_del, if_pos rfl,
    sh.parent, Option.none_or]
  cases hp : s.parent i with
  | none => rfl
  | some p =>
    simp only [Option.bind_some]
    -- the parent is not below `i`
    have key : ∀ j, j < s.size → ¬ Below s j i → getitem (deleteLocal s k i) j k = getitem s j k := by
      intro j
      induction j using hs.acyclic.induction with
      | _ j ih =>
        intro hj hb
        have hji : j ≠ i := fun e => hb (e ▸ Relation.ReflTransGen.refl)
        rw [getitem_rec hw (by rw [sh.size]; exact hj), getitem_rec hs hj, data_deleteLocal, if_neg hji, sh.parent]
        congr 1
        cases hq : s.parent j with
        | none => rfl
        | some q =>
          simp only [Option.bind_some]
          exact ih q hq (hs.closed _ _ hq).2 fun hb' => hb (Relation.ReflTransGen.head hq hb')
    exact key p (hs.closed _ _ hp).2 (below_antisymm hs hp)

/-- General effect of deleting key `k` on a set of nodes. -/
theorem foldl_delete_get {s : Forest K V} (hs : WF s) (k : K) (l : List Nat) (t : Forest K V)
    (ht : t = l.foldl (fun s j => deleteLocal s k j) s) :
    (∀ j < s.size, (∀ a, Below s j a → a ∉ l) → ∀ k', getitem t j k' = getitem s j k') ∧
    (∀ j < s.size, ∀ k', k' ≠ k → getitem t j k' = getitem s j k') ∧
    (∀ j < s.size, j ∈ l → getitem t j k = (s.parent j).bind fun p => getitem t p k) := by
  obtain ⟨sh, hd⟩ := foldl_delete k l s
  rw [← ht] at sh hd
  have hw := sh.wf hs
  refine ⟨?_, ?_, ?_⟩
  · intro j
    induction j using hs.acyclic.induction with
    | _ j ih =>
      intro hj hb k'
      rw [getitem_rec hw (by rw [sh.size]; exact hj), getitem_rec hs hj, hd, sh.parent,
        if_neg (fun h => hb j Relation.ReflTransGen.refl h.1)]
      congr 1
      cases hq : s.parent j with
      | none => rfl
      | some q =>
        simp only [Option.bind_some]
        exact ih q hq (hs.closed _ _ hq).2 (fun a ha => hb a (Relation.ReflTransGen.head hq ha)) k'
  · intro j
    induction j using hs.acyclic.induction with
    | _ j ih =>
      intro hj k' hk
      rw [getitem_rec hw (by rw [sh.size]; exact hj), getitem_rec hs hj, hd, sh.parent,
        if_neg (fun h => hk h.2.symm)]
      congr 1
      cases hq : s.parent j with
      | none => rfl
      | some q =>
        simp only [Option.bind_some]
        exact ih q hq (hs.closed _ _ hq).2 k' hk
  · intro j hj hl
    rw [getitem_rec hw (by rw [sh.size]; exact hj), hd, if_pos ⟨hl, rfl⟩, sh.parent, Option.none_or]

/-- **C17.**  `del node[k]` makes the node and everything below it see the value inherited from the
node's parent; other nodes and other keys are unaffected. -/
theorem delitem_spec {s : Forest K V} (hs : WF s) {i : Nat} (hi : i < s.size) (k : K) :
    (∀ j, Below s j i → getitem (delitem s i k) j k = (s.parent i).bind fun p => getitem s p k) ∧
    (∀ j < s.size, ¬ Below s j i → ∀ k', getitem (delitem s i k) j k' = getitem s j k') ∧
    (∀ j < s.size, ∀ k', k' ≠ k → getitem (delitem s i k) j k' = getitem s j k') := by
  obtain ⟨h1, h2, h3⟩ := foldl_delete_get hs k (iterDown s i) (delitem s i k) rfl
  have out : ∀ j < s.size, ¬ Below s j i → ∀ k', getitem (delitem s i k) j k' = getitem s j k' := by
    intro j hj hb
    exact h1 j hj fun a ha hm => hb (Relation.ReflTransGen.trans ha ((mem_iterDown hs i a hi).mp hm))
  refine ⟨?_, out, h2⟩
  intro j
  induction j using hs.acyclic.induction with
  | _ j ih =>
    intro hb
    rw [h3 j (down_lt hs hi hb) ((mem_iterDown hs i j hi).mpr hb)]
    rcases Relation.ReflTransGen.cases_head hb with e | ⟨c, hc, h4⟩
    · subst e
      cases hp : s.parent j with
      | none => rfl
      | some p =>
        simp only [Option.bind_some]
        exact out p (hs.closed _ _ hp).2 (below_antisymm hs hp) k
    · simp only [IsParent] at hc
      rw [hc]
      simp only [Option.bind_some]
      exact ih c hc h4

theorem mem_iterDown_tail {s : Forest K V} (hs : WF s) {i : Nat} (hi : i < s.size) (j : Nat) :
    j ∈ (iterDown s i).tail ↔ Below s j i ∧ j ≠ i := by
  have hm := mem_iterDown hs i j hi
  have hz : s.size = (s.size - 1) + 1 := by omega
  have hc : iterDown s i = i :: (s.children i).flatMap (down s (s.size - 1)) := by
    rw [iterDown, hz]; rfl
  rw [hc] at hm ⊢
  simp only [List.tail_cons]
  have hni : i ∉ (s.children i).flatMap (down s (s.size - 1)) := by
    intro hi'
    rw [List.mem_flatMap] at hi'
    obtain ⟨c, h1, h2⟩ := hi'
    obtain ⟨n, _, hn⟩ := (mem_down hs _ _ _).mp h2
    exact below_antisymm hs ((hs.links i c).mp h1) (belowN_below hn)
  constructor
  · intro h
    exact ⟨hm.mp (List.mem_cons_of_mem _ h), fun e => hni (e ▸ h)⟩
  · rintro ⟨h1, h2⟩
    rcases List.mem_cons.mp (hm.mpr h1) with e | h
    · exact absurd e h2
    · exact h

/-- **C17.**  `update_recursive` with one item makes the node and everything below it see the
value; other nodes and other keys are unaffected. -/
theorem updateRecursive_single {s : Forest K V} (hs : WF s) {i : Nat} (hi : i < s.size) (k : K) (v : V) :
    (∀ j, Below s j i → getitem (updateRecursive s i [(k, v)]) j k = some v) ∧
    (∀ j < s.size, ¬ Below s j i → ∀ k', getitem (updateRecursive s i [(k, v)]) j k' = getitem s j k') ∧
    (∀ j < s.size, ∀ k', k' ≠ k → getitem (updateRecursive s i [(k, v)]) j k' = getitem s j k') := by
  have sh := sameShape_setitem s i k v
  have hw := sh.wf hs
  have hi' : i < (setitem s i k v).size := by rw [sh.size]; exact hi
  have e : updateRecursive s i [(k, v)] = deleteChildren (setitem s i k v) i k := rfl
  obtain ⟨h1, h2, h3⟩ := foldl_delete_get hw k (iterDown (setitem s i k v) i).tail
    (deleteChildren (setitem s i k v) i k) rfl
  have hti := mem_iterDown_tail hw hi'
  rw [e]
  refine ⟨?_, ?_, ?_⟩
  · intro j
    induction j using hs.acyclic.induction with
    | _ j ih =>
      intro hb
      have hj := down_lt hs hi hb
      by_cases hji : j = i
      · subst hji
        rw [h1 j hi' fun a ha hm => ?_]
        · exact (setitem_get hs hi k v).1
        · obtain ⟨h4, h5⟩ := (hti a).mp hm
          rcases Relation.ReflTransGen.cases_head ha with e | ⟨c, hc, h6⟩
          · exact h5 e.symm
          · exact below_antisymm hw hc (Relation.ReflTransGen.trans h6 h4)
      · rw [h3 j (by rw [sh.size]; exact hj) ((hti j).mpr ⟨(sh.below j i).mpr hb, hji⟩), sh.parent]
        rcases Relation.ReflTransGen.cases_head hb with e | ⟨c, hc, h4⟩
        · exact absurd e hji
        · simp only [IsParent] at hc
          rw [hc]
          simp only [Option.bind_some]
          exact ih c hc h4
  · intro j hj hb k'
    rw [h1 j (by rw [sh.size]; exact hj) fun a ha hm => ?_]
    · exact setitem_local hs k v j hj hb k'
    · obtain ⟨h4, _⟩ := (hti a).mp hm
      exact hb ((sh.below j i).mp (Relation.ReflTransGen.trans ha h4))
  · intro j hj k' hk
    rw [h2 j (by rw [sh.size]; exact hj) k' hk]
    exact (setitem_get hs hi k v).2 j hj k' hk

end SC.ParamTree
