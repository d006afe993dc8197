import Verif.Factory.Lemmas2
/-! Families: ancestors, roots and resolution order (C39). -/
namespace SC.Factory
open SC.Py

theorem anc_le {s : St} (w : WF s.classes) {a k : Nat} (h : Anc s a k) : a ≤ k ∧ k < s.classes.length := by
  induction h with
  | refl h => exact ⟨Nat.le_refl _, h⟩
  | step h hb ih =>
    have := base_lt w hb
    obtain ⟨d, hd, -⟩ := hb
    have := declAt_lt hd
    exact ⟨by omega, this⟩

theorem base_iff {s : St} {b k : Nat} {c : Cls} (hc : s.classes[k]? = some c) : Base s b k ↔ b ∈ c.decl.bases := by
  simp only [Base, declAt, hc, Option.map_some, Option.some.injEq]
  constructor
  · rintro ⟨d, e, h⟩; exact e ▸ h
  · intro h; exact ⟨_, rfl, h⟩

theorem anc_iff {s : St} (w : WF s.classes) (a k : Nat) : Anc s a k ↔ a ∈ mroOf s.classes k := by
  constructor
  · intro h
    induction h with
    | refl h => exact mem_mro_self w h
    | step h hb ih =>
      rename_i b k
      have hb0 := hb
      obtain ⟨d, hd, -⟩ := hb
      obtain ⟨c, hc⟩ := getElem?_of_lt (declAt_lt hd)
      obtain ⟨l, e, hl⟩ := w.mro _ c hc
      rw [mroOf_some hc, e]
      exact List.mem_cons_of_mem _ ((hl _).mpr ⟨b, (base_iff hc).mp hb0, ih⟩)
  · induction k using Nat.strongRecOn with
    | ind k ih =>
      intro h
      cases hc : s.classes[k]? with
      | none => simp [mroOf, hc] at h
      | some c =>
        obtain ⟨l, e, hl⟩ := w.mro _ c hc
        rw [mroOf_some hc, e] at h
        rcases List.mem_cons.mp h with e | h
        · subst e
          exact .refl (List.getElem?_eq_some_iff.mp hc).1
        · obtain ⟨b, hb, hx⟩ := (hl _).mp h
          exact .step (ih b (w.bases k c hc b hb) hx) ((base_iff hc).mpr hb)

theorem isFactory_iff {s : St} (w : WF s.classes) {k : Nat} {c : Cls} (hc : s.classes[k]? = some c) :
    IsFactory s k ↔ c.decl.fac = true ∨ ∃ b ∈ c.decl.bases, IsFactory s b := by
  constructor
  · rintro ⟨a, d, ha, hd, hf⟩
    cases ha with
    | refl h =>
      simp only [declAt, hc, Option.map_some, Option.some.injEq] at hd
      exact Or.inl (hd ▸ hf)
    | step h hb => exact Or.inr ⟨_, (base_iff hc).mp hb, a, d, h, hd, hf⟩
  · rintro (h | ⟨b, hb, a, d, ha, hd, hf⟩)
    · exact ⟨k, c.decl, .refl (List.getElem?_eq_some_iff.mp hc).1, by simp [declAt, hc], h⟩
    · exact ⟨a, d, .step ha ((base_iff hc).mpr hb), hd, hf⟩

/-- The flags of the class table. -/
structure Flags (cs : List Cls) : Prop where
  fac : ∀ (k : Nat) (c : Cls), cs[k]? = some c → c.fac = (c.decl.fac || c.decl.bases.any (facAt cs))
  own : ∀ (k : Nat) (c : Cls), cs[k]? = some c → c.own = (c.fac && !(hasRegister cs c.mro.tail))

theorem any_congr' {p q : Nat → Bool} {l : List Nat} (h : ∀ x ∈ l, p x = q x) : l.any p = l.any q := by
  induction l with
  | nil => rfl
  | cons a l ih =>
    simp only [List.any_cons, h a (List.mem_cons_self ..)]
    rw [ih (fun x hx => h x (List.mem_cons_of_mem _ hx))]

theorem flags_snoc {cs : List Cls} (w : WF cs) (f : Flags cs) {d : Decl} {l : List Nat}
    (hl : linearize cs d.bases = some l) (hb : ∀ b ∈ d.bases, b < cs.length) : Flags (cs ++ [mkCls cs d l]) := by
  have hlt : ∀ x ∈ l, x < cs.length := by
    intro x hx
    rcases (linearize_mem hl x).mp hx with h | ⟨b, hb', h⟩
    · exact hb x h
    · exact w.mro_lt (hb b hb') x h
  refine ⟨?_, ?_⟩
  · intro k c hc
    by_cases h : k < cs.length
    · rw [getElem?_snoc h] at hc
      rw [f.fac k c hc]
      congr 1
      exact any_congr' (fun x hx => (facAt_snoc (by have := w.bases k c hc x hx; omega)).symm)
    · have hk : k = cs.length := by
        have := (List.getElem?_eq_some_iff.mp hc).1
        simp at this
        omega
      subst hk
      rw [snoc_last] at hc
      cases hc
      simp only [mkCls]
      congr 1
      exact any_congr' (fun x hx => (facAt_snoc (hb x hx)).symm)
  · intro k c hc
    by_cases h : k < cs.length
    · rw [getElem?_snoc h] at hc
      rw [f.own k c hc]
      congr 2
      refine any_congr' (fun x hx => (ownAt_snoc ?_).symm)
      have := w.mro_lt h x (by rw [mroOf_some hc]; exact List.mem_of_mem_tail hx)
      exact this
    · have hk : k = cs.length := by
        have := (List.getElem?_eq_some_iff.mp hc).1
        simp at this
        omega
      subst hk
      rw [snoc_last] at hc
      cases hc
      simp only [mkCls, List.tail_cons]
      congr 2
      exact any_congr' (fun x hx => (ownAt_snoc (hlt x hx)).symm)

theorem flags_run (lower : Str → Str) (h : List Decl) :
    WF (run lower init h).classes ∧ Flags (run lower init h).classes := by
  refine run_induct (P := fun s => WF s.classes ∧ Flags s.classes) ?_ h init ⟨wf_nil, by simp [init], by simp [init]⟩
  intro s t d i e
  obtain ⟨l, hl, hb, hc⟩ := define_classes e
  rw [hc]
  exact ⟨wf_snoc i.1 hl hb, flags_snoc i.1 i.2 hl hb⟩

theorem facAt_iff {s : St} (w : WF s.classes) (f : Flags s.classes) (k : Nat) :
    facAt s.classes k = true ↔ IsFactory s k := by
  induction k using Nat.strongRecOn with
  | ind k ih =>
    cases hc : s.classes[k]? with
    | none =>
      simp only [facAt, hc, Bool.false_eq_true, false_iff]
      rintro ⟨a, d, ha, -, -⟩
      have := (anc_le w ha).2
      rw [List.getElem?_eq_none_iff] at hc
      omega
    | some c =>
      rw [isFactory_iff w hc]
      simp only [facAt, hc, f.fac k c hc, Bool.or_eq_true, List.any_eq_true]
      constructor
      · rintro (h | ⟨b, hb, h⟩)
        · exact Or.inl h
        · exact Or.inr ⟨b, hb, (ih b (w.bases k c hc b hb)).mp h⟩
      · rintro (h | ⟨b, hb, h⟩)
        · exact Or.inl h
        · exact Or.inr ⟨b, hb, (ih b (w.bases k c hc b hb)).mpr h⟩

/-- A class with the metaclass sees registries, one without does not. -/
theorem hasRegister_iff {cs : List Cls} (w : WF cs) (f : Flags cs) (k : Nat) :
    hasRegister cs (mroOf cs k) = facAt cs k := by
  induction k using Nat.strongRecOn with
  | ind k ih =>
    cases hc : cs[k]? with
    | none => simp [hasRegister, mroOf, facAt, hc]
    | some c =>
      obtain ⟨l, e, hl⟩ := w.mro k c hc
      have hfac := f.fac k c hc
      have hown := f.own k c hc
      have hreg : hasRegister cs l = c.decl.bases.any (facAt cs) := by
        rw [Bool.eq_iff_iff]
        simp only [hasRegister, List.any_eq_true]
        constructor
        · rintro ⟨x, hx, ho⟩
          obtain ⟨b, hb, hx⟩ := (hl x).mp hx
          refine ⟨b, hb, ?_⟩
          rw [← ih b (w.bases k c hc b hb)]
          exact List.any_eq_true.mpr ⟨x, hx, ho⟩
        · rintro ⟨b, hb, hf⟩
          rw [← ih b (w.bases k c hc b hb)] at hf
          obtain ⟨x, hx, ho⟩ := List.any_eq_true.mp hf
          exact ⟨x, (hl x).mpr ⟨b, hb, hx⟩, ho⟩
      have e2 : mroOf cs k = k :: l := by rw [mroOf_some hc, e]
      have e3 : hasRegister cs (k :: l) = (ownAt cs k || hasRegister cs l) := by
        simp [hasRegister]
      have e4 : ownAt cs k = c.own := by simp [ownAt, hc]
      have e5 : facAt cs k = c.fac := by simp [facAt, hc]
      rw [e2, e3, e4, e5, hown, e, List.tail_cons, hreg, hfac]
      cases c.decl.fac <;> cases c.decl.bases.any (facAt cs) <;> rfl

/-- The classes with their own registries are the roots of families. -/
theorem ownAt_iff {s : St} (w : WF s.classes) (f : Flags s.classes) (k : Nat) :
    ownAt s.classes k = true ↔ IsRoot s k := by
  cases hc : s.classes[k]? with
  | none =>
    simp only [ownAt, hc, Bool.false_eq_true, false_iff]
    rintro ⟨⟨a, d, ha, -, -⟩, -⟩
    have := (anc_le w ha).2
    rw [List.getElem?_eq_none_iff] at hc
    omega
  | some c =>
    obtain ⟨l, e, hl⟩ := w.mro k c hc
    have e4 : ownAt s.classes k = c.own := by simp [ownAt, hc]
    have e5 : facAt s.classes k = c.fac := by simp [facAt, hc]
    rw [e4, f.own k c hc, e, List.tail_cons, ← e5, Bool.and_eq_true, facAt_iff w f, IsRoot, Bool.not_eq_true']
    have : hasRegister s.classes l = false ↔ ∀ b, Base s b k → ¬ IsFactory s b := by
      constructor
      · intro h b hb hf
        rw [← facAt_iff w f, ← hasRegister_iff w f] at hf
        obtain ⟨x, hx, ho⟩ := List.any_eq_true.mp hf
        have : hasRegister s.classes l = true :=
          List.any_eq_true.mpr ⟨x, (hl x).mpr ⟨b, (base_iff hc).mp hb, hx⟩, ho⟩
        rw [h] at this
        simp at this
      · intro h
        rw [Bool.eq_false_iff]
        intro ht
        obtain ⟨x, hx, ho⟩ := List.any_eq_true.mp ht
        obtain ⟨b, hb, hx⟩ := (hl x).mp hx
        refine h b ((base_iff hc).mpr hb) ?_
        rw [← facAt_iff w f, ← hasRegister_iff w f]
        exact List.any_eq_true.mpr ⟨x, hx, ho⟩
    rw [this]

theorem ownerOf_some {s : St} (w : WF s.classes) (f : Flags s.classes) (k : Nat) :
    (∃ r, ownerOf s.classes k = some r) ↔ IsFactory s k := by
  rw [← facAt_iff w f, ← hasRegister_iff w f, hasRegister, List.any_eq_true]
  constructor
  · rintro ⟨r, h⟩
    exact ⟨r, ownerOf_mem h⟩
  · rintro ⟨x, hx, ho⟩
    cases e : ownerOf s.classes k with
    | some r => exact ⟨r, rfl⟩
    | none =>
      have := List.find?_eq_none.mp e x hx
      exact absurd ho this

/-- With one base per class, the resolution order follows the bases. -/
theorem merge_single (l : List Nat) : ∀ (n : Nat) (x : Nat), (x :: l).Nodup → l.length + 2 ≤ n →
    merge n [x :: l, [x]] = some (x :: l) := by
  have key : ∀ (l : List Nat) (n : Nat), l.Nodup → l.length ≤ n → merge n [l, []] = some l := by
    intro l
    induction l with
    | nil =>
      intro n _ _
      cases n with
      | zero => rfl
      | succ n => simp [merge_succ]
    | cons y l ih =>
      intro n hn hl
      cases n with
      | zero => simp at hl
      | succ n =>
        rw [List.nodup_cons] at hn
        have hp : pick [y :: l, []] = some y := by
          simp [pick, inNoTail, hn.1]
        rw [merge_succ, hp]
        simp only [List.all_cons, List.isEmpty_cons, Bool.false_and, Bool.false_eq_true, if_false, List.map_cons,
          List.map_nil, dropHead, if_true]
        rw [ih n hn.2 (by simp at hl; omega)]
        rfl
  intro n x hn hl
  cases n with
  | zero => omega
  | succ n =>
    rw [List.nodup_cons] at hn
    have hp : pick [x :: l, [x]] = some x := by
      simp [pick, inNoTail, hn.1]
    rw [merge_succ, hp]
    simp only [List.all_cons, List.isEmpty_cons, Bool.false_and, Bool.false_eq_true, if_false, List.map_cons,
      List.map_nil, dropHead, if_true]
    rw [key l n hn.2 (by omega)]
    rfl

theorem linearize_nil (cs : List Cls) : linearize cs [] = some [] := rfl

theorem linearize_one {cs : List Cls} {b : Nat} {l : List Nat} (h : mroOf cs b = b :: l) (hn : (b :: l).Nodup) :
    linearize cs [b] = some (b :: l) := by
  simp only [linearize, List.map_cons, List.map_nil, List.sum_cons, List.sum_nil, h, List.length_cons, List.length_nil,
    List.cons_append, List.nil_append]
  exact merge_single l _ b hn (by omega)

/-- Resolution orders of classes with at most one base. -/
structure Single (cs : List Cls) : Prop where
  nodup : ∀ (k : Nat) (c : Cls), cs[k]? = some c → c.mro.Nodup
  one : ∀ (k : Nat) (c : Cls), cs[k]? = some c → c.decl.bases = [] ∧ c.mro = [k] ∨
    ∃ b, c.decl.bases = [b] ∧ c.mro = k :: mroOf cs b

theorem single_snoc {cs : List Cls} (w : WF cs) (f : Single cs) {d : Decl} {l : List Nat}
    (hl : linearize cs d.bases = some l) (hb : ∀ b ∈ d.bases, b < cs.length) (hd : d.bases.length ≤ 1) :
    Single (cs ++ [mkCls cs d l]) := by
  have hcase : d.bases = [] ∧ l = [] ∨ ∃ b, d.bases = [b] ∧ l = mroOf cs b ∧ b < cs.length := by
    rcases hbs : d.bases with _ | ⟨b, _ | ⟨b', q⟩⟩
    · rw [hbs, linearize_nil] at hl
      cases hl
      exact Or.inl ⟨rfl, rfl⟩
    · have hlt := hb b (by simp [hbs])
      obtain ⟨c, hc⟩ := getElem?_of_lt hlt
      obtain ⟨m, e, -⟩ := w.mro b c hc
      have hn := f.nodup b c hc
      rw [hbs, linearize_one (by rw [mroOf_some hc, e]) (e ▸ hn)] at hl
      cases hl
      exact Or.inr ⟨b, rfl, by rw [mroOf_some hc, e], hlt⟩
    · simp [hbs] at hd
  refine ⟨?_, ?_⟩
  · intro k c hc
    by_cases h : k < cs.length
    · rw [getElem?_snoc h] at hc
      exact f.nodup k c hc
    · have hk : k = cs.length := by
        have := (List.getElem?_eq_some_iff.mp hc).1
        simp at this
        omega
      subst hk
      rw [snoc_last] at hc
      cases hc
      simp only [mkCls]
      rcases hcase with ⟨-, e⟩ | ⟨b, -, e, hlt⟩
      · rw [e]; simp
      · obtain ⟨c, hc⟩ := getElem?_of_lt hlt
        rw [List.nodup_cons]
        refine ⟨?_, by rw [e, mroOf_some hc]; exact f.nodup b c hc⟩
        intro hm
        rw [e] at hm
        have := w.mro_lt hlt _ hm
        omega
  · intro k c hc
    by_cases h : k < cs.length
    · rw [getElem?_snoc h] at hc
      rcases f.one k c hc with h1 | ⟨b, h1, h2⟩
      · exact Or.inl h1
      · have := w.bases k c hc b (by simp [h1])
        exact Or.inr ⟨b, h1, by rw [mroOf_snoc (by omega)]; exact h2⟩
    · have hk : k = cs.length := by
        have := (List.getElem?_eq_some_iff.mp hc).1
        simp at this
        omega
      subst hk
      rw [snoc_last] at hc
      cases hc
      simp only [mkCls]
      rcases hcase with ⟨h1, e⟩ | ⟨b, h1, e, hlt⟩
      · exact Or.inl ⟨h1, by rw [e]⟩
      · exact Or.inr ⟨b, h1, by rw [e, mroOf_snoc hlt]⟩

theorem single_run_aux (lower : Str → Str) : ∀ (h : List Decl) (s : St), SingleInheritance h →
    WF s.classes → Single s.classes → Single (run lower s h).classes := by
  intro h
  induction h with
  | nil => intro s _ _ hs; exact hs
  | cons d h ih =>
    intro s hd w hs
    rw [run_cons]
    have hd' : SingleInheritance h := fun x hx => hd x (List.mem_cons_of_mem _ hx)
    cases e : define lower s d with
    | none => exact ih s hd' w hs
    | some t =>
      obtain ⟨l, hl, hb, hc⟩ := define_classes e
      refine ih t hd' ?_ ?_
      · rw [hc]; exact wf_snoc w hl hb
      · rw [hc]; exact single_snoc w hs hl hb (hd d (List.mem_cons_self ..))

theorem single_run (lower : Str → Str) {h : List Decl} (hs : SingleInheritance h) :
    Single (run lower init h).classes :=
  single_run_aux lower h init hs wf_nil ⟨by simp [init], by simp [init]⟩

end SC.Factory
