import Verif.Factory.Lemmas
/-! The invariant of C39. -/
namespace SC.Factory
open SC.Py

/-- The entries of `aliasregistry` for a class. -/
def Alted (lower : Str → Str) (s : St) (r : Nat) (n : Str) (k : Nat) : Prop :=
  Member s r k ∧ ∃ d, declAt s k = some d ∧ Alt lower (aliasesOf s.classes k) d.name n

/-- The registries hold what has been registered last. -/
structure Inv (lower : Str → Str) (s : St) : Prop where
  wf : WF s.classes
  names : ∀ r n k, Dict.get? (s.regs r).names n = some k ↔ IsLast (Named s r n) s.classes.length k
  aliases : ∀ r n k, Dict.get? (s.regs r).aliases n = some k ↔ IsLast (Alted lower s r n) s.classes.length k

theorem inv_init (lower : Str → Str) : Inv lower init := by
  refine ⟨wf_nil, ?_, ?_⟩ <;>
  · intro r n k
    simp [init, Dict.get?, IsLast]

/-- The table of the classes in `define`. -/
def ext (s : St) (c : Cls) (regs : Nat → Reg) : St := ⟨s.classes ++ [c], regs⟩

theorem declAt_ext {s : St} {c : Cls} {regs : Nat → Reg} {k : Nat} (h : k < s.classes.length) :
    declAt (ext s c regs) k = declAt s k := by
  simp only [declAt, ext, getElem?_snoc h]

theorem declAt_ext_last (s : St) (c : Cls) (regs : Nat → Reg) :
    declAt (ext s c regs) s.classes.length = some c.decl := by
  simp only [declAt, ext, snoc_last, Option.map_some]

theorem declAt_lt {s : St} {k : Nat} {d : Decl} (h : declAt s k = some d) : k < s.classes.length := by
  simp only [declAt] at h
  cases hc : s.classes[k]? with
  | none => simp [hc] at h
  | some c => exact (List.getElem?_eq_some_iff.mp hc).1

theorem base_lt {s : St} (w : WF s.classes) {b k : Nat} (h : Base s b k) : b < k := by
  obtain ⟨d, hd, hb⟩ := h
  simp only [declAt] at hd
  cases hc : s.classes[k]? with
  | none => simp [hc] at hd
  | some c =>
    simp only [hc, Option.map_some, Option.some.injEq] at hd
    subst hd
    exact w.bases k c hc b hb

theorem base_ext {s : St} {c : Cls} {regs : Nat → Reg} {b k : Nat} (h : k < s.classes.length) :
    Base (ext s c regs) b k ↔ Base s b k := by
  simp only [Base, declAt_ext h]

theorem member_ext {s : St} (w : WF s.classes) {c : Cls} {regs : Nat → Reg} {r k : Nat} (h : k < s.classes.length) :
    Member (ext s c regs) r k ↔ Member s r k := by
  simp only [Member, base_ext h]
  have e1 : facAt (ext s c regs).classes k = facAt s.classes k := facAt_snoc h
  have e2 : ownerOf (ext s c regs).classes k = ownerOf s.classes k := ownerOf_snoc w c h
  rw [e1, e2]
  constructor
  · rintro ⟨hf, ho | ⟨b, hb, ho⟩⟩
    · exact ⟨hf, Or.inl ho⟩
    · have := base_lt w hb
      have e3 : ownerOf (ext s c regs).classes b = ownerOf s.classes b := ownerOf_snoc w c (by omega)
      exact ⟨hf, Or.inr ⟨b, hb, e3 ▸ ho⟩⟩
  · rintro ⟨hf, ho | ⟨b, hb, ho⟩⟩
    · exact ⟨hf, Or.inl ho⟩
    · have := base_lt w hb
      have e3 : ownerOf (ext s c regs).classes b = ownerOf s.classes b := ownerOf_snoc w c (by omega)
      exact ⟨hf, Or.inr ⟨b, hb, e3.trans ho⟩⟩

theorem named_ext {s : St} (w : WF s.classes) {c : Cls} {regs : Nat → Reg} {r k : Nat} {n : Str}
    (h : k < s.classes.length) : Named (ext s c regs) r n k ↔ Named s r n k := by
  simp only [Named, member_ext w h, declAt_ext h]

theorem alted_ext {lower : Str → Str} {s : St} (w : WF s.classes) {c : Cls} {regs : Nat → Reg} {r k : Nat} {n : Str}
    (h : k < s.classes.length) : Alted lower (ext s c regs) r n k ↔ Alted lower s r n k := by
  have e : aliasesOf (ext s c regs).classes k = aliasesOf s.classes k := aliasesOf_snoc w c h
  simp only [Alted, member_ext w h, declAt_ext h, e]

theorem ownerOf_mem {cs : List Cls} {k r : Nat} (h : ownerOf cs k = some r) : r ∈ mroOf cs k ∧ ownAt cs r = true :=
  ⟨List.mem_of_find?_eq_some h, by simpa using List.find?_some h⟩

theorem ownAt_lt {cs : List Cls} {k : Nat} (h : ownAt cs k = true) : k < cs.length := by
  simp only [ownAt] at h
  cases hc : cs[k]? with
  | none => simp [hc] at h
  | some c => exact (List.getElem?_eq_some_iff.mp hc).1

theorem member_lt {s : St} {r k : Nat} (h : Member s r k) : r < s.classes.length := by
  rcases h.2 with h | ⟨b, -, h⟩
  · exact ownAt_lt (ownerOf_mem h).2
  · exact ownAt_lt (ownerOf_mem h).2

/-- What a successful class statement does. -/
theorem define_some {lower : Str → Str} {s t : St} {d : Decl} (h : define lower s d = some t) :
    (∀ b ∈ d.bases, b < s.classes.length) ∧ ∃ l, linearize s.classes d.bases = some l ∧
      t = (let c := mkCls s.classes d l
           let s1 : St := ext s c (if c.own then setReg s.regs s.classes.length ⟨[], []⟩ else s.regs)
           if c.fac then initCls lower s1 s.classes.length d.name d.bases else s1) := by
  simp only [define] at h
  split at h
  · rename_i hb
    split at h
    · simp at h
    · rename_i l hl
      simp only [Option.some.injEq] at h
      exact ⟨fun b hb' => of_decide_eq_true (List.all_eq_true.mp hb b hb'), l, hl, h.symm⟩
  · simp at h

theorem initCls_classes (lower : Str → Str) (s : St) (k : Nat) (name : Str) (bases : List Nat) :
    (initCls lower s k name bases).classes = s.classes := by
  rw [initCls_eq, foldl_register_classes]

theorem define_classes {lower : Str → Str} {s t : St} {d : Decl} (h : define lower s d = some t) :
    ∃ l, linearize s.classes d.bases = some l ∧ (∀ b ∈ d.bases, b < s.classes.length) ∧
      t.classes = s.classes ++ [mkCls s.classes d l] := by
  obtain ⟨hb, l, hl, e⟩ := define_some h
  refine ⟨l, hl, hb, ?_⟩
  rw [e]
  simp only
  split
  · rw [initCls_classes]; rfl
  · rfl

theorem member_classes {s t : St} (h : s.classes = t.classes) (r k : Nat) : Member s r k ↔ Member t r k := by
  simp only [Member, Base, declAt, h]

theorem named_classes {s t : St} (h : s.classes = t.classes) (r : Nat) (n : Str) (k : Nat) :
    Named s r n k ↔ Named t r n k := by
  simp only [Named, member_classes h, declAt, h]

theorem alted_classes {lower : Str → Str} {s t : St} (h : s.classes = t.classes) (r : Nat) (n : Str) (k : Nat) :
    Alted lower s r n k ↔ Alted lower t r n k := by
  simp only [Alted, member_classes h, declAt, h]

theorem isLast_none {P : Nat → Prop} {n : Nat} {o : Option Nat} (h : ∀ k, o = some k ↔ IsLast P n k) :
    o = none ↔ ∀ j, j < n → ¬ P j := by
  constructor
  · intro e j hj hp
    obtain ⟨k, hk⟩ := isLast_exists hj hp
    have := (h k).mpr hk
    rw [e] at this
    simp at this
  · intro hn
    cases o with
    | none => rfl
    | some k =>
      have := (h k).mp rfl
      exact absurd this.2.1 (hn k this.1)

theorem inv_define {lower : Str → Str} {s t : St} {d : Decl} (i : Inv lower s) (h : define lower s d = some t) :
    Inv lower t := by
  obtain ⟨hb, l, hl, e⟩ := define_some h
  obtain ⟨l', hl', -, hcl⟩ := define_classes h
  rw [hl] at hl'
  cases hl'
  have hw : WF t.classes := by rw [hcl]; exact wf_snoc i.wf hl hb
  generalize hc : mkCls s.classes d l = c at *
  simp only at e
  have hdecl : c.decl = d := by rw [← hc]; rfl
  have hbasek : ∀ b, b ∈ d.bases ↔ Base t b s.classes.length := by
    intro b
    have : declAt t s.classes.length = some d := by
      simp only [declAt, hcl, snoc_last, Option.map_some, hdecl]
    simp only [Base, this, Option.some.injEq]
    constructor
    · intro h; exact ⟨d, rfl, h⟩
    · rintro ⟨d', e, h⟩; exact e ▸ h
  have hdk : declAt t s.classes.length = some d := by
    simp only [declAt, hcl, snoc_last, Option.map_some, hdecl]
  have hfk : facAt t.classes s.classes.length = c.fac := by
    simp only [facAt, hcl, snoc_last]
  have hlen : t.classes.length = s.classes.length + 1 := by rw [hcl]; simp
  have hold : ∀ r n k, k < s.classes.length → (Named t r n k ↔ Named s r n k) := by
    intro r n k hk
    rw [named_classes (t := ext s c t.regs) (by rw [hcl]; rfl)]
    exact named_ext i.wf hk
  have holda : ∀ r n k, k < s.classes.length → (Alted lower t r n k ↔ Alted lower s r n k) := by
    intro r n k hk
    rw [alted_classes (t := ext s c t.regs) (by rw [hcl]; rfl)]
    exact alted_ext i.wf hk
  -- registries before the registration
  generalize hregs : (if c.own then setReg s.regs s.classes.length ⟨[], []⟩ else s.regs) = regs at e
  have hn0 : ∀ r n, Dict.get? (regs r).names n = Dict.get? (s.regs r).names n := by
    intro r n
    rw [← hregs]
    split
    · simp only [setReg]
      split
      · rename_i e
        subst e
        symm
        simp only [Dict.get?]
        rw [isLast_none (fun k => i.names s.classes.length n k)]
        intro j hj hp
        have := member_lt hp.1
        omega
      · rfl
    · rfl
  have ha0 : ∀ r n, Dict.get? (regs r).aliases n = Dict.get? (s.regs r).aliases n := by
    intro r n
    rw [← hregs]
    split
    · simp only [setReg]
      split
      · rename_i e
        subst e
        symm
        simp only [Dict.get?]
        rw [isLast_none (fun k => i.aliases s.classes.length n k)]
        intro j hj hp
        have := member_lt hp.1
        omega
      · rfl
    · rfl
  have hmem : c.fac = true → ∀ r, (∃ b ∈ s.classes.length :: d.bases, ownerOf t.classes b = some r)
      ↔ Member t r s.classes.length := by
    intro hf r
    simp only [Member, hfk, hf, true_and]
    constructor
    · rintro ⟨b, hb, ho⟩
      rcases List.mem_cons.mp hb with e | hb
      · subst e; exact Or.inl ho
      · exact Or.inr ⟨b, (hbasek b).mp hb, ho⟩
    · rintro (ho | ⟨b, hb, ho⟩)
      · exact ⟨_, List.mem_cons_self .., ho⟩
      · exact ⟨b, List.mem_cons_of_mem _ ((hbasek b).mpr hb), ho⟩
  have hext : (ext s c regs).classes = t.classes := by rw [hcl]; rfl
  refine ⟨hw, ?_, ?_⟩
  · intro r n k
    rw [hlen, isLast_succ]
    have hnew : Named t r n s.classes.length ↔ Member t r s.classes.length ∧ d.name = n := by
      simp only [Named, hdk, Option.some.injEq]
      constructor
      · rintro ⟨h, d', e, hn⟩; exact ⟨h, e ▸ hn⟩
      · rintro ⟨h, hn⟩; exact ⟨h, d, rfl, hn⟩
    rw [isLast_congr (hold r n), ← i.names r n k]
    by_cases hf : c.fac = true
    · rw [if_pos hf, initCls_eq] at e
      have hget := foldl_names lower s.classes.length d.name r n (s.classes.length :: d.bases) (ext s c regs)
      rw [← e, hext] at hget
      have hr : (ext s c regs).regs = regs := rfl
      rw [hget, hr, hn0, hnew]
      by_cases hP : Member t r s.classes.length ∧ d.name = n
      · rw [if_pos ⟨(hmem hf r).mpr hP.1, hP.2⟩]
        simp only [Option.some.injEq, hP, and_self, true_and, not_true, false_and, or_false]
        exact eq_comm
      · rw [if_neg (fun q => hP ⟨(hmem hf r).mp q.1, q.2⟩)]
        simp [hP]
    · rw [if_neg hf] at e
      have : ¬ Named t r n s.classes.length := by
        rw [hnew]
        rintro ⟨⟨h, -⟩, -⟩
        rw [hfk] at h
        exact hf h
      have hr : t.regs = regs := by rw [e]; rfl
      rw [hr, hn0]
      simp [this]
  · intro r n k
    rw [hlen, isLast_succ]
    have hnew : Alted lower t r n s.classes.length ↔
        Member t r s.classes.length ∧ Alt lower (aliasesOf t.classes s.classes.length) d.name n := by
      simp only [Alted, hdk, Option.some.injEq]
      constructor
      · rintro ⟨h, d', e, hn⟩; exact ⟨h, e ▸ hn⟩
      · rintro ⟨h, hn⟩; exact ⟨h, d, rfl, hn⟩
    rw [isLast_congr (holda r n), ← i.aliases r n k]
    by_cases hf : c.fac = true
    · rw [if_pos hf, initCls_eq] at e
      have hget := foldl_aliases lower s.classes.length d.name r n (s.classes.length :: d.bases) (ext s c regs)
      rw [← e, hext] at hget
      have hr : (ext s c regs).regs = regs := rfl
      rw [hget, hr, ha0, hnew]
      by_cases hP : Member t r s.classes.length ∧ Alt lower (aliasesOf t.classes s.classes.length) d.name n
      · rw [if_pos ⟨(hmem hf r).mpr hP.1, hP.2⟩]
        simp only [Option.some.injEq, hP, and_self, true_and, not_true, false_and, or_false]
        exact eq_comm
      · rw [if_neg (fun q => hP ⟨(hmem hf r).mp q.1, q.2⟩)]
        simp [hP]
    · rw [if_neg hf] at e
      have : ¬ Alted lower t r n s.classes.length := by
        rw [hnew]
        rintro ⟨⟨h, -⟩, -⟩
        rw [hfk] at h
        exact hf h
      have hr : t.regs = regs := by rw [e]; rfl
      rw [hr, ha0]
      simp [this]

theorem run_cons (lower : Str → Str) (s : St) (d : Decl) (h : List Decl) :
    run lower s (d :: h) = run lower ((define lower s d).getD s) h := rfl

theorem run_append (lower : Str → Str) (s : St) (h1 h2 : List Decl) :
    run lower s (h1 ++ h2) = run lower (run lower s h1) h2 := by
  simp [run, List.foldl_append]

/-- Induction over programs. -/
theorem run_induct {lower : Str → Str} {P : St → Prop} (hd : ∀ s t d, P s → define lower s d = some t → P t) :
    ∀ (h : List Decl) (s : St), P s → P (run lower s h) := by
  intro h
  induction h with
  | nil => intro s hs; exact hs
  | cons d h ih =>
    intro s hs
    rw [run_cons]
    apply ih
    cases e : define lower s d with
    | none => exact hs
    | some t => exact hd s t d hs e

theorem inv_run (lower : Str → Str) (h : List Decl) : Inv lower (run lower init h) :=
  run_induct (fun _ _ _ i e => inv_define i e) h init (inv_init lower)

end SC.Factory
