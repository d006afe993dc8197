import Verif.Factory.Lemmas4
/-! # C39: class factory registry -/
namespace SC.Factory
open SC.Py

/-- **Lookup.**  After any program of class statements, looking up `n` through class `c` gives
the class defined last among those of the family that are called `n`; when none is, the class
defined last among those of the family that have `n` as alternative spelling. -/
theorem lookup_ok (lower : Str → Str) (h : List Decl) (c r : Nat) (n : Str) (k : Nat)
    (hc : ownerOf (run lower init h).classes c = some r) :
    clsfactory (run lower init h) c n = .ok k ↔
      IsLast (Named (run lower init h) r n) (run lower init h).classes.length k ∨
      ((∀ j, j < (run lower init h).classes.length → ¬ Named (run lower init h) r n j) ∧
        IsLast (Spelled lower (run lower init h) r n) (run lower init h).classes.length k) := by
  rw [clsfactory_of_owner hc]
  exact find_ok_iff (inv_run lower h) r n k

/-- **Unknown names fail**, and only those: neither a name nor an alternative spelling of a class
of the family. -/
theorem lookup_unknown (lower : Str → Str) (h : List Decl) (c r : Nat) (n : Str)
    (hc : ownerOf (run lower init h).classes c = some r) :
    clsfactory (run lower init h) c n = .error .unknown ↔
      ∀ k, ¬ Named (run lower init h) r n k ∧ ¬ Spelled lower (run lower init h) r n k := by
  rw [clsfactory_of_owner hc]
  exact find_unknown_iff (inv_run lower h) r n

/-- Every class that derives from a factory class has a lookup, no other class has one. -/
theorem lookup_exists (lower : Str → Str) (h : List Decl) (c : Nat) (n : Str) :
    clsfactory (run lower init h) c n = .error .attributeError ↔ ¬ IsFactory (run lower init h) c := by
  obtain ⟨w, f⟩ := flags_run lower h
  rw [← ownerOf_some w f]
  simp only [clsfactory]
  cases e : ownerOf (run lower init h).classes c with
  | none => simp
  | some r =>
    simp only [Option.some.injEq, exists_eq', not_true, iff_false]
    simp only [find]
    split
    · simp
    · split <;> simp

/-- **Found by name**: a class is found under its name in every family it takes part in, until
a later class of that name is defined in the family. -/
theorem found_by_name (lower : Str → Str) (h : List Decl) (c r : Nat) (k : Nat) (d : Decl)
    (hd : declAt (run lower init h) k = some d) (hm : Member (run lower init h) r k)
    (hc : ownerOf (run lower init h).classes c = some r)
    (hl : ∀ j, k < j → ¬ Named (run lower init h) r d.name j) :
    clsfactory (run lower init h) c d.name = .ok k :=
  (lookup_ok lower h c r d.name k hc).mpr (Or.inl ⟨declAt_lt hd, ⟨hm, d, hd, rfl⟩, fun j hj _ => hl j hj⟩)

/-- **Found by alternative spelling**: under its lower-case name, its aliases and the lower-case
aliases, until a later class of the family uses the spelling, and as long as no class of the family has it as name. -/
theorem found_by_spelling (lower : Str → Str) (h : List Decl) (c r : Nat) (k : Nat) (n : Str)
    (hs : Spelling lower (run lower init h) n k) (hm : Member (run lower init h) r k)
    (hc : ownerOf (run lower init h).classes c = some r)
    (hn : ∀ j, ¬ Named (run lower init h) r n j)
    (hl : ∀ j, k < j → ¬ Spelled lower (run lower init h) r n j) :
    clsfactory (run lower init h) c n = .ok k :=
  (lookup_ok lower h c r n k hc).mpr
    (Or.inr ⟨fun j _ => hn j, member_index_lt hm, ⟨hm, hs⟩, fun j hj _ => hl j hj⟩)

/-- **A new factory class is found at once** under its own name, through itself and through
each of its bases that is a factory class. -/
theorem found_at_once (lower : Str → Str) (h : List Decl) (d : Decl) (t : St)
    (ht : define lower (run lower init h) d = some t)
    (hf : IsFactory t (run lower init h).classes.length) (c : Nat)
    (hc : c = (run lower init h).classes.length ∨ (c ∈ d.bases ∧ IsFactory t c)) :
    clsfactory t c d.name = .ok (run lower init h).classes.length := by
  have hrun : t = run lower init (h ++ [d]) := by
    rw [run_append]
    simp only [run, List.foldl_cons, List.foldl_nil] at ht ⊢
    rw [ht]
    rfl
  obtain ⟨l, hl, hb, hcl⟩ := define_classes ht
  subst hrun
  obtain ⟨w, f⟩ := flags_run lower (h ++ [d])
  have hlen : (run lower init (h ++ [d])).classes.length = (run lower init h).classes.length + 1 := by
    rw [hcl]; simp
  have hd : declAt (run lower init (h ++ [d])) (run lower init h).classes.length = some d := by
    simp only [declAt, hcl, snoc_last, Option.map_some]; rfl
  have hfc : IsFactory (run lower init (h ++ [d])) c := by
    rcases hc with e | e
    · rw [e]; exact hf
    · exact e.2
  obtain ⟨r, hr⟩ := (ownerOf_some w f c).mpr hfc
  refine found_by_name lower (h ++ [d]) c r _ d hd ⟨(facAt_iff w f _).mpr hf, ?_⟩ hr ?_
  · rcases hc with e | e
    · rw [← e]; exact Or.inl hr
    · exact Or.inr ⟨c, ⟨d, hd, e.1⟩, hr⟩
  · intro j hj hn
    have := named_lt hn
    omega

/-- **Families stay apart**: a class takes part only in families of its own ancestors, and these are started by
factory classes without factory bases. -/
theorem member_root (lower : Str → Str) (h : List Decl) (r k : Nat) (hm : Member (run lower init h) r k) :
    IsRoot (run lower init h) r ∧ Anc (run lower init h) r k := by
  obtain ⟨w, f⟩ := flags_run lower h
  rcases hm.2 with ho | ⟨b, hb, ho⟩
  · have := ownerOf_mem ho
    exact ⟨(ownAt_iff w f r).mp this.2, (anc_iff w r k).mpr this.1⟩
  · have := ownerOf_mem ho
    exact ⟨(ownAt_iff w f r).mp this.2, .step ((anc_iff w r b).mpr this.1) hb⟩

/-- Every factory class takes part in at least one family. -/
theorem member_exists (lower : Str → Str) (h : List Decl) (k : Nat) (hf : IsFactory (run lower init h) k) :
    ∃ r, Member (run lower init h) r k ∧ ownerOf (run lower init h).classes k = some r := by
  obtain ⟨w, f⟩ := flags_run lower h
  obtain ⟨r, hr⟩ := (ownerOf_some w f k).mpr hf
  exact ⟨r, ⟨(facAt_iff w f k).mpr hf, Or.inl hr⟩, hr⟩

/-- With at most one base per class, the family of a root consists of all classes derived from
it. -/
theorem single_member (lower : Str → Str) (h : List Decl) (hs : SingleInheritance h) (r k : Nat) :
    Member (run lower init h) r k ↔ IsRoot (run lower init h) r ∧ Anc (run lower init h) r k := by
  refine ⟨member_root lower h r k, ?_⟩
  rintro ⟨hr, ha⟩
  obtain ⟨w, f⟩ := flags_run lower h
  have g := single_run lower hs
  exact ⟨(facAt_iff w f k).mpr (isFactory_anc hr.1 ha), Or.inl ((single_owner w f g k r).mpr ⟨hr, ha⟩)⟩

/-- With at most one base per class, a lookup through any class derived from the root `r` finds
any class derived from it: the last one called `n`. -/
theorem single_lookup (lower : Str → Str) (h : List Decl) (hs : SingleInheritance h) (r c k : Nat) (d : Decl)
    (hr : IsRoot (run lower init h) r) (hc : Anc (run lower init h) r c) (hk : Anc (run lower init h) r k)
    (hd : declAt (run lower init h) k = some d)
    (hl : ∀ j d', k < j → Anc (run lower init h) r j → declAt (run lower init h) j = some d' → d'.name ≠ d.name) :
    clsfactory (run lower init h) c d.name = .ok k := by
  obtain ⟨w, f⟩ := flags_run lower h
  have g := single_run lower hs
  refine found_by_name lower h c r k d hd ((single_member lower h hs r k).mpr ⟨hr, hk⟩)
    ((single_owner w f g c r).mpr ⟨hr, hc⟩) ?_
  rintro j hj ⟨hm, d', hd', e⟩
  exact hl j d' hj (member_root lower h r j hm).2 hd' e

/-- The aliases of a class are those it declares. -/
theorem aliases_own (lower : Str → Str) (h : List Decl) (k : Nat) (d : Decl) (al : List Str)
    (hd : declAt (run lower init h) k = some d) (ha : d.aliases = some al) :
    aliasesOf (run lower init h).classes k = al := by
  obtain ⟨w, -⟩ := flags_run lower h
  obtain ⟨c, hc⟩ := getElem?_of_lt (declAt_lt hd)
  obtain ⟨l, e, -⟩ := w.mro k c hc
  simp only [declAt, hc, Option.map_some, Option.some.injEq] at hd
  simp only [aliasesOf, mroOf_some hc, e, List.findSome?_cons, ownAliases, hc, hd, ha, Option.getD_some]

/-- A class with one base that declares no aliases has those of its base. -/
theorem aliases_inherited (lower : Str → Str) (h : List Decl) (hs : SingleInheritance h) (k b : Nat) (d : Decl)
    (hd : declAt (run lower init h) k = some d) (ha : d.aliases = none) (hb : d.bases = [b]) :
    aliasesOf (run lower init h).classes k = aliasesOf (run lower init h).classes b := by
  have g := single_run lower hs
  obtain ⟨c, hc⟩ := getElem?_of_lt (declAt_lt hd)
  simp only [declAt, hc, Option.map_some, Option.some.injEq] at hd
  subst hd
  rcases g.one k c hc with ⟨h1, -⟩ | ⟨b', h1, h2⟩
  · rw [hb] at h1; simp at h1
  · rw [hb] at h1
    simp only [List.cons.injEq, and_true] at h1
    subst h1
    simp only [aliasesOf, mroOf_some hc, h2, List.findSome?_cons, ownAliases, hc, ha]

/-- **Other families are untouched** by a class statement. -/
theorem define_other (lower : Str → Str) (h : List Decl) (d : Decl) (t : St)
    (ht : define lower (run lower init h) d = some t) (c r : Nat) (hlt : c < (run lower init h).classes.length)
    (hc : ownerOf (run lower init h).classes c = some r)
    (hm : ¬ Member t r (run lower init h).classes.length) (n : Str) :
    clsfactory t c n = clsfactory (run lower init h) c n := by
  have i := inv_run lower h
  have it := inv_define i ht
  obtain ⟨l, hl, hb, hcl⟩ := define_classes ht
  have hct : ownerOf t.classes c = some r := by
    rw [hcl, ownerOf_snoc i.wf _ hlt, hc]
  rw [clsfactory_of_owner hct, clsfactory_of_owner hc]
  have hlen : t.classes.length = (run lower init h).classes.length + 1 := by rw [hcl]; simp
  have e1 : Dict.get? (t.regs r).names n = Dict.get? ((run lower init h).regs r).names n := by
    apply Option.ext
    intro k
    rw [it.names, i.names, hlen, isLast_succ]
    have hno : ¬ Named t r n (run lower init h).classes.length := fun q => hm q.1
    simp only [hno, false_and, not_false_iff, true_and, false_or]
    refine isLast_congr (fun j hj => ?_) k
    rw [named_classes (t := ext (run lower init h) _ t.regs) hcl]
    exact named_ext i.wf hj
  have e2 : Dict.get? (t.regs r).aliases n = Dict.get? ((run lower init h).regs r).aliases n := by
    apply Option.ext
    intro k
    rw [it.aliases, i.aliases, hlen, isLast_succ]
    have hno : ¬ Alted lower t r n (run lower init h).classes.length := fun q => hm q.1
    simp only [hno, false_and, not_false_iff, true_and, false_or]
    refine isLast_congr (fun j hj => ?_) k
    rw [alted_classes (t := ext (run lower init h) _ t.regs) hcl]
    exact alted_ext i.wf hj
  simp only [find, e1, e2]

/-- A failing class statement registers nothing. -/
theorem define_fails (lower : Str → Str) (h : List Decl) (d : Decl)
    (hd : define lower (run lower init h) d = none) : run lower init (h ++ [d]) = run lower init h := by
  rw [run_append, run_cons, hd]
  rfl

/-- The listed names are exactly those of the classes of the family. -/
theorem names_listed (lower : Str → Str) (h : List Decl) (c r : Nat) (n : Str)
    (hc : ownerOf (run lower init h).classes c = some r) :
    n ∈ clsnames (run lower init h) c ↔ ∃ k, Named (run lower init h) r n k := by
  have i := inv_run lower h
  simp only [clsnames, hc]
  rw [← Dict.get?_isSome, Option.isSome_iff_exists]
  constructor
  · rintro ⟨k, hk⟩
    exact ⟨k, ((i.names r n k).mp hk).2.1⟩
  · rintro ⟨k, hk⟩
    obtain ⟨m, hm⟩ := isLast_exists (named_lt hk) hk
    exact ⟨m, (i.names r n m).mpr hm⟩

/-- **Listed names are the ones that can be looked up.** -/
theorem allnames_found (lower : Str → Str) (h : List Decl) (c r : Nat) (n : Str)
    (hc : ownerOf (run lower init h).classes c = some r) :
    n ∈ clsallnames (run lower init h) c ↔ ∃ k, clsfactory (run lower init h) c n = .ok k := by
  simp only [clsallnames, clsnames, clsaliases, hc, List.mem_append]
  rw [clsfactory_of_owner hc]
  rw [← Dict.get?_isSome, ← Dict.get?_isSome]
  simp only [find_eq_ok]
  cases h1 : Dict.get? ((run lower init h).regs r).names n with
  | some j => simp
  | none =>
    cases h2 : Dict.get? ((run lower init h).regs r).aliases n with
    | some j => simp
    | none => simp

end SC.Factory
