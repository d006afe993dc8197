import Verif.Factory.Lemmas3
/-! Lookup in terms of the invariant (C39). -/
namespace SC.Factory
open SC.Py

theorem find_eq_ok (r : Reg) (n : Str) (k : Nat) : find r n = .ok k ↔
    Dict.get? r.names n = some k ∨ (Dict.get? r.names n = none ∧ Dict.get? r.aliases n = some k) := by
  simp only [find]
  cases h1 : Dict.get? r.names n with
  | some j => simp
  | none =>
    cases h2 : Dict.get? r.aliases n with
    | some j => simp
    | none => simp

theorem alted_iff {lower : Str → Str} {s : St} {r : Nat} {n : Str} {k : Nat} (hk : k < s.classes.length)
    (hno : ¬ Named s r n k) : Alted lower s r n k ↔ Spelled lower s r n k := by
  simp only [Alted, Spelled, Spelling, Alt]
  obtain ⟨c, hc⟩ := getElem?_of_lt hk
  have hd : declAt s k = some c.decl := by simp [declAt, hc]
  simp only [hd, Option.some.injEq]
  constructor
  · rintro ⟨hm, d, e, h | h⟩
    · exact ⟨hm, Or.inl ⟨d, e, h.1⟩⟩
    · exact ⟨hm, Or.inr h⟩
  · rintro ⟨hm, ⟨d, e, h⟩ | h⟩
    · refine ⟨hm, d, e, Or.inl ⟨h, ?_⟩⟩
      intro e2
      exact hno ⟨hm, d, by rw [hd, e], by rw [← e2, h]⟩
    · exact ⟨hm, _, rfl, Or.inr h⟩

theorem find_ok_iff {lower : Str → Str} {s : St} (i : Inv lower s) (r : Nat) (n : Str) (k : Nat) :
    find (s.regs r) n = .ok k ↔ IsLast (Named s r n) s.classes.length k ∨
      ((∀ j, j < s.classes.length → ¬ Named s r n j) ∧ IsLast (Spelled lower s r n) s.classes.length k) := by
  rw [find_eq_ok, i.names, isLast_none (i.names r n), i.aliases]
  constructor
  · rintro (h | ⟨h1, h2⟩)
    · exact Or.inl h
    · exact Or.inr ⟨h1, (isLast_congr (fun j hj => alted_iff hj (h1 j hj)) k).mp h2⟩
  · rintro (h | ⟨h1, h2⟩)
    · exact Or.inl h
    · exact Or.inr ⟨h1, (isLast_congr (fun j hj => alted_iff hj (h1 j hj)) k).mpr h2⟩

theorem named_lt {s : St} {r : Nat} {n : Str} {k : Nat} (h : Named s r n k) : k < s.classes.length := by
  obtain ⟨-, d, hd, -⟩ := h
  exact declAt_lt hd

theorem facAt_lt {cs : List Cls} {k : Nat} (h : facAt cs k = true) : k < cs.length := by
  simp only [facAt] at h
  cases hc : cs[k]? with
  | none => simp [hc] at h
  | some c => exact (List.getElem?_eq_some_iff.mp hc).1

theorem member_index_lt {s : St} {r k : Nat} (h : Member s r k) : k < s.classes.length := facAt_lt h.1

theorem find_unknown_iff {lower : Str → Str} {s : St} (i : Inv lower s) (r : Nat) (n : Str) :
    find (s.regs r) n = .error .unknown ↔ ∀ k, ¬ Named s r n k ∧ ¬ Spelled lower s r n k := by
  constructor
  · intro h k
    have hno : ∀ j, j < s.classes.length → ¬ Named s r n j := by
      intro j hj hn
      obtain ⟨m, hm⟩ := isLast_exists hj hn
      have := (find_ok_iff i r n m).mpr (Or.inl hm)
      rw [h] at this
      simp at this
    refine ⟨fun hn => hno k (named_lt hn) hn, ?_⟩
    intro hs
    obtain ⟨m, hm⟩ := isLast_exists (member_index_lt hs.1) hs
    have := (find_ok_iff i r n m).mpr (Or.inr ⟨hno, hm⟩)
    rw [h] at this
    simp at this
  · intro h
    cases e : find (s.regs r) n with
    | ok k =>
      rcases (find_ok_iff i r n k).mp e with h1 | ⟨-, h1⟩
      · exact absurd h1.2.1 (h k).1
      · exact absurd h1.2.1 (h k).2
    | error x =>
      simp only [find] at e
      split at e
      · simp at e
      · split at e
        · simp at e
        · cases e; rfl

theorem clsfactory_of_owner {s : St} {c r : Nat} (h : ownerOf s.classes c = some r) (n : Str) :
    clsfactory s c n = find (s.regs r) n := by
  simp only [clsfactory, h]

/-- Roots above a class, when every class has at most one base. -/
theorem single_owner {s : St} (w : WF s.classes) (f : Flags s.classes) (g : Single s.classes) (k r : Nat) :
    ownerOf s.classes k = some r ↔ IsRoot s r ∧ Anc s r k := by
  induction k using Nat.strongRecOn generalizing r with
  | ind k ih =>
    constructor
    · intro h
      have := ownerOf_mem h
      exact ⟨(ownAt_iff w f r).mp this.2, (anc_iff w r k).mpr this.1⟩
    · rintro ⟨hr, ha⟩
      have hk := (anc_le w ha).2
      obtain ⟨c, hc⟩ := getElem?_of_lt hk
      rcases g.one k c hc with ⟨hb, hm⟩ | ⟨b, hb, hm⟩
      · cases ha with
        | refl _ =>
          have ho := (ownAt_iff w f _).mpr hr
          simp [ownerOf, mroOf_some hc, hm, ho]
        | step h hbase =>
          rw [base_iff hc, hb] at hbase
          simp at hbase
      · have e : ownerOf s.classes k = if ownAt s.classes k then some k else ownerOf s.classes b := by
          simp only [ownerOf, mroOf_some hc, hm, List.find?_cons]
          cases ownAt s.classes k <;> rfl
        cases ha with
        | refl _ =>
          have ho := (ownAt_iff w f _).mpr hr
          rw [e, if_pos ho]
        | step h hbase =>
          rw [base_iff hc, hb, List.mem_singleton] at hbase
          subst hbase
          have hlt := w.bases k c hc _ (by rw [hb]; exact List.mem_cons_self ..)
          have hno : ¬ ownAt s.classes k = true := by
            rw [ownAt_iff w f]
            rintro ⟨-, h2⟩
            refine h2 _ ((base_iff hc).mpr (by rw [hb]; exact List.mem_cons_self ..)) ?_
            obtain ⟨a, d, ha2, hd, hf⟩ := hr.1
            have htr : ∀ {x y z : Nat}, Anc s x y → Anc s y z → Anc s x z := by
              intro x y z hxy hyz
              induction hyz with
              | refl _ => exact hxy
              | step _ hb ih => exact .step ih hb
            exact ⟨a, d, htr ha2 h, hd, hf⟩
          rw [e, if_neg hno]
          exact (ih _ hlt r).mpr ⟨hr, h⟩

theorem anc_trans {s : St} {x y z : Nat} (hxy : Anc s x y) (hyz : Anc s y z) : Anc s x z := by
  induction hyz with
  | refl _ => exact hxy
  | step _ hb ih => exact .step ih hb

theorem isFactory_anc {s : St} {x y : Nat} (h : IsFactory s x) (ha : Anc s x y) : IsFactory s y := by
  obtain ⟨a, d, h1, h2, h3⟩ := h
  exact ⟨a, d, anc_trans h1 ha, h2, h3⟩

end SC.Factory
