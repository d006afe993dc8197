import Verif.Factory.Spec
/-! Lemmas for C39. -/
namespace SC.Factory
open SC.Py

/-! ## merge -/

def total (seqs : List (List Nat)) : Nat := (seqs.map List.length).sum

theorem dropHead_len (c : Nat) (s : List Nat) : (dropHead c s).length ≤ s.length := by
  cases s with
  | nil => simp [dropHead]
  | cons x l => simp only [dropHead]; split <;> simp

theorem total_drop_le (c : Nat) (seqs : List (List Nat)) : total (seqs.map (dropHead c)) ≤ total seqs := by
  induction seqs with
  | nil => simp [total]
  | cons s l ih =>
    simp only [total, List.map_cons, List.sum_cons] at *
    have := dropHead_len c s
    omega

theorem total_drop_lt (c : Nat) (seqs : List (List Nat)) (s : List Nat) (hs : s ∈ seqs) (hc : s.head? = some c) :
    total (seqs.map (dropHead c)) < total seqs := by
  induction seqs with
  | nil => simp at hs
  | cons t l ih =>
    simp only [total, List.map_cons, List.sum_cons] at *
    rcases List.mem_cons.mp hs with e | hm
    · subst e
      cases s with
      | nil => simp at hc
      | cons x q =>
        simp only [List.head?_cons, Option.some.injEq] at hc
        subst hc
        have := total_drop_le x l
        simp only [total] at this
        simp only [dropHead, if_true, List.length_cons]
        omega
    · have := dropHead_len c t
      have := ih hm
      omega

theorem pick_some {seqs : List (List Nat)} {c : Nat} (h : pick seqs = some c) :
    ∃ s ∈ seqs, s.head? = some c := by
  have := List.mem_of_find?_eq_some h
  obtain ⟨s, hs, e⟩ := List.mem_filterMap.mp this
  exact ⟨s, hs, e⟩

theorem mem_dropHead (c x : Nat) (s : List Nat) : x ∈ s → x = c ∨ x ∈ dropHead c s := by
  cases s with
  | nil => simp
  | cons y l =>
    intro h
    simp only [dropHead]
    split
    · rename_i e
      rcases List.mem_cons.mp h with e2 | h
      · exact Or.inl (e2.trans e)
      · exact Or.inr h
    · exact Or.inr h

theorem dropHead_subset (c x : Nat) (s : List Nat) (h : x ∈ dropHead c s) : x ∈ s := by
  cases s with
  | nil => simp [dropHead] at h
  | cons y l =>
    simp only [dropHead] at h
    split at h
    · exact List.mem_cons_of_mem _ h
    · exact h

theorem le_sum_mem {x : Nat} : ∀ (l : List Nat), x ∈ l → x ≤ l.sum := by
  intro l
  induction l with
  | nil => simp
  | cons a l ih =>
    intro h
    rw [List.sum_cons]
    rcases List.mem_cons.mp h with e | h
    · omega
    · have := ih h; omega

theorem merge_succ (n : Nat) (seqs : List (List Nat)) : merge (n + 1) seqs =
    if seqs.all List.isEmpty then some []
    else match pick seqs with
      | none => none
      | some c => (merge n (seqs.map (dropHead c))).map (fun l => c :: l) := rfl

theorem merge_mem (n : Nat) : ∀ (seqs : List (List Nat)) (l : List Nat), merge n seqs = some l →
    total seqs ≤ n → ∀ x, x ∈ l ↔ ∃ s ∈ seqs, x ∈ s := by
  induction n with
  | zero =>
    intro seqs l h ht x
    simp only [merge, Option.some.injEq] at h
    subst h
    simp only [List.not_mem_nil, false_iff, not_exists, not_and]
    intro s hs hx
    have : s.length ≤ total seqs := by
      simp only [total]
      exact le_sum_mem _ (List.mem_map_of_mem hs)
    cases s with
    | nil => simp at hx
    | cons y q => simp at this; omega
  | succ n ih =>
    intro seqs l h ht x
    rw [merge_succ] at h
    split at h
    · rename_i he
      cases h
      simp only [List.not_mem_nil, false_iff, not_exists, not_and]
      intro s hs hx
      have := List.all_eq_true.mp he s hs
      rw [List.isEmpty_iff] at this
      simp [this] at hx
    · split at h
      · simp at h
      · rename_i c hp
        obtain ⟨s0, hs0, hh⟩ := pick_some hp
        have hlt := total_drop_lt c seqs s0 hs0 hh
        cases hm : merge n (seqs.map (dropHead c)) with
        | none => simp [hm] at h
        | some l' =>
          simp only [hm, Option.map_some, Option.some.injEq] at h
          subst h
          have := ih _ _ hm (by omega) x
          rw [List.mem_cons, this]
          constructor
          · rintro (e | ⟨s, hs, hx⟩)
            · subst e
              exact ⟨s0, hs0, List.mem_of_mem_head? hh⟩
            · obtain ⟨t, ht, e⟩ := List.mem_map.mp hs
              subst e
              exact ⟨t, ht, dropHead_subset _ _ _ hx⟩
          · rintro ⟨s, hs, hx⟩
            rcases mem_dropHead c x s hx with e | hx
            · exact Or.inl e
            · exact Or.inr ⟨_, List.mem_map_of_mem hs, hx⟩

theorem linearize_mem {cs : List Cls} {bases l : List Nat} (h : linearize cs bases = some l) (x : Nat) :
    x ∈ l ↔ x ∈ bases ∨ ∃ b ∈ bases, x ∈ mroOf cs b := by
  rw [merge_mem _ _ _ h (by
    simp only [total, List.map_append, List.map_map, List.sum_append, List.map_cons, List.map_nil, List.sum_cons,
      List.sum_nil]
    exact Nat.le_of_eq rfl)]
  constructor
  · rintro ⟨s, hs, hx⟩
    rcases List.mem_append.mp hs with hs | hs
    · obtain ⟨b, hb, e⟩ := List.mem_map.mp hs
      subst e
      exact Or.inr ⟨b, hb, hx⟩
    · rw [List.mem_singleton] at hs
      subst hs
      exact Or.inl hx
  · rintro (h | ⟨b, hb, hx⟩)
    · exact ⟨bases, by simp, h⟩
    · exact ⟨_, List.mem_append.mpr (Or.inl (List.mem_map_of_mem hb)), hx⟩

/-! ## The class table -/

/-- Shape of the class table. -/
structure WF (cs : List Cls) : Prop where
  mro : ∀ (k : Nat) (c : Cls), cs[k]? = some c → ∃ l, c.mro = k :: l ∧ (∀ x, x ∈ l ↔ ∃ b ∈ c.decl.bases, x ∈ mroOf cs b)
  bases : ∀ (k : Nat) (c : Cls), cs[k]? = some c → ∀ b ∈ c.decl.bases, b < k

theorem getElem?_snoc {cs : List Cls} {c : Cls} {k : Nat} (h : k < cs.length) : (cs ++ [c])[k]? = cs[k]? := by
  rw [List.getElem?_append_left h]

theorem snoc_last (cs : List Cls) (c : Cls) : (cs ++ [c])[cs.length]? = some c := by simp

theorem mroOf_snoc {cs : List Cls} {c : Cls} {k : Nat} (h : k < cs.length) : mroOf (cs ++ [c]) k = mroOf cs k := by
  simp only [mroOf, getElem?_snoc h]

theorem ownAt_snoc {cs : List Cls} {c : Cls} {k : Nat} (h : k < cs.length) : ownAt (cs ++ [c]) k = ownAt cs k := by
  simp only [ownAt, getElem?_snoc h]

theorem facAt_snoc {cs : List Cls} {c : Cls} {k : Nat} (h : k < cs.length) : facAt (cs ++ [c]) k = facAt cs k := by
  simp only [facAt, getElem?_snoc h]

theorem ownAliases_snoc {cs : List Cls} {c : Cls} {k : Nat} (h : k < cs.length) :
    ownAliases (cs ++ [c]) k = ownAliases cs k := by
  simp only [ownAliases, getElem?_snoc h]

theorem mroOf_some {cs : List Cls} {k : Nat} {c : Cls} (h : cs[k]? = some c) : mroOf cs k = c.mro := by
  simp only [mroOf, h]

theorem getElem?_of_lt {cs : List Cls} {k : Nat} (h : k < cs.length) : ∃ c, cs[k]? = some c :=
  ⟨cs[k], List.getElem?_eq_getElem h⟩

theorem WF.mro_le {cs : List Cls} (w : WF cs) : ∀ (k : Nat), ∀ x ∈ mroOf cs k, x ≤ k := by
  intro k
  induction k using Nat.strongRecOn with
  | ind k ih =>
    intro x hx
    cases hc : cs[k]? with
    | none => simp [mroOf, hc] at hx
    | some c =>
      rw [mroOf_some hc] at hx
      obtain ⟨l, e, hl⟩ := w.mro k c hc
      rw [e] at hx
      rcases List.mem_cons.mp hx with e | hx
      · exact Nat.le_of_eq e
      · obtain ⟨b, hb, hx⟩ := (hl x).mp hx
        have hlt := w.bases k c hc b hb
        have := ih b hlt x hx
        omega

theorem WF.mro_lt {cs : List Cls} (w : WF cs) {k : Nat} (h : k < cs.length) : ∀ x ∈ mroOf cs k, x < cs.length := by
  intro x hx
  have := w.mro_le k x hx
  omega

theorem mem_mro_self {cs : List Cls} (w : WF cs) {k : Nat} (h : k < cs.length) : k ∈ mroOf cs k := by
  obtain ⟨c, hc⟩ := getElem?_of_lt h
  obtain ⟨l, e, -⟩ := w.mro k c hc
  rw [mroOf_some hc, e]
  exact List.mem_cons_self ..

theorem find?_congr' {p q : Nat → Bool} {l : List Nat} (h : ∀ x ∈ l, p x = q x) : l.find? p = l.find? q := by
  induction l with
  | nil => rfl
  | cons a l ih =>
    simp only [List.find?_cons, h a (List.mem_cons_self ..)]
    rw [ih (fun x hx => h x (List.mem_cons_of_mem _ hx))]

theorem findSome?_congr' {p q : Nat → Option (List Str)} {l : List Nat} (h : ∀ x ∈ l, p x = q x) :
    l.findSome? p = l.findSome? q := by
  induction l with
  | nil => rfl
  | cons a l ih =>
    simp only [List.findSome?_cons, h a (List.mem_cons_self ..)]
    rw [ih (fun x hx => h x (List.mem_cons_of_mem _ hx))]

theorem ownerOf_snoc {cs : List Cls} (w : WF cs) (c : Cls) {k : Nat} (h : k < cs.length) :
    ownerOf (cs ++ [c]) k = ownerOf cs k := by
  simp only [ownerOf, mroOf_snoc h]
  exact find?_congr' (fun x hx => ownAt_snoc (w.mro_lt h x hx))

theorem aliasesOf_snoc {cs : List Cls} (w : WF cs) (c : Cls) {k : Nat} (h : k < cs.length) :
    aliasesOf (cs ++ [c]) k = aliasesOf cs k := by
  simp only [aliasesOf, mroOf_snoc h]
  rw [findSome?_congr' (fun x hx => ownAliases_snoc (w.mro_lt h x hx))]

theorem wf_nil : WF [] := ⟨by simp, by simp⟩

theorem wf_snoc {cs : List Cls} (w : WF cs) {d : Decl} {l : List Nat} (hl : linearize cs d.bases = some l)
    (hb : ∀ b ∈ d.bases, b < cs.length) : WF (cs ++ [mkCls cs d l]) := by
  refine ⟨?_, ?_⟩
  · intro k c hc
    by_cases h : k < cs.length
    · rw [getElem?_snoc h] at hc
      obtain ⟨m, e, hm⟩ := w.mro k c hc
      refine ⟨m, e, fun x => ?_⟩
      rw [hm]
      constructor
      · rintro ⟨b, hb, hx⟩
        have := w.bases k c hc b hb
        exact ⟨b, hb, by rw [mroOf_snoc (by omega)]; exact hx⟩
      · rintro ⟨b, hb, hx⟩
        have := w.bases k c hc b hb
        rw [mroOf_snoc (by omega)] at hx
        exact ⟨b, hb, hx⟩
    · have hk : k = cs.length := by
        have := (List.getElem?_eq_some_iff.mp hc).1
        simp at this
        omega
      subst hk
      rw [snoc_last] at hc
      cases hc
      refine ⟨l, rfl, fun x => ?_⟩
      rw [linearize_mem hl]
      simp only [mkCls]
      constructor
      · rintro (h | ⟨b, hb', hx⟩)
        · exact ⟨x, h, by rw [mroOf_snoc (hb x h)]; exact mem_mro_self w (hb x h)⟩
        · exact ⟨b, hb', by rw [mroOf_snoc (hb b hb')]; exact hx⟩
      · rintro ⟨b, hb', hx⟩
        rw [mroOf_snoc (hb b hb')] at hx
        exact Or.inr ⟨b, hb', hx⟩
  · intro k c hc
    by_cases h : k < cs.length
    · rw [getElem?_snoc h] at hc
      exact w.bases k c hc
    · have hk : k = cs.length := by
        have := (List.getElem?_eq_some_iff.mp hc).1
        simp at this
        omega
      subst hk
      rw [snoc_last] at hc
      cases hc
      exact hb

/-! ## Registration -/

theorem addAlias_get (lower : Str → Str) (k : Nat) (d : Dict Str Nat) (a n : Str) :
    Dict.get? (addAlias lower k d a) n = if n = a ∨ n = lower a then some k else Dict.get? d n := by
  simp only [addAlias]
  by_cases h : lower a ≠ a
  · rw [if_pos h, Dict.get?_set, Dict.get?_set]
    by_cases h1 : lower a = n
    · simp [h1]
    · by_cases h2 : a = n
      · simp [h2]
      · simp [h1, h2, Ne.symm h1, Ne.symm h2]
  · rw [if_neg h, Dict.get?_set]
    have e : lower a = a := not_not.mp h
    rw [e]
    by_cases h2 : a = n
    · simp [h2]
    · simp [h2, Ne.symm h2]

theorem foldl_addAlias_get (lower : Str → Str) (k : Nat) (al : List Str) : ∀ (d : Dict Str Nat) (n : Str),
    Dict.get? (al.foldl (addAlias lower k) d) n
      = if ∃ a ∈ al, n = a ∨ n = lower a then some k else Dict.get? d n := by
  induction al with
  | nil => intro d n; simp
  | cons a l ih =>
    intro d n
    rw [List.foldl_cons, ih, addAlias_get]
    by_cases h1 : ∃ b ∈ l, n = b ∨ n = lower b
    · have : ∃ b ∈ a :: l, n = b ∨ n = lower b := by
        obtain ⟨b, hb, e⟩ := h1
        exact ⟨b, List.mem_cons_of_mem _ hb, e⟩
      rw [if_pos h1, if_pos this]
    · rw [if_neg h1]
      by_cases h2 : n = a ∨ n = lower a
      · rw [if_pos h2, if_pos ⟨a, List.mem_cons_self .., h2⟩]
      · rw [if_neg h2, if_neg]
        rintro ⟨b, hb, e⟩
        rcases List.mem_cons.mp hb with e2 | hb
        · subst e2; exact h2 e
        · exact h1 ⟨b, hb, e⟩

/-- What `aliasregistry` gets from a class. -/
def Alt (lower : Str → Str) (al : List Str) (name n : Str) : Prop :=
  (lower name = n ∧ lower name ≠ name) ∨ ∃ a ∈ al, n = a ∨ n = lower a

open Classical in
theorem regCls_aliases (lower : Str → Str) (al : List Str) (k : Nat) (name : Str) (r : Reg) (n : Str) :
    Dict.get? (regCls lower al k name r).aliases n
      = if Alt lower al name n then some k else Dict.get? r.aliases n := by
  simp only [regCls, foldl_addAlias_get]
  by_cases h1 : ∃ a ∈ al, n = a ∨ n = lower a
  · rw [if_pos h1, if_pos (show Alt lower al name n from Or.inr h1)]
  · rw [if_neg h1]
    by_cases h2 : lower name ≠ name
    · rw [if_pos h2, Dict.get?_set]
      by_cases h3 : lower name = n
      · rw [if_pos h3, if_pos (show Alt lower al name n from Or.inl ⟨h3, h2⟩)]
      · rw [if_neg h3, if_neg]
        rintro (h | h)
        · exact h3 h.1
        · exact h1 h
    · rw [if_neg h2, if_neg]
      rintro (h | h)
      · exact h2 h.2
      · exact h1 h

theorem register_classes (lower : Str → Str) (s : St) (c k : Nat) (name : Str) :
    (register lower s c k name).classes = s.classes := by
  simp only [register]; split <;> rfl

theorem foldl_register_classes (lower : Str → Str) (k : Nat) (name : Str) (bs : List Nat) : ∀ (s : St),
    (bs.foldl (fun s b => register lower s b k name) s).classes = s.classes := by
  induction bs with
  | nil => intro s; rfl
  | cons b l ih => intro s; rw [List.foldl_cons, ih, register_classes]

theorem register_names (lower : Str → Str) (s : St) (c k : Nat) (name : Str) (r : Nat) (n : Str) :
    Dict.get? ((register lower s c k name).regs r).names n
      = if ownerOf s.classes c = some r ∧ name = n then some k else Dict.get? (s.regs r).names n := by
  simp only [register]
  cases h : ownerOf s.classes c with
  | none => simp
  | some q =>
    simp only [setReg]
    by_cases e : r = q
    · subst e
      simp only [if_true, regCls, Dict.get?_set, true_and]
    · simp [e, Ne.symm e]

open Classical in
theorem register_aliases (lower : Str → Str) (s : St) (c k : Nat) (name : Str) (r : Nat) (n : Str) :
    Dict.get? ((register lower s c k name).regs r).aliases n
      = if ownerOf s.classes c = some r ∧ Alt lower (aliasesOf s.classes k) name n then some k
        else Dict.get? (s.regs r).aliases n := by
  simp only [register]
  cases h : ownerOf s.classes c with
  | none => simp
  | some q =>
    simp only [setReg]
    by_cases e : r = q
    · subst e
      simp only [if_true, regCls_aliases, true_and]
    · simp [e, Ne.symm e]

open Classical in
theorem foldl_names (lower : Str → Str) (k : Nat) (name : Str) (r : Nat) (n : Str) (bs : List Nat) : ∀ (s : St),
    Dict.get? ((bs.foldl (fun s b => register lower s b k name) s).regs r).names n
      = if (∃ b ∈ bs, ownerOf s.classes b = some r) ∧ name = n then some k else Dict.get? (s.regs r).names n := by
  induction bs with
  | nil => intro s; simp
  | cons b l ih =>
    intro s
    rw [List.foldl_cons, ih, register_classes, register_names]
    by_cases hn : name = n
    · by_cases h1 : ∃ b ∈ l, ownerOf s.classes b = some r
      · have : ∃ x ∈ b :: l, ownerOf s.classes x = some r := by
          obtain ⟨x, hx, e⟩ := h1
          exact ⟨x, List.mem_cons_of_mem _ hx, e⟩
        rw [if_pos ⟨h1, hn⟩, if_pos ⟨this, hn⟩]
      · rw [if_neg (fun h => h1 h.1)]
        by_cases h2 : ownerOf s.classes b = some r
        · rw [if_pos ⟨h2, hn⟩, if_pos ⟨⟨b, List.mem_cons_self .., h2⟩, hn⟩]
        · rw [if_neg (fun h => h2 h.1), if_neg]
          rintro ⟨⟨x, hx, e⟩, -⟩
          rcases List.mem_cons.mp hx with e2 | hx
          · subst e2; exact h2 e
          · exact h1 ⟨x, hx, e⟩
    · simp [hn]

open Classical in
theorem foldl_aliases (lower : Str → Str) (k : Nat) (name : Str) (r : Nat) (n : Str) (bs : List Nat) : ∀ (s : St),
    Dict.get? ((bs.foldl (fun s b => register lower s b k name) s).regs r).aliases n
      = if (∃ b ∈ bs, ownerOf s.classes b = some r) ∧ Alt lower (aliasesOf s.classes k) name n then some k
        else Dict.get? (s.regs r).aliases n := by
  induction bs with
  | nil => intro s; simp
  | cons b l ih =>
    intro s
    rw [List.foldl_cons, ih, register_classes, register_aliases]
    by_cases hn : Alt lower (aliasesOf s.classes k) name n
    · by_cases h1 : ∃ b ∈ l, ownerOf s.classes b = some r
      · have : ∃ x ∈ b :: l, ownerOf s.classes x = some r := by
          obtain ⟨x, hx, e⟩ := h1
          exact ⟨x, List.mem_cons_of_mem _ hx, e⟩
        rw [if_pos ⟨h1, hn⟩, if_pos ⟨this, hn⟩]
      · rw [if_neg (fun h => h1 h.1)]
        by_cases h2 : ownerOf s.classes b = some r
        · rw [if_pos ⟨h2, hn⟩, if_pos ⟨⟨b, List.mem_cons_self .., h2⟩, hn⟩]
        · rw [if_neg (fun h => h2 h.1), if_neg]
          rintro ⟨⟨x, hx, e⟩, -⟩
          rcases List.mem_cons.mp hx with e2 | hx
          · subst e2; exact h2 e
          · exact h1 ⟨x, hx, e⟩
    · simp [hn]

theorem initCls_eq (lower : Str → Str) (s : St) (k : Nat) (name : Str) (bases : List Nat) :
    initCls lower s k name bases = (k :: bases).foldl (fun s b => register lower s b k name) s := rfl

/-! ## Last -/

theorem isLast_succ (P : Nat → Prop) (n k : Nat) :
    IsLast P (n + 1) k ↔ (P n ∧ k = n) ∨ (¬ P n ∧ IsLast P n k) := by
  constructor
  · rintro ⟨h1, h2, h3⟩
    by_cases e : k = n
    · subst e; exact Or.inl ⟨h2, rfl⟩
    · exact Or.inr ⟨h3 n (by omega) (by omega), by omega, h2, fun j hj hn => h3 j hj (by omega)⟩
  · rintro (⟨h, e⟩ | ⟨h, h1, h2, h3⟩)
    · subst e
      exact ⟨by omega, h, fun j h1 h2 => by omega⟩
    · refine ⟨by omega, h2, fun j hj hn => ?_⟩
      by_cases e : j = n
      · subst e; exact h
      · exact h3 j hj (by omega)

theorem isLast_congr {P Q : Nat → Prop} {n : Nat} (h : ∀ j, j < n → (P j ↔ Q j)) (k : Nat) :
    IsLast P n k ↔ IsLast Q n k := by
  constructor
  · rintro ⟨h1, h2, h3⟩
    exact ⟨h1, (h k h1).mp h2, fun j hj hn hq => h3 j hj hn ((h j hn).mpr hq)⟩
  · rintro ⟨h1, h2, h3⟩
    exact ⟨h1, (h k h1).mpr h2, fun j hj hn hq => h3 j hj hn ((h j hn).mp hq)⟩

theorem isLast_exists {P : Nat → Prop} : ∀ {n j : Nat}, j < n → P j → ∃ k, IsLast P n k := by
  intro n
  induction n with
  | zero => intro j h; omega
  | succ n ih =>
    intro j hj hp
    by_cases hn : P n
    · exact ⟨n, (isLast_succ ..).mpr (Or.inl ⟨hn, rfl⟩)⟩
    · have : j ≠ n := fun e => hn (e ▸ hp)
      obtain ⟨k, hk⟩ := ih (by omega : j < n) hp
      exact ⟨k, (isLast_succ ..).mpr (Or.inr ⟨hn, hk⟩)⟩

theorem isLast_unique {P : Nat → Prop} {n j k : Nat} (h1 : IsLast P n j) (h2 : IsLast P n k) : j = k := by
  rcases Nat.lt_trichotomy j k with h | h | h
  · exact absurd h2.2.1 (h1.2.2 k h h2.1)
  · exact h
  · exact absurd h1.2.1 (h2.2.2 j h h1.1)

end SC.Factory
