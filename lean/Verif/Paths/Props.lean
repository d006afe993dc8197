import Verif.Paths.Device
/-! # Properties of paths (C36)

`Is p k l`: the text `p` is the root of `k` slashes followed by the names `l`.  `follow l (split v)` is
the place reached from `l` along the parts of the text `v`. -/

namespace SC.Paths

/-! ## Normalization -/

/-- Every text is normalized to a path: an absolute text to the place reached from its root, another to
the place reached from the working directory. -/
theorem norm_spec {cwd : Str} {kc : Nat} {lc : List Str} (hc : Is cwd kc lc) (s : Str) :
    if isabs s = true then Is (norm cwd s) (slashes s) (follow [] (split s)) else Is (norm cwd s) kc (follow lc (split s)) := by
  split
  · rename_i h; exact norm_abs cwd h
  · rename_i h; exact norm_rel hc (by simpa using h)

/-- Normalizing again changes nothing. -/
theorem norm_norm {cwd : Str} {kc : Nat} {lc : List Str} (hc : Is cwd kc lc) (s : Str) : norm cwd (norm cwd s) = norm cwd s := by
  have h := norm_spec hc s
  split at h
  · exact norm_is cwd h
  · exact norm_is cwd h

/-- The working directory does not matter for absolute texts. -/
theorem norm_cwd (cwd cwd' : Str) {s : Str} (h : isabs s = true) : norm cwd s = norm cwd' s := by
  rw [(norm_abs cwd h).eq, (norm_abs cwd' h).eq]

/-! ## Going down and up -/

/-- `p[v]` for a relative text is the place reached from `p`. -/
theorem getitem_spec (cwd : Str) {p : Str} {k : Nat} {l : List Str} (h : Is p k l) {v : Str} (hv : isabs v = false) :
    Is (getitem cwd p v) k (follow l (split v)) := getitem_is cwd h hv

/-- `p[v]` for an absolute text is that path. -/
theorem getitem_absolute (cwd p : Str) {v : Str} (hv : isabs v = true) : getitem cwd p v = norm cwd v := by
  rw [getitem, join_abs hv]

theorem name_noabs {n : Str} (h : Name n) : isabs n = false := by
  rcases n with _ | ⟨c, n⟩
  · rfl
  · have hc : c ≠ '/' := fun e => h.2.1 (by simp [e])
    simp [isabs, hc]

/-- The child `p[n]` is below `p`, has the name `n`, and its parent is `p`. -/
theorem child_spec (cwd : Str) {p : Str} {k : Nat} {l : List Str} (h : Is p k l) {n : Str} (hn : Name n) :
    Is (getitem cwd p n) k (l ++ [n]) ∧ parent cwd (getitem cwd p n) = p ∧ name (getitem cwd p n) = n := by
  have h1 := getitem_is cwd h (name_noabs hn)
  rw [split_plain hn.2.1, follow_down (by simpa using hn)] at h1
  refine ⟨h1, ?_, ?_⟩
  · have h2 := parent_is cwd h1
    rw [List.dropLast_concat] at h2
    rw [h2.eq, h.eq]
  · unfold name basename
    rw [h1.eq]
    unfold render
    rw [split_render, split_glue (fun x hx => (h1.names x hx).2.1) (by simp), ← List.append_assoc]
    simp

/-- Different children have different paths. -/
theorem child_inj (cwd : Str) {p : Str} {k : Nat} {l : List Str} (h : Is p k l) {n m : Str} (hn : Name n) (hm : Name m)
    (he : getitem cwd p n = getitem cwd p m) : n = m := by
  rw [← (child_spec cwd h hn).2.2, he, (child_spec cwd h hm).2.2]

/-- A path that is not a root is the child of its parent. -/
theorem parent_child (cwd : Str) {p : Str} {k : Nat} {l : List Str} (h : Is p k l) (hl : l ≠ []) :
    Name (name p) ∧ getitem cwd (parent cwd p) (name p) = p := by
  obtain ⟨m, n, rfl⟩ : ∃ m n, l = m ++ [n] := ⟨l.dropLast, l.getLast hl, (List.dropLast_append_getLast hl).symm⟩
  have hn := h.names n (by simp)
  have hp := parent_is cwd h
  rw [List.dropLast_concat] at hp
  have hc := child_spec cwd hp hn
  have he : getitem cwd (parent cwd p) n = p := by rw [hc.1.eq, h.eq]
  have hname : name p = n := by rw [← hc.2.2, he]
  rw [hname]
  exact ⟨hn, he⟩

/-- A root is its own parent and has no name. -/
theorem root_spec (cwd : Str) {p : Str} {k : Nat} (h : Is p k []) : parent cwd p = p ∧ name p = [] := by
  have hp := parent_is cwd h
  refine ⟨by rw [hp.eq, h.eq]; rfl, ?_⟩
  rw [h.eq]
  rcases h.root with rfl | rfl <;> rfl

theorem split_join (a b : Str) (hb : isabs b = false) (base : List Str) :
    follow base (split (join a b)) = follow (follow base (split a)) (split b) := by
  unfold join
  rw [hb]
  simp only [Bool.false_eq_true, if_false]
  split
  · rename_i h
    rcases h with rfl | h
    · simp [split, follow]
    · obtain ⟨a', rfl⟩ : ∃ a', a = a' ++ ['/'] := by
        have hne : a ≠ [] := by rintro rfl; simp at h
        refine ⟨a.dropLast, ?_⟩
        rw [List.getLast?_eq_some_getLast hne, Option.some.injEq] at h
        rw [← h, List.dropLast_append_getLast]
      rw [show a' ++ ['/'] ++ b = a' ++ '/' :: b from by simp, split_append, split_append, follow_append, follow_append]
      simp [split, follow]
  · rw [split_append, follow_append]

/-- `p[a][b] = p[a/b]`. -/
theorem getitem_getitem (cwd : Str) {p : Str} {k : Nat} {l : List Str} (h : Is p k l) {a b : Str} (ha : isabs a = false)
    (hb : isabs b = false) : getitem cwd (getitem cwd p a) b = getitem cwd p (join a b) := by
  have h1 := getitem_is cwd (getitem_is cwd h ha) hb
  have hj : isabs (join a b) = false := by
    unfold join
    rw [hb]
    simp only [Bool.false_eq_true, if_false]
    rcases a with _ | ⟨c, a⟩
    · simpa using hb
    · have hc : c ≠ '/' := fun e => not_isabs ha a (by rw [e])
      split <;> simp [isabs, hc]
  have h2 := getitem_is cwd h hj
  rw [h1.eq, h2.eq, split_join a b hb]

/-! ## Relative paths -/

/-- `p[p.relpath(q)] = q`, when both have the same root. -/
theorem relpath_roundtrip (cwd : Str) {p q : Str} {k : Nat} {l m : List Str} (hp : Is p k l) (hq : Is q k m) :
    isabs (relTo cwd p q) = false ∧ getitem cwd p (relTo cwd p q) = q := by
  unfold relTo
  rw [hq.isabs, if_pos rfl]
  obtain ⟨h1, h2⟩ := relpath_parts cwd hp hq
  refine ⟨h1, ?_⟩
  have h3 := getitem_is cwd hp h1
  rw [h2, follow_append, follow_up, follow_down (fun n hn => hq.names n (List.mem_of_mem_drop hn)),
    Nat.sub_sub_self (common_le l m), common_take, List.take_append_drop] at h3
  rw [h3.eq, hq.eq]

theorem relpath_norm (cwd p : Str) {v : Str} (hv : isabs v = true) : relTo cwd p v = relTo cwd p (norm cwd v) := by
  have h := norm_abs cwd hv
  unfold relTo
  rw [hv, h.isabs, if_pos rfl, if_pos rfl]
  unfold relpath
  rw [abspath_is cwd h]
  have : abspath cwd v = norm cwd v := by
    unfold abspath
    rw [hv, if_pos rfl, (normpath_abs hv).eq, h.eq]
  rw [this]

/-- The relative path goes up to the deepest common ancestor and down from there, nothing more. -/
theorem relpath_shortest (cwd : Str) {p q : Str} {k k' : Nat} {l m c : List Str} (hp : Is p k l) (hq : Is q k' m)
    (hl : c <+: l) (hm : c <+: m) (hne : relTo cwd p q ≠ dot) :
    (split (relTo cwd p q)).length ≤ (l.length - c.length) + (m.length - c.length) := by
  unfold relTo at hne ⊢
  rw [hq.isabs, if_pos rfl] at hne ⊢
  unfold relpath at hne ⊢
  rw [abspath_is cwd hp, abspath_is cwd hq, parts_is hp, parts_is hq] at hne ⊢
  dsimp only at hne ⊢
  have hlen := common_max l m c hl hm
  have hall : ∀ y ∈ List.replicate (l.length - common l m) dots ++ m.drop (common l m), '/' ∉ y ∧ y ≠ [] := by
    intro y hy
    rcases List.mem_append.1 hy with hy | hy
    · rw [(List.mem_replicate.1 hy).2]; simp [dots]
    · have := hq.names y (List.mem_of_mem_drop hy)
      exact ⟨this.2.1, this.1⟩
  have hlen2 : (List.replicate (l.length - common l m) dots ++ m.drop (common l m)).length ≤
      (l.length - c.length) + (m.length - c.length) := by simp; omega
  revert hall hlen2 hne
  generalize List.replicate (l.length - common l m) dots ++ m.drop (common l m) = r
  intro hne hall hlen2
  rcases r with _ | ⟨x, r⟩
  · exact absurd rfl hne
  · obtain ⟨hx1, hx2⟩ := hall x (by simp)
    have hlast : x.getLast? ≠ some '/' := fun h => hx1 (List.mem_of_getLast? h)
    show (split (r.foldl join x)).length ≤ _
    rw [(split_fold x r hx2 hlast (fun y hy => hall y (by simp [hy]))).1, split_plain hx1]
    simpa [Nat.add_comm] using hlen2

/-! ## Ancestors -/

/-- `iterup` gives the path, its parent, and so on up to the root, each once. -/
theorem iterup_spec (cwd : Str) {p : Str} {k : Nat} {l : List Str} (h : Is p k l) :
    (iterup cwd p).length = l.length + 1 ∧ ∀ i ≤ l.length, (iterup cwd p)[i]? = some (render k (l.take (l.length - i))) := by
  rw [iterup_is cwd h]
  have key : ∀ n, (ups l n).length = n + 1 ∧ ∀ i ≤ n, (ups l n)[i]? = some (l.take (n - i)) := by
    intro n
    induction n with
    | zero => simp [ups]
    | succ n ih =>
      refine ⟨by simp [ups, ih.1], fun i hi => ?_⟩
      cases i with
      | zero => simp [ups]
      | succ i =>
        rw [ups, List.getElem?_cons_succ, ih.2 i (by omega)]
        congr 2
        omega
  refine ⟨by simp [(key _).1], fun i hi => ?_⟩
  rw [List.getElem?_map, (key _).2 i hi]
  rfl

/-- `root` -/
theorem root_is (cwd : Str) {p : Str} {k : Nat} {l : List Str} (h : Is p k l) : root cwd p = render k [] := by
  obtain ⟨h1, h2⟩ := iterup_spec cwd h
  unfold root
  rw [List.getLastD_eq_getLast?, List.getLast?_eq_getElem?, h1, Nat.add_sub_cancel, h2 _ (Nat.le_refl _)]
  simp

/-- `a` is `p` or an ancestor of it. -/
def Above (a p : Str) : Prop := ∃ k l m, Is a k l ∧ Is p k (l ++ m)

/-- The common path is an ancestor of both, and every common ancestor is above it. -/
theorem common_spec (cwd : Str) {p q : Str} {k : Nat} {l m : List Str} (hp : Is p k l) (hq : Is q k m) :
    ∃ r, commonPath cwd p q = some r ∧ Above r p ∧ Above r q ∧ ∀ a, Above a p → Above a q → Above a r := by
  refine ⟨_, commonPath_is cwd hp hq, ?_, ?_, ?_⟩
  · refine ⟨k, l.take (common l m), l.drop (common l m), is_render hp.root (fun n hn => hp.names n (List.mem_of_mem_take hn)), ?_⟩
    rw [List.take_append_drop]; exact hp
  · refine ⟨k, l.take (common l m), m.drop (common l m), is_render hp.root (fun n hn => hp.names n (List.mem_of_mem_take hn)), ?_⟩
    rw [common_take, List.take_append_drop]; exact hq
  · rintro a ⟨k1, c, r, ha, hr⟩ ⟨k2, c', r', ha', hr'⟩
    obtain ⟨rfl, rfl⟩ := ha.inj ha'
    obtain ⟨rfl, rfl⟩ := hp.inj hr
    obtain ⟨-, rfl⟩ := hq.inj hr'
    have hle := common_max (c ++ r) (c ++ r') c (List.prefix_append _ _) (List.prefix_append _ _)
    have hpre : c <+: (c ++ r).take (common (c ++ r) (c ++ r')) :=
      (List.prefix_take_iff).2 ⟨List.prefix_append _ _, hle⟩
    obtain ⟨e, he⟩ := hpre
    refine ⟨k, c, e, ha, ?_⟩
    rw [he]
    exact is_render hp.root (fun n hn => hp.names n (List.mem_of_mem_take hn))

/-- A path is below another exactly when their common path is the other. -/
theorem common_above (cwd : Str) {p q : Str} {k k' : Nat} {l m : List Str} (hp : Is p k l) (hq : Is q k' m) :
    commonPath cwd p q = some p ↔ Above p q := by
  constructor
  · intro h
    by_cases hk : k = k'
    · subst hk
      obtain ⟨r, h1, h2, h3, -⟩ := common_spec cwd hp hq
      rw [h, Option.some.injEq] at h1
      exact h1 ▸ h3
    · rw [commonPath_roots cwd hp hq hk] at h
      simp at h
  · rintro ⟨k1, l1, r, h1, h2⟩
    obtain ⟨rfl, rfl⟩ := hp.inj h1
    obtain ⟨rfl, rfl⟩ := hq.inj h2
    rw [commonPath_is cwd hp hq, hp.eq]
    congr 2
    have h3 := common_le l (l ++ r)
    have h4 := common_max l (l ++ r) l (List.prefix_refl _) (List.prefix_append _ _)
    rw [show common l (l ++ r) = l.length from by omega, List.take_length]

/-! ## Siblings and links -/

/-- A relative text names the sibling reached from the parent. -/
theorem sibling_spec (cwd : Str) {p : Str} {k : Nat} {l : List Str} (h : Is p k l) (v : Str) :
    if isabs v = true then Is (sibling cwd p v) (slashes v) (follow [] (split v))
    else Is (sibling cwd p v) k (follow l.dropLast (split v)) := by
  unfold sibling
  split
  · rename_i hv; exact norm_abs cwd hv
  · rename_i hv; exact getitem_is cwd (parent_is cwd h) (by simpa using hv)

/-- The text of a symbolic link leads back to the destination it was made for: an absolute one with the
same root, or a sibling. -/
theorem link_roundtrip (cwd : Str) {p : Str} {k : Nat} {l : List Str} (h : Is p k l) (v : Str)
    (hv : isabs v = true → slashes v = k) : absOf cwd p (relTo cwd (parent cwd p) v) = sibling cwd p v := by
  have hp := parent_is cwd h
  by_cases ha : isabs v = true
  · have hn := norm_abs cwd ha
    rw [hv ha] at hn
    rw [relpath_norm cwd _ ha]
    have := (relpath_roundtrip cwd hp hn).2
    unfold absOf
    unfold getitem at this
    rw [this, sibling, if_pos ha]
  · unfold absOf relTo sibling
    rw [if_neg ha, if_neg ha]
    rfl

theorem hasDots_split {t : Str} (h : dots ∈ split t) : hasDots t = true := by
  induction t with
  | nil => simp [split, dots] at h
  | cons c s ih =>
    unfold split at h
    unfold hasDots
    rw [Bool.or_eq_true]
    split at h
    · rcases List.mem_cons.1 h with h | h
      · simp [dots] at h
      · exact Or.inr (ih h)
    · rename_i hc
      split at h
      · rename_i x xs he
        rcases List.mem_cons.1 h with h | h
        · left
          have h1 := List.cons.inj h
          rcases s with _ | ⟨b, s⟩
          · simp only [split, List.cons.injEq] at he
            rw [← he.1] at h1
            simp at h1
          · have : b = '.' := by
              unfold split at he
              split at he
              · rename_i hb
                rw [← (List.cons.inj he).1] at h1
                simp at h1
              · split at he <;> (rw [← (List.cons.inj he).1] at h1; simp at h1; first | exact h1.2.1.symm | exact h1.2.symm)
            rw [List.isPrefixOf_iff_prefix]
            exact ⟨s, by rw [this, ← h1.1]; rfl⟩
        · exact Or.inr (ih (by rw [he]; simp [h]))
      · simp [dots] at h

/-- The text of a soft link in an HDF5 file leads to the destination, and never has a part `..`, which
HDF5 does not understand. -/
theorem h5link_roundtrip (cwd : Str) (self : H5) {k : Nat} {l : List Str} (h : Is self.path k l) (v : Str)
    (hv : isabs v = true → slashes v = k) (dest : H5) (hd : dest.path = sibling cwd self.path v) :
    h5LinkDest cwd self (h5LinkText cwd self v dest) = dest.path ∧ dots ∉ split (h5LinkText cwd self v dest) := by
  have hs := sibling_spec cwd h v
  obtain ⟨k', m, hs⟩ : ∃ k' m, Is dest.path k' m := by
    rw [hd]
    split at hs
    · exact ⟨_, _, hs⟩
    · exact ⟨_, _, hs⟩
  unfold h5LinkText h5LinkDest
  dsimp only
  split
  · constructor
    · unfold absOf
      rw [join_abs hs.isabs, norm_is cwd hs]
    · rw [hs.eq]
      unfold render
      rw [split_render]
      intro hmem
      rcases List.mem_append.1 hmem with hmem | hmem
      · have := (List.mem_replicate.1 hmem).2
        simp [dots] at this
      · rcases m with _ | ⟨x, m⟩
        · simp [glue, split, dots] at hmem
        · rw [split_glue (fun x hx => (hs.names x hx).2.1) (by simp)] at hmem
          exact (hs.names dots hmem).2.2.2 rfl
  · rename_i hdots
    refine ⟨?_, fun hmem => hdots (hasDots_split hmem)⟩
    rw [hd]
    exact link_roundtrip cwd h v hv

/-- After moving `source` to `dest`, a soft link below `dest` whose text is absolute leads to the moved
destination when that was below `source`, and to the same destination otherwise. -/
theorem relink_absolute (cwd : Str) {source dest : Str} (self : H5) {text : Str} {k : Nat} {s d r m : List Str} (hs : Is source k s)
    (hd : Is dest k d) (hself : Is self.path k (d ++ r)) (ht : Is text k m) :
    relink cwd source dest self text = if s <+: m then render k (d ++ m.drop s.length) else text := by
  have hld : h5LinkDest cwd self text = text := by
    unfold h5LinkDest absOf
    rw [join_abs ht.isabs, norm_is cwd ht]
  have hab : Above source text ↔ s <+: m := by
    constructor
    · rintro ⟨k1, l1, r1, h1, h2⟩
      obtain ⟨-, rfl⟩ := hs.inj h1
      obtain ⟨-, rfl⟩ := ht.inj h2
      exact List.prefix_append _ _
    · rintro ⟨r1, rfl⟩
      exact ⟨k, s, r1, hs, ht⟩
  unfold relink
  dsimp only
  rw [hld]
  by_cases hb : s <+: m
  · rw [if_pos ((common_above cwd hs ht).2 (hab.2 hb)), if_pos hb]
    obtain ⟨r1, rfl⟩ := hb
    have hrel := relpath_roundtrip cwd hs ht
    have hg := getitem_is cwd hd hrel.1
    have he : follow d (split (relTo cwd source text)) = d ++ r1 := by
      have h1 := (relpath_parts cwd hs ht).2 d
      unfold relTo
      rw [ht.isabs, if_pos rfl, h1]
      have h3 := common_le s (s ++ r1)
      have h4 := common_max s (s ++ r1) s (List.prefix_refl _) (List.prefix_append _ _)
      rw [show common s (s ++ r1) = s.length from by omega, Nat.sub_self, List.replicate_zero, List.nil_append,
        List.drop_left, follow_down (fun n hn => ht.names n (by simp [hn]))]
    rw [he] at hg
    rw [List.drop_left, ← hg.eq]
    refine (h5link_roundtrip cwd self hself _ (fun _ => ?_) ⟨self.device, _⟩ ?_).1
    · rw [hg.eq]
      unfold render
      exact slashes_render hg.root (glue_head hg.names)
    · show getitem cwd dest (relTo cwd source text) = _
      rw [sibling, if_pos hg.isabs, norm_is cwd hg]
  · rw [if_neg (fun h => hb (hab.1 ((common_above cwd hs ht).1 h))), if_neg hb]

/-- A soft link with a relative text without `..` moves along, when neither of source and destination
is below the other. -/
theorem relink_relative (cwd : Str) {source dest : Str} (self : H5) {text : Str} {k : Nat} {s d r w : List Str} {n : Str}
    (hs : Is source k s) (hself : Is self.path k (d ++ r ++ [n])) (ht : isabs text = false)
    (hw : ∀ base, follow base (split text) = base ++ w) (hsd : ¬ s <+: d) (hds : ¬ d <+: s) :
    relink cwd source dest self text = render k (d ++ r ++ w) := by
  have hp := parent_is cwd hself
  rw [List.dropLast_concat] at hp
  have hld : Is (h5LinkDest cwd self text) k (d ++ r ++ w) := by
    have := getitem_is cwd hp ht
    rw [hw] at this
    exact this
  unfold relink
  dsimp only
  rw [if_neg, hld.eq]
  intro h
  obtain ⟨k1, l1, r1, h1, h2⟩ := (common_above cwd hs hld).1 h
  obtain ⟨-, rfl⟩ := hs.inj h1
  obtain ⟨-, he⟩ := hld.inj h2
  rw [List.append_assoc] at he
  have h3 : d <+: s ++ r1 := ⟨r ++ w, he⟩
  have h4 : s <+: s ++ r1 := List.prefix_append _ _
  rcases List.prefix_or_prefix_of_prefix h3 h4 with h | h
  · exact hds h
  · exact hsd h

/-! ## Devices -/

/-- The parts joined give the text. -/
theorem devsplit_glue (s : Str) : glue devsep (devsplit s) = s := devsplitN_glue _ _ _

/-- The text is split exactly when it has an extension followed by `::`. -/
theorem devsplit_iff (s : Str) : devsplit s = [s] ↔ ¬ HasDev s := by
  constructor
  · intro h hd
    have := devsplitN_some s.length [] s (Nat.le_refl _) hd
    unfold devsplit at h
    rw [h] at this
    simp at this
  · intro h
    exact devsplitN_none _ _ _ h

/-- `Path("file.ext::/node")` is the node in the file. -/
theorem init_location (cwd : Str) {d q : Str} {kd k : Nat} {ld l : List Str} (hd : Is d kd ld) (hq : Is q k l) (he : HasExt d)
    (hc : ':' ∉ d) : h5Init cwd (d ++ devsep ++ q) none = some ⟨d, q⟩ := by
  have hq' := hq.isabs
  rcases q with _ | ⟨c, t⟩
  · simp [isabs] at hq'
  · have hcs : c = '/' := by
      by_contra hne
      simp [isabs, hne] at hq'
    subst hcs
    unfold h5Init
    rw [splitPath_file d t he hc]
    have hdne : d ≠ [] := by rw [hd.eq]; exact render_ne hd.root _
    simp only [hq', if_true, if_neg hdne]
    rw [norm_is cwd hd, norm_is cwd hq]

/-- The location of a node leads back to the node. -/
theorem location_roundtrip (cwd : Str) (p : H5) {kd k : Nat} {ld l : List Str} (hd : Is p.device kd ld) (hq : Is p.path k l)
    (he : HasExt p.device) (hc : ':' ∉ p.device) : h5Init cwd p.location none = some p := init_location cwd hd hq he hc

/-- The device given separately: the text of a node without device is in that file. -/
theorem init_local (cwd : Str) {d q : Str} {kd : Nat} {ld : List Str} (hd : Is d kd ld) (h1 : ¬ HasDev q) (h2 : ¬ d <+: q) :
    h5Init cwd q (some d) = some ⟨d, norm cwd (if isabs q then q else '/' :: q)⟩ := by
  unfold h5Init
  rw [splitPath_local d q h1 h2]
  have hdne : d ≠ [] := by rw [hd.eq]; exact render_ne hd.root _
  simp only [if_neg hdne]
  rw [norm_is cwd hd]

/-- `p[v]` stays in the file and is the path `p.path[v]`, unless the joined path looks like another file
or starts with the path of the file. -/
theorem h5Getitem_spec (cwd : Str) (self : H5) {kd k : Nat} {ld l : List Str} (hd : Is self.device kd ld) (hp : Is self.path k l)
    {v : Str} (h1 : ¬ HasDev (join self.path v)) (h2 : ¬ self.device <+: join self.path v) :
    h5Getitem cwd self v = some ⟨self.device, getitem cwd self.path v⟩ := by
  unfold h5Getitem h5Factory
  rw [splitPath_own]
  dsimp only
  rw [init_local cwd hd h1 h2]
  have : isabs (join self.path v) = true := by
    by_cases hv : isabs v = true
    · rw [join_abs hv, hv]
    · exact (join_rel hp (by simpa using hv)).1
  rw [this, if_pos rfl]
  rfl

/-- The location of a node of the same file is found again by `factory`. -/
theorem factory_location (cwd : Str) (self : H5) {d q : Str} {kd k : Nat} {ld l : List Str} (hd : Is d kd ld) (hq : Is q k l)
    (hself : self.device = d) (h1 : ¬ HasDev q) (h2 : ¬ d <+: q) : h5Factory cwd self (d ++ devsep ++ q) = some ⟨d, q⟩ := by
  subst hself
  unfold h5Factory
  rw [splitPath_own]
  dsimp only
  rw [init_local cwd hd h1 h2, hq.isabs, if_pos rfl, norm_is cwd hq]

/-- A location in another file is found by `factory`, when the other location does not start with the
path of this file. -/
theorem factory_other (cwd : Str) (self : H5) {d q : Str} {kd k : Nat} {ld l : List Str} (hd : Is d kd ld) (hq : Is q k l)
    (he : HasExt d) (hc : ':' ∉ d) (h0 : ¬ self.device <+: d ++ devsep ++ q) (h1 : ¬ HasDev q) (h2 : ¬ d <+: q) :
    h5Factory cwd self (d ++ devsep ++ q) = some ⟨d, q⟩ := by
  have hq' := hq.isabs
  rcases q with _ | ⟨c, t⟩
  · simp [isabs] at hq'
  · have hcs : c = '/' := by
      by_contra hne
      simp [isabs, hne] at hq'
    subst hcs
    have hs := splitPath_file d t he hc
    have hne : d ≠ self.device := by
      rintro rfl
      exact h0 ⟨devsep ++ '/' :: t, by simp⟩
    have : splitPath (d ++ devsep ++ '/' :: t) (some self.device) = (d, '/' :: t) := by
      unfold splitPath at hs ⊢
      dsimp only at hs ⊢
      rw [Prod.mk.injEq] at hs
      rw [hs.1, hs.2, if_neg hne, if_neg (by rw [List.isPrefixOf_iff_prefix]; exact h0), if_neg (by simp)]
    unfold h5Factory
    rw [this]
    dsimp only
    rw [init_local cwd hd h1 h2, hq', if_pos rfl, norm_is cwd hq]

/-- The sibling of a node given by a relative text. -/
theorem h5Sibling_spec (cwd : Str) (self : H5) {kd k : Nat} {ld l : List Str} (hd : Is self.device kd ld) (hp : Is self.path k l)
    {v : Str} (hv : isabs v = false) (h1 : ¬ HasDev v) (h3 : ¬ HasDev (join self.path dots)) (h4 : ¬ self.device <+: join self.path dots)
    (h5 : ¬ HasDev (join (parent cwd self.path) v)) (h6 : ¬ self.device <+: join (parent cwd self.path) v) :
    h5Sibling cwd self v = some ⟨self.device, sibling cwd self.path v⟩ := by
  have h2 : ¬ self.device <+: v := by
    intro ⟨t, ht⟩
    have ha := hd.isabs
    rcases hdv : self.device with _ | ⟨c, d⟩
    · rw [hdv] at ha; simp [isabs] at ha
    · rw [hdv] at ht ha
      rw [← ht] at hv
      have hcs : c = '/' := by
        by_contra hne
        simp [isabs, hne] at ha
      subst hcs
      simp [isabs] at hv
  unfold h5Sibling
  rw [splitPath_local _ _ h1 h2]
  dsimp only
  rw [if_pos ⟨rfl, hv⟩, h5Getitem_spec cwd self hd hp h3 h4]
  show h5Getitem cwd ⟨self.device, parent cwd self.path⟩ v = _
  rw [h5Getitem_spec cwd ⟨self.device, parent cwd self.path⟩ hd (parent_is cwd hp) h5 h6]
  unfold sibling
  rw [hv]
  rfl

end SC.Paths
