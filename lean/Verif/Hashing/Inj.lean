import Verif.Hashing.Lemmas
/-! # Hashing: canonical forms are determined by their digests -/
namespace SC.Hashing
open SC.Common

variable {md5 : Bytes → Bytes}

mutual
/-- Well-formed canonical forms: tagged texts and non-empty lists. -/
def Canon.Wf : Canon → Prop
  | .leaf b => b.head? = some '<'
  | .node l => l ≠ [] ∧ Canon.WfAll l
/-- ... in a list -/
def Canon.WfAll : List Canon → Prop
  | [] => True
  | c :: l => c.Wf ∧ Canon.WfAll l
end

theorem wfAll_iff (l : List Canon) : Canon.WfAll l ↔ ∀ c ∈ l, c.Wf := by
  induction l with
  | nil => simp [Canon.WfAll]
  | cons c l ih => simp [Canon.WfAll, ih]

mutual
/-- Mappings have as many values as keys. -/
def Val.Ok : Val → Prop
  | .none => True
  | .str _ => True
  | .num _ => True
  | .seq _ xs => Val.OkAll xs
  | .set _ xs => Val.OkAll xs
  | .dict _ _ ks vs => ks.length = vs.length ∧ Val.OkAll ks ∧ Val.OkAll vs
  | .arr0 x => x.Ok
  | .qty m _ => m.Ok
  | .obj s => s.Ok
/-- ... in a list -/
def Val.OkAll : List Val → Prop
  | [] => True
  | x :: xs => x.Ok ∧ Val.OkAll xs
end

theorem className_head (n r : Bytes) : (className n ++ r).head? = some '<' := by
  rfl

theorem className_head' (n : Bytes) : (className n).head? = some '<' := by
  rfl

mutual
theorem canon_wf : ∀ {x : Val}, x.Ok → (canon md5 x).Wf
  | .none, _ => className_head' _
  | .str s, _ => className_head _ _
  | .num n, _ => className_head _ _
  | .arr0 x, h => ⟨by simp, canon_wf (x := x) h, trivial⟩
  | .obj x, h => ⟨by simp, canon_wf (x := x) h, trivial⟩
  | .qty x u, h => ⟨by simp, canon_wf (x := x) h, className_head _ _, trivial⟩
  | .seq c xs, h => by
    rw [canon]
    cases xs with
    | nil => exact className_head' _
    | cons x xs => exact ⟨by simp [canons], canons_wf (xs := x :: xs) h⟩
  | .set c xs, h => by
    rw [canon]
    cases xs with
    | nil => exact className_head' _
    | cons x xs =>
      have hp := stableSort_perm (Canon.digest md5) (canons md5 (x :: xs))
      refine ⟨fun h0 => ?_, (wfAll_iff _).2 fun c hc => ?_⟩
      · rw [h0] at hp; simp [canons] at hp
      · exact (wfAll_iff _).1 (canons_wf (xs := x :: xs) h) c (hp.mem_iff.1 hc)
  | .dict o c ks vs, h => by
    rw [canon]
    cases ks with
    | nil => exact className_head' _
    | cons k ks =>
      have h1 := (wfAll_iff _).1 (canons_wf (xs := k :: ks) h.2.1)
      have h2 := (wfAll_iff _).1 (canons_wf (xs := vs) h.2.2)
      cases o
      · have hp := stableSort_perm (fun p => Canon.digest md5 p.1)
          ((canons md5 (k :: ks)).zip (canons md5 vs))
        refine ⟨fun h0 => ?_, (wfAll_iff _).2 fun c hc => ?_⟩
        · cases vs with
          | nil => have := h.1; simp at this
          | cons v vs =>
            have := hp.length_eq
            simp only [List.unzip_eq_map, List.append_eq_nil_iff, List.map_eq_nil_iff] at h0
            rw [h0.1] at this
            simp [canons] at this
        · rcases List.mem_append.1 hc with hc | hc
          · rw [List.unzip_eq_map] at hc
            obtain ⟨p, hp1, rfl⟩ := List.mem_map.1 hc
            exact h1 _ (List.of_mem_zip (a := p.1) (b := p.2) (hp.mem_iff.1 hp1)).1
          · rw [List.unzip_eq_map] at hc
            obtain ⟨p, hp1, rfl⟩ := List.mem_map.1 hc
            exact h2 _ (List.of_mem_zip (a := p.1) (b := p.2) (hp.mem_iff.1 hp1)).2
      · refine ⟨by simp [canons], (wfAll_iff _).2 fun c hc => ?_⟩
        rcases List.mem_append.1 hc with hc | hc
        · exact h1 c hc
        · exact h2 c hc
theorem canons_wf : ∀ {xs : List Val}, Val.OkAll xs → Canon.WfAll (canons md5 xs)
  | [], _ => trivial
  | x :: xs, h => ⟨canon_wf (x := x) h.1, canons_wf (xs := xs) h.2⟩
end

theorem digest_eq_md5 (c : Canon) : ∃ t, c.digest md5 = md5 t := by
  cases c with
  | leaf b => exact ⟨b, rfl⟩
  | node l => exact ⟨_, digest_node l⟩

/-- A concatenation of digests starts with a digest. -/
theorem flatten_head (hd : Digest md5) {l : List Canon} (h : l ≠ []) :
    (l.map (Canon.digest md5)).flatten.head? ≠ some '<' := by
  cases l with
  | nil => exact absurd rfl h
  | cons c l =>
    obtain ⟨t, ht⟩ := digest_eq_md5 (md5 := md5) c
    rw [List.map_cons, List.flatten_cons, ht]
    have h1 := hd.len t
    have h2 := hd.hex t
    cases hm : md5 t with
    | nil => rw [hm] at h1; simp at h1
    | cons x y =>
      rw [hm] at h2
      have := h2 x (by simp)
      simpa using this

theorem textsAll_fst_cons (c : Canon) (l : List Canon) :
    (Canon.texts.textsAll md5 (c :: l)).1 = (c.texts md5).1 ++ (Canon.texts.textsAll md5 l).1 := rfl

mutual
theorem digest_inj (hd : Digest md5) : ∀ (a b : Canon), a.Wf → b.Wf → NoCollision md5 a b →
    a.digest md5 = b.digest md5 → a = b
  | .leaf u, .leaf v, _, _, hn, h => by
    rw [digest_leaf, digest_leaf] at h
    rw [hn u (by simp [Canon.texts]) v (by simp [Canon.texts]) h]
  | .leaf u, .node l, ha, hb, hn, h => by
    rw [digest_leaf, digest_node] at h
    have := hn u (by simp [Canon.texts]) _ (by simp only [Canon.texts]; rw [textsAll_snd]; exact List.mem_cons_self) h
    exact absurd (this ▸ ha) (flatten_head hd hb.1)
  | .node l, .leaf u, ha, hb, hn, h => by
    rw [digest_leaf, digest_node] at h
    have := hn _ (by simp only [Canon.texts]; rw [textsAll_snd]; exact List.mem_cons_self) u (by simp [Canon.texts]) h
    exact absurd (this ▸ hb) (flatten_head hd ha.1)
  | .node l, .node m, ha, hb, hn, h => by
    rw [digest_node, digest_node] at h
    have := hn _ (by simp only [Canon.texts]; rw [textsAll_snd]; exact List.mem_cons_self) _
      (by simp only [Canon.texts]; rw [textsAll_snd]; exact List.mem_cons_self) h
    rw [digests_inj hd l m ha.2 hb.2 (fun u hu v hv => hn u (List.mem_cons_of_mem _ hu) v
      (List.mem_cons_of_mem _ hv)) this]
theorem digests_inj (hd : Digest md5) : ∀ (l m : List Canon), Canon.WfAll l → Canon.WfAll m →
    (∀ u ∈ (Canon.texts.textsAll md5 l).1, ∀ v ∈ (Canon.texts.textsAll md5 m).1, md5 u = md5 v → u = v) →
    (l.map (Canon.digest md5)).flatten = (m.map (Canon.digest md5)).flatten → l = m
  | [], [], _, _, _, _ => rfl
  | [], c :: m, _, _, _, h => by
    exfalso
    obtain ⟨t, ht⟩ := digest_eq_md5 (md5 := md5) c
    have := congrArg List.length h
    simp [ht, hd.len] at this
    omega
  | c :: l, [], _, _, _, h => by
    exfalso
    obtain ⟨t, ht⟩ := digest_eq_md5 (md5 := md5) c
    have := congrArg List.length h
    simp [ht, hd.len] at this
  | c :: l, e :: m, hl, hm, hn, h => by
    obtain ⟨t, ht⟩ := digest_eq_md5 (md5 := md5) c
    obtain ⟨s, hs⟩ := digest_eq_md5 (md5 := md5) e
    rw [List.map_cons, List.map_cons, List.flatten_cons, List.flatten_cons] at h
    obtain ⟨h1, h2⟩ := List.append_inj h (by rw [ht, hs, hd.len, hd.len])
    rw [textsAll_fst_cons, textsAll_fst_cons] at hn
    rw [digest_inj hd c e hl.1 hm.1 (fun u hu v hv => hn u (List.mem_append_left _ hu) v
        (List.mem_append_left _ hv)) h1,
      digests_inj hd l m hl.2 hm.2 (fun u hu v hv => hn u (List.mem_append_right _ hu) v
        (List.mem_append_right _ hv)) h2]
end

end SC.Hashing
