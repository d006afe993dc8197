import Verif.Indexing.Core
/-! # Helper lemmas: the stack axis is indexed by a list -/
namespace SC.Indexing
open SC.Py SC.Numpy

theorem nonzeroFrom_length (k : Nat) (l : List Bool) :
    (nonzeroFrom k l).length = (l.filter id).length := by
  induction l generalizing k with
  | nil => rfl
  | cons b l ih => cases b <;> simp [nonzeroFrom, ih]

theorem mapM_length {α β : Type} {f : α → Option β} {l : List α} {l' : List β}
    (h : l.mapM f = some l') : l'.length = l.length := by
  rw [mapM_some_iff] at h
  simpa using (congrArg List.length h).symm

theorem lenAdv1_eq {n : Nat} {x : Item} {r : Res} (h : resolve1 n x = some r) :
    lenAdv1 x = (r.len?).getD 0 := by
  cases x with
  | ilist l =>
    simp only [resolve1, Option.map_eq_some_iff] at h
    obtain ⟨ks, hk, rfl⟩ := h
    simp [lenAdv1, Res.len?, mapM_length hk]
  | blist l =>
    simp only [resolve1] at h
    split at h
    · simp at h; subst h
      simp [lenAdv1, Res.len?, nonzeroFrom_length]
    · simp at h
  | int i =>
    simp only [resolve1, Option.map_eq_some_iff] at h
    obtain ⟨ks, hk, rfl⟩ := h; rfl
  | slice i =>
    simp only [resolve1, Option.map_eq_some_iff] at h
    obtain ⟨ks, hk, rfl⟩ := h; rfl
  | _ => simp [resolve1] at h

/-- Without new axes: the lengths per entry. -/
theorem lenAdv_map {is : List Item} {s : List Nat} {rs : List Res} (hb : Basic is)
    (h : resolve is s = some rs) :
    ((is.filter (· != .newaxis)).zip s).map (fun x => lenAdv1 x.1) =
      rs.map (fun r => (r.len?).getD 0) := by
  induction is generalizing s rs with
  | nil => cases s <;> simp [resolve] at h; subst h; rfl
  | cons i is ih =>
    obtain ⟨n, s', r, rs', rfl, rfl, h5, h6⟩ := resolve_cons_some (hb i (by simp)) h
    have hn : i ≠ .newaxis := (resolve1_kind h5).2.2.2.2
    have := ih (fun y hy => hb y (by simp [hy])) h6
    simp only [List.filter_cons, bne_iff_ne, ne_eq, hn, not_false_iff, if_true, List.zip_cons_cons,
      List.map_cons, this, lenAdv1_eq h5]

theorem lenAdv_eq {is : List Item} {s : List Nat} {rs : List Res} {m : Nat} (hb : Basic is)
    (h : resolve is s = some rs) (hm : ∀ l ∈ rs.filterMap Res.len?, l = m) :
    lenAdv is s = some (if is.any isAdv then m else 0) := by
  have hany := (resolve_facts hb.plain h).2.1
  simp only [lenAdv]
  rw [lenAdv_map hb h, ← hany]
  by_cases hm0 : m = 0
  · have : (rs.map (fun r => (r.len?).getD 0)).filter (· != 0) = [] := by
      rw [List.filter_eq_nil_iff]
      intro x hx
      obtain ⟨r, hr, rfl⟩ := List.mem_map.mp hx
      cases hl : r.len? with
      | none => simp
      | some l =>
        have := hm l (List.mem_filterMap.mpr ⟨r, hr, hl⟩)
        simp [this, hm0]
    rw [this]; simp [hm0]
  · have hall : ∀ x ∈ (rs.map (fun r => (r.len?).getD 0)).filter (· != 0), x = m := by
      intro x hx
      obtain ⟨hx1, hx2⟩ := List.mem_filter.mp hx
      obtain ⟨r, hr, rfl⟩ := List.mem_map.mp hx1
      cases hl : r.len? with
      | none => rw [hl] at hx2; simp at hx2
      | some l => simpa using hm l (List.mem_filterMap.mpr ⟨r, hr, hl⟩)
    by_cases ha : rs.any Res.isMany
    · rw [if_pos ha]
      have hne : (rs.map (fun r => (r.len?).getD 0)).filter (· != 0) ≠ [] := by
        intro h0
        rw [List.filter_eq_nil_iff] at h0
        obtain ⟨r, hr, hrm⟩ := List.any_eq_true.mp ha
        have hsome : ∃ l, r.len? = some l := by
          cases r <;> simp [Res.isMany, Res.len?] at hrm ⊢
        obtain ⟨l, hl⟩ := hsome
        have h1 := h0 _ (List.mem_map.mpr ⟨r, hr, rfl⟩)
        have h2 := hm l (List.mem_filterMap.mpr ⟨r, hr, hl⟩)
        rw [hl] at h1
        simp at h1; omega
      split
      · contradiction
      · rename_i t ts hts
        rw [hts] at hall
        have ht : t = m := hall t (by simp)
        subst ht
        rw [if_pos]
        rw [List.all_eq_true]
        intro x hx
        simpa using hall x (by simp [hx])
    · rw [if_neg ha]
      have : (rs.map (fun r => (r.len?).getD 0)).filter (· != 0) = [] := by
        rw [List.filter_eq_nil_iff]
        intro x hx
        obtain ⟨r, hr, rfl⟩ := List.mem_map.mp hx
        have : r.isMany = false := by
          cases hrm : r.isMany with
          | false => rfl
          | true => exact absurd (List.any_eq_true.mpr ⟨r, hr, hrm⟩) ha
        clear hall
        cases r <;> first | (simp [Res.isMany] at this; done) | simp [Res.len?]
      rw [this]

def pickAt (j : Nat) : Res → Res
  | .many ks => .pick (ks.getD j 0)
  | r => r

theorem resolve_listAt {is : List Item} {s : List Nat} {rs : List Res} {m j : Nat} (hb : Basic is)
    (hnb : ∀ i ∈ is, ∀ l, i ≠ .blist l)
    (h : resolve is s = some rs) (hm : ∀ l ∈ rs.filterMap Res.len?, l = m) (hj : j < m) :
    ∃ is', is.mapM (listAt j) = some is' ∧ resolve is' s = some (rs.map (pickAt j)) := by
  induction is generalizing s rs with
  | nil => cases s <;> simp [resolve] at h; subst h; exact ⟨[], rfl, rfl⟩
  | cons i is ih =>
    obtain ⟨n, s', r, rs', rfl, rfl, h5, h6⟩ := resolve_cons_some (hb i (by simp)) h
    obtain ⟨is', h7, h8⟩ := ih (fun y hy => hb y (by simp [hy])) (fun y hy => hnb y (by simp [hy])) h6
      (fun l hl => hm l (by
        simp only [List.filterMap_cons]; split
        · exact hl
        · exact List.mem_cons_of_mem _ hl))
    have key : ∃ i', listAt j i = some i' ∧ i'.consumes ∧ resolve1 n i' = some (pickAt j r) := by
      cases i with
      | int k =>
        refine ⟨.int k, rfl, rfl, ?_⟩
        simp only [resolve1, Option.map_eq_some_iff] at h5
        obtain ⟨x, hx, rfl⟩ := h5
        simp [resolve1, hx, pickAt]
      | slice k =>
        refine ⟨.slice k, rfl, rfl, ?_⟩
        simp only [resolve1, Option.map_eq_some_iff] at h5
        obtain ⟨x, hx, rfl⟩ := h5
        simp [resolve1, hx, pickAt]
      | ilist l =>
        simp only [resolve1, Option.map_eq_some_iff] at h5
        obtain ⟨ks, hks, rfl⟩ := h5
        have hkl : ks.length = m := hm _ (by simp [Res.len?])
        have hll := mapM_length hks
        have hjl : j < l.length := by omega
        have hjk : j < ks.length := by omega
        refine ⟨.int l[j], by simp [listAt, List.getElem?_eq_getElem hjl], rfl, ?_⟩
        rw [mapM_some_iff] at hks
        have := congrArg (fun l => l[j]?) hks
        simp only [List.getElem?_map, List.getElem?_eq_getElem hjl, List.getElem?_eq_getElem hjk,
          Option.map_some, Option.some.injEq] at this
        simp [resolve1, this, pickAt, hjk]
      | blist l => exact absurd rfl (hnb _ (by simp) l)
      | _ => simp [resolve1] at h5
    obtain ⟨i', k1, k2, k3⟩ := key
    refine ⟨i' :: is', ?_, ?_⟩
    · rw [List.mapM_cons, k1, h7]; rfl
    · rw [resolve_cons k2, k3, h8]; rfl

theorem pickAt_facts {rs : List Res} {m j : Nat} (hm : ∀ l ∈ rs.filterMap Res.len?, l = m)
    (hj : j < m) (hnf : ∀ b, .flag b ∉ rs) :
    (rs.map (pickAt j)).any Res.isMany = false ∧
    dims (rs.map (pickAt j)) = dims rs ∧
    ∀ j' r, walk (rs.map (pickAt j)) j' r = walk rs j r := by
  induction rs with
  | nil => exact ⟨rfl, rfl, fun _ _ => rfl⟩
  | cons x rs ih =>
    obtain ⟨h1, h2, h3⟩ := ih
      (fun l hl => hm l (by
        simp only [List.filterMap_cons]; split
        · exact hl
        · exact List.mem_cons_of_mem _ hl))
      (fun b hb => hnf b (by simp [hb]))
    have h2' : dims (List.map (pickAt j) rs) = dims rs := h2
    simp only [dims] at h2'
    cases x with
    | many ks =>
      have hkl : ks.length = m := hm _ (by simp [Res.len?])
      refine ⟨by simp [pickAt, Res.isMany] at h1 ⊢; exact h1, ?_, ?_⟩
      · simp only [dims, List.map_cons, List.filterMap_cons, pickAt, Res.dimLen?, h2']
      · intro j' r
        have : (if ks.length = 1 then 0 else j) = j := by split <;> omega
        simp only [List.map_cons, pickAt, walk, h3, this]
    | flag b => exact absurd (by simp) (hnf b)
    | pick k =>
      refine ⟨by simp [pickAt, Res.isMany] at h1 ⊢; exact h1, ?_, ?_⟩
      · simp only [dims, List.map_cons, List.filterMap_cons, pickAt, Res.dimLen?, h2']
      · intro j' r; simp only [List.map_cons, pickAt, walk, h3]
    | span k =>
      refine ⟨by simp [pickAt, Res.isMany] at h1 ⊢; exact h1, ?_, ?_⟩
      · simp only [dims, List.map_cons, List.filterMap_cons, pickAt, Res.dimLen?, h2']
      · intro j' r; simp only [List.map_cons, pickAt, walk, h3]
    | new =>
      refine ⟨by simp [pickAt, Res.isMany] at h1 ⊢; exact h1, ?_, ?_⟩
      · simp only [dims, List.map_cons, List.filterMap_cons, pickAt, Res.dimLen?, h2']
      · intro j' r; simp only [List.map_cons, pickAt, walk, h3]

theorem resolve_no_flag {is : List Item} {s : List Nat} {rs : List Res} (hb : Basic is)
    (h : resolve is s = some rs) : ∀ b, Res.flag b ∉ rs := by
  induction is generalizing s rs with
  | nil => cases s <;> simp [resolve] at h; subst h; simp
  | cons i is ih =>
    obtain ⟨n, s', r, rs', rfl, rfl, h5, h6⟩ := resolve_cons_some (hb i (by simp)) h
    intro b hmem
    rcases List.mem_cons.mp hmem with h1 | h1
    · exact (resolve1_kind h5).2.1 b h1.symm
    · exact ih (fun y hy => hb y (by simp [hy])) h6 b h1

theorem mapM_congr_pointwise {α β : Type} {f : α → Option β} {l : List α} {l' : List β}
    (hl : l'.length = l.length)
    (h : ∀ i, (hi : i < l.length) → f l[i] = l'[i]?) : l.mapM f = some l' := by
  rw [mapM_some_iff]
  apply List.ext_getElem?
  intro i
  simp only [List.getElem?_map]
  by_cases hi : i < l.length
  · rw [List.getElem?_eq_getElem hi, List.getElem?_eq_getElem (by omega)]
    simp only [Option.map_some]
    rw [h i hi, List.getElem?_eq_getElem (by omega)]
  · rw [List.getElem?_eq_none (by omega), List.getElem?_eq_none (by omega)]; rfl

namespace Setup
variable {α β : Type} (S : Setup α β)

/-- List index on the stack axis. -/
theorem many_case {ks : List Nat} (hk : S.rx = .many ks)
    (hnb : ∀ i ∈ S.A ++ S.B, ∀ l, i ≠ .blist l) {sel : List β}
    (hs : sel.map some = ks.map (fun k => S.args[k]?)) :
    ∃ (il : List (List Item)) (ds : List (Arr α)),
      decompose (S.A ++ S.B) ks.length = some il ∧ il.length = ks.length ∧
      (sel.zip il).mapM (fun x => npGet (S.gen x.1) x.2) = some ds ∧ ds.length = ks.length ∧
      (sel ≠ [] → ∃ st', stack ds (apos (fl (S.A ++ S.x :: S.B))) = some st' ∧ st'.Equiv S.b) := by
  obtain ⟨hl, hmem, hget⟩ := S.sel_facts hs
  have hkm : ks.length = S.m := S.hm _ (by rw [hk]; simp [lens, Res.len?])
  have hat : ∀ j, j < S.m → ∃ is', (S.A ++ S.B).mapM (listAt j) = some is' ∧
      resolve is' (S.sA ++ S.sB) = some ((S.RA ++ S.RB).map (pickAt j)) :=
    fun j hj => resolve_listAt S.basicAB hnb S.rest S.hmAB hj
  have hdec : ∃ il : List (List Item), decompose (S.A ++ S.B) ks.length = some il ∧
      il.length = ks.length ∧ ∀ j, j < ks.length → ∃ is', il[j]? = some is' ∧
      resolve is' (S.sA ++ S.sB) = some ((S.RA ++ S.RB).map (pickAt j)) := by
    refine ⟨(List.range ks.length).map (fun j => ((S.A ++ S.B).mapM (listAt j)).getD []), ?_, by simp, ?_⟩
    · apply mapM_congr_pointwise (by simp)
      intro i hi
      have hi' : i < ks.length := by simpa using hi
      obtain ⟨is', h1, _⟩ := hat i (by omega)
      rw [List.getElem_range, h1, List.getElem?_map, List.getElem?_range hi', Option.map_some, h1]
      rfl
    · intro j hj
      obtain ⟨is', h1, h2⟩ := hat j (by omega)
      refine ⟨is', ?_, h2⟩
      rw [List.getElem?_map, List.getElem?_range hj, Option.map_some, h1]
      rfl
  obtain ⟨il, hil, hill, hilr⟩ := hdec
  -- the planes
  let dOf : Nat → β → Arr α := fun j a =>
    ⟨dims (S.RA ++ S.RB), fun r => (S.gen a).get (walk (S.RA ++ S.RB) j r)⟩
  have hnf := resolve_no_flag S.basicAB S.rest
  have hplane : ∀ j, j < ks.length → ∀ a ∈ S.args, ∀ is',
      resolve is' (S.sA ++ S.sB) = some ((S.RA ++ S.RB).map (pickAt j)) →
      npGet (S.gen a) is' = some (dOf j a) := by
    intro j hj a ha is' his
    obtain ⟨p1, p2, p3⟩ := pickAt_facts S.hmAB (by omega : j < S.m) hnf
    rw [npGet_of_resolve (by rw [S.shapes a ha]; exact his), indexRes_basic _ p1]
    simp only [dOf, p3]
    simp only [dims] at p2 ⊢
    rw [p2]
  refine ⟨il, (sel.zipIdx).map (fun x => dOf x.2 x.1), hil, hill, ?_, by simp [hl], ?_⟩
  · apply mapM_congr_pointwise (by simp [hl, hill])
    intro i hi
    have hi1 : i < sel.length := by simp [hl, hill] at hi; omega
    have hi2 : i < il.length := by omega
    obtain ⟨is', h1, h2⟩ := hilr i (by omega)
    have e : il[i] = is' := by
      rw [List.getElem?_eq_getElem hi2] at h1; exact Option.some.inj h1
    simp only [List.getElem_zip, e]
    rw [hplane i (by omega) _ (hmem _ (List.getElem_mem hi1)) is' h2]
    simp [List.getElem?_zipIdx, List.getElem?_eq_getElem hi1]
  · intro hne
    have hdne : (sel.zipIdx).map (fun x => dOf x.2 x.1) ≠ [] := by
      cases sel with
      | nil => exact absurd rfl hne
      | cons a sel => simp [List.zipIdx_cons]
    have hadv : (S.RA ++ S.rx :: S.RB).any Res.isMany = true := by rw [hk]; simp [Res.isMany]
    obtain ⟨b', hb', atb⟩ := indexRes_adv S.st (rs := S.RA ++ S.rx :: S.RB) (m := S.m) hadv S.hm
    rw [S.hb] at hb'; cases hb'
    have hdim : dims (S.RA ++ S.rx :: S.RB) = dims (S.RA ++ S.RB) := S.dims_pick (by rw [hk]; rfl)
    have hpf := atb.le
    rw [S.advW] at atb hpf
    rw [show List.filterMap Res.dimLen? (S.RA ++ S.rx :: S.RB) = _ from hdim] at atb hpf
    obtain ⟨a0, ha0⟩ := List.exists_mem_of_ne_nil _ hne
    obtain ⟨st', hst', atst⟩ := stack_isAt (k := apos (fl (S.A ++ S.x :: S.B)))
      (s := dims (S.RA ++ S.RB)) hdne (by
        intro d hd
        obtain ⟨x, _, rfl⟩ := List.mem_map.mp hd; rfl) hpf (dOf 0 a0)
    refine ⟨st', hst', ?_⟩
    have hlen : ((sel.zipIdx).map (fun x => dOf x.2 x.1)).length = S.m := by simp; omega
    rw [hlen] at atst
    refine atst.equiv atb ?_
    intro j r hj hr
    have hjs : j < sel.length := by omega
    have e : ((sel.zipIdx).map (fun x => dOf x.2 x.1))[j]? = some (dOf j sel[j]) := by
      simp [List.getElem?_zipIdx, List.getElem?_eq_getElem hjs]
    rw [e, Option.getD_some]
    obtain ⟨a', h1, h2⟩ := hget j (by omega)
    rw [List.getElem?_eq_getElem hjs] at h1; cases h1
    have hlr : r.length = ndims (S.RA ++ S.RB) := by rw [hr.length, ndims_eq]
    have hjj : (if ks.length = 1 then 0 else j) = j := by split <;> omega
    rw [hk, walk_many j ks hlr, hjj, stack_get S.hst h2 (S.nsrcA _ _)]
    simp only [dOf]
    rw [walk_rest j hlr]

end Setup

end SC.Indexing
