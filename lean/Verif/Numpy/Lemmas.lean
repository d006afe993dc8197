import Verif.Numpy.Index
/-! # Helper lemmas about the numpy specification -/
namespace SC.Numpy
open SC.Py

/-! ## In-bounds tuples -/

theorem InB.length : ∀ {r s : List Nat}, InB r s → r.length = s.length
  | [], [], _ => rfl
  | _ :: _, _ :: _, h => by simp [InB.length h.2]

theorem InB.append : ∀ {r s r' s' : List Nat}, InB r s → InB r' s' → InB (r ++ r') (s ++ s')
  | [], [], _, _, _, h => h
  | _ :: _, _ :: _, _, _, h, h' => ⟨h.1, InB.append h.2 h'⟩

theorem InB.getElem? : ∀ {r s : List Nat} {k n : Nat}, InB r s → s[k]? = some n →
    ∃ i, r[k]? = some i ∧ i < n
  | i :: _, _ :: _, 0, _, h, hk => by
    simp at hk; exact ⟨i, by simp, hk ▸ h.1⟩
  | _ :: _, _ :: _, k + 1, _, h, hk => by
    simpa using InB.getElem? (k := k) h.2 (by simpa using hk)
  | [], [], _, _, _, hk => by simp at hk

/-- In-bounds tuples of a shape with an inserted dimension. -/
theorem InB.insert_split : ∀ {s r : List Nat} {p m : Nat}, p ≤ s.length →
    InB r (s.insertIdx p m) → ∃ j r', j < m ∧ InB r' s ∧ r = r'.insertIdx p j
  | s, i :: r, 0, m, _, h => by
    simp [InB] at h; exact ⟨i, r, h.1, h.2, by simp⟩
  | s, [], 0, m, _, h => by simp [InB] at h
  | n :: s, i :: r, p + 1, m, hp, h => by
    simp [InB] at h
    obtain ⟨j, r', hj, hr, he⟩ := InB.insert_split (s := s) (p := p) (by simpa using hp) h.2
    exact ⟨j, i :: r', hj, ⟨h.1, hr⟩, by simp [he]⟩
  | n :: s, [], p + 1, m, hp, h => by simp [InB] at h
  | [], _, p + 1, _, hp, _ => by simp at hp

theorem InB.insert : ∀ {s r : List Nat} {p m j : Nat}, p ≤ s.length → j < m → InB r s →
    InB (r.insertIdx p j) (s.insertIdx p m)
  | s, r, 0, _, _, _, hj, h => by simpa [InB] using ⟨hj, h⟩
  | n :: s, i :: r, p + 1, m, j, hp, hj, h => by
    simp [InB]; exact ⟨h.1, InB.insert (by simpa using hp) hj h.2⟩
  | [], _, p + 1, _, _, hp, _, _ => by simp at hp

theorem not_inB_of_zero : ∀ {r s : List Nat}, 0 ∈ s → ¬ InB r s
  | [], [], h => by simp at h
  | i :: r, n :: s, h => by
    intro hr
    rcases List.mem_cons.mp h with h | h
    · subst h; exact absurd hr.1 (by omega)
    · exact not_inB_of_zero h hr.2
  | [], _ :: _, _ => by simp [InB]
  | _ :: _, [], _ => by simp [InB]

/-! ## List surgery -/

theorem getD_insertIdx_self {r : List Nat} {p j : Nat} (h : p ≤ r.length) :
    (r.insertIdx p j).getD p 0 = j := by
  simp [List.getD_eq_getElem?_getD, List.getElem?_insertIdx_self, h]

/-- Two insertions in the other order. -/
theorem insertIdx_swap {α : Type} (l : List α) (a p : Nat) (i j : α) (hp : p ≤ l.length)
    (ha : a ≤ l.length + 1) :
    (l.insertIdx p j).insertIdx a i =
      (l.insertIdx (if p < a then a - 1 else a) i).insertIdx (if p < a then p else p + 1) j := by
  by_cases h : p < a
  · simp only [h, if_true]
    have := List.insertIdx_comm (l := l) j i (i := p) (j := a - 1) (by omega) (by omega)
    rw [show a - 1 + 1 = a by omega] at this
    rw [this]
  · simp only [h, if_false]
    exact (List.insertIdx_comm (l := l) i j (i := a) (j := p) (by omega) (by omega)).symm

theorem insertIdx_append {α : Type} (l l' : List α) (x : α) :
    (l ++ l').insertIdx l.length x = l ++ x :: l' := by
  induction l with
  | nil => simp
  | cons a l ih => simpa using ih

theorem insertIdx_append_right {α : Type} (l l' : List α) (x : α) (p : Nat) :
    (l ++ l').insertIdx (l.length + p) x = l ++ l'.insertIdx p x := by
  induction l with
  | nil => simp
  | cons a l ih => simp [Nat.add_right_comm]; exact ih

theorem insertIdx_append_left {α : Type} : ∀ (l l' : List α) (x : α) (p : Nat), p ≤ l.length →
    (l ++ l').insertIdx p x = l.insertIdx p x ++ l'
  | _, _, _, 0, _ => by simp
  | [], _, _, p + 1, h => by simp at h
  | a :: l, l', x, p + 1, h => by
    simp; exact insertIdx_append_left l l' x p (by simpa using h)

theorem eraseIdx_append_mid {α : Type} (l l' : List α) (x : α) :
    (l ++ x :: l').eraseIdx l.length = l ++ l' := by
  induction l with
  | nil => simp
  | cons a l ih => simpa using ih

/-! ## Arrays with a distinguished dimension -/

/-- `a` has dimension `p` of length `m` inserted in shape `s`; `f j r` is its element at
coordinate `j` along that dimension and `r` elsewhere. -/
structure IsAt {α : Type} (a : Arr α) (p m : Nat) (s : List Nat) (f : Nat → List Nat → α) : Prop where
  le : p ≤ s.length
  shape : a.shape = s.insertIdx p m
  get : ∀ j r, j < m → InB r s → a.get (r.insertIdx p j) = f j r

theorem IsAt.equiv {α : Type} {a b : Arr α} {p m s} {f g : Nat → List Nat → α} (ha : IsAt a p m s f)
    (hb : IsAt b p m s g) (hfg : ∀ j r, j < m → InB r s → f j r = g j r) : a.Equiv b := by
  refine ⟨by rw [ha.shape, hb.shape], fun r hr => ?_⟩
  rw [ha.shape] at hr
  obtain ⟨j, r', hj, hr', rfl⟩ := InB.insert_split ha.le hr
  rw [ha.get j r' hj hr', hb.get j r' hj hr', hfg j r' hj hr']

theorem IsAt.congr {α : Type} {a b : Arr α} {p m s} {f : Nat → List Nat → α} (ha : IsAt a p m s f)
    (h : b.Equiv a) : IsAt b p m s f :=
  ⟨ha.le, by rw [h.1, ha.shape], fun j r hj hr => by
    rw [h.2 _ (by rw [h.1, ha.shape]; exact InB.insert ha.le hj hr), ha.get j r hj hr]⟩

/-- Exchange the roles of two distinguished dimensions. -/
theorem IsAt.swap {α : Type} {a : Arr α} {k n p m : Nat} {s : List Nat}
    {F : Nat → List Nat → α} {G : Nat → Nat → List Nat → α}
    (h : IsAt a k n (s.insertIdx p m) F) (hp : p ≤ s.length)
    (hF : ∀ i j r, i < n → j < m → InB r s → F i (r.insertIdx p j) = G i j r) :
    let b := if p < k then k - 1 else k
    let q := if p < k then p else p + 1
    IsAt a q m (s.insertIdx b n) (fun j r => G (r.getD b 0) j (r.eraseIdx b)) := by
  intro b q
  have hk : k ≤ s.length + 1 := by
    have := h.le; rwa [List.length_insertIdx_of_le_length hp] at this
  have hb : b ≤ s.length := by simp only [b]; split <;> omega
  have hlen : (s.insertIdx b n).length = s.length + 1 := List.length_insertIdx_of_le_length hb _
  refine ⟨by rw [hlen]; simp only [q]; split <;> omega, ?_, ?_⟩
  · rw [h.shape, insertIdx_swap s k p n m hp hk]
  · intro j r hj hr
    obtain ⟨i, r', hi, hr', rfl⟩ := InB.insert_split hb hr
    have hl := hr'.length
    have := insertIdx_swap r' k p i j (by omega) (by omega)
    show a.get (((r'.insertIdx b i)).insertIdx q j) = _
    rw [← this, h.get i _ hi (InB.insert hp hj hr'), hF i j r' hi hj hr']
    rw [getD_insertIdx_self (by omega), List.eraseIdx_insertIdx_self]

theorem stack_isAt {α : Type} {ps : List (Arr α)} {k : Nat} {s : List Nat} (hne : ps ≠ [])
    (hs : ∀ p ∈ ps, p.shape = s) (hk : k ≤ s.length) (d : Arr α) :
    ∃ a, stack ps k = some a ∧ IsAt a k ps.length s (fun i r => ((ps[i]?).getD d).get r) := by
  cases ps with
  | nil => exact absurd rfl hne
  | cons p ps =>
    have hp : p.shape = s := hs p (by simp)
    have hall : ((p :: ps).all fun q => q.shape == p.shape) = true ∧ k ≤ p.shape.length := by
      refine ⟨?_, by rw [hp]; exact hk⟩
      rw [List.all_eq_true]
      intro q hq
      rw [hp, hs q hq]; simp
    refine ⟨_, by rw [stack]; exact if_pos hall, hk, by simp [hp], ?_⟩
    intro j r hj hr
    simp only
    rw [getD_insertIdx_self (by rw [hr.length]; exact hk), List.eraseIdx_insertIdx_self]
    rw [List.getElem?_eq_getElem hj]; simp

/-! ## Checked indices -/

theorem bcast_eq {ls : List Nat} {m : Nat} (h : ∀ l ∈ ls, l = m) (hne : ls ≠ []) :
    bcast ls = some m := by
  induction ls with
  | nil => exact absurd rfl hne
  | cons l ls ih =>
    have hl : l = m := h l (by simp)
    subst hl
    by_cases h' : ls = []
    · subst h'; by_cases h1 : l = 1 <;> simp [bcast, h1]
    · simp [bcast, ih (fun x hx => h x (by simp [hx])) h']

/-- Where the advanced dimension goes, by the "is a result dimension" flags. -/
def apos (bs : List Bool) : Nat :=
  if ((bs.dropWhile id).dropWhile (!·)).all id then (bs.takeWhile id).length else 0

theorem advPos_eq (rs : List Res) : advPos rs = apos (rs.map Res.isDim) := by
  simp only [advPos, apos, List.takeWhile_map, List.dropWhile_map, List.all_map, List.length_map]
  rfl

theorem apos_le (bs : List Bool) : apos bs ≤ (bs.filter id).length := by
  unfold apos
  split
  · have : (bs.takeWhile id).length ≤ (bs.filter id).length := by
      induction bs with
      | nil => simp
      | cons b bs ih => cases b <;> simp_all
    exact this
  · exact Nat.zero_le _

theorem dims_length (rs : List Res) :
    (rs.filterMap Res.dimLen?).length = ((rs.map Res.isDim).filter id).length := by
  induction rs with
  | nil => rfl
  | cons r rs ih => cases r <;> simp_all [Res.dimLen?, Res.isDim, List.filterMap_cons]

theorem advPos_le (rs : List Res) : advPos rs ≤ (rs.filterMap Res.dimLen?).length := by
  rw [advPos_eq, dims_length]; exact apos_le _

/-- Indexing with at least one list, all lists of length `m`. -/
theorem indexRes_adv {α : Type} (a : Arr α) {rs : List Res} {m : Nat} (h : rs.any Res.isMany)
    (hm : ∀ l ∈ rs.filterMap Res.len?, l = m) :
    ∃ b, indexRes a rs = some b ∧
      IsAt b (advPos rs) m (rs.filterMap Res.dimLen?) (fun j r => a.get (walk rs j r)) := by
  have hne : rs.filterMap Res.len? ≠ [] := by
    intro h0
    rw [List.any_eq_true] at h
    obtain ⟨r, hr, hr'⟩ := h
    rw [List.filterMap_eq_nil_iff] at h0
    have := h0 r hr
    cases r <;> simp_all [Res.isMany, Res.len?]
  refine ⟨_, by rw [indexRes, if_pos h, bcast_eq hm hne]; rfl, advPos_le rs, rfl, ?_⟩
  intro j r hj hr
  simp only
  rw [getD_insertIdx_self (by rw [hr.length]; exact advPos_le rs), List.eraseIdx_insertIdx_self]

theorem indexRes_basic {α : Type} (a : Arr α) {rs : List Res} (h : rs.any Res.isMany = false) :
    indexRes a rs = some ⟨rs.filterMap Res.dimLen?, fun r => a.get (walk rs 0 r)⟩ := by
  simp [indexRes, h]

def ndims (rs : List Res) : Nat := (rs.filter Res.isDim).length

theorem walk_append (rs rs' : List Res) (j : Nat) (r r' : List Nat) (h : r.length = ndims rs) :
    walk (rs ++ rs') j (r ++ r') = walk rs j r ++ walk rs' j r' := by
  induction rs generalizing r with
  | nil => simp [ndims] at h; subst h; simp [walk]
  | cons x rs ih =>
    cases x with
    | pick k => simpa [walk] using ih r (by simpa [ndims, Res.isDim, List.filter_cons] using h)
    | many k => simpa [walk] using ih r (by simpa [ndims, Res.isDim, List.filter_cons] using h)
    | flag k => simpa [walk] using ih r (by simpa [ndims, Res.isDim, List.filter_cons] using h)
    | span k =>
      cases r with
      | nil => simp [ndims, Res.isDim, List.filter_cons] at h
      | cons i r => simpa [walk] using ih r (by simpa [ndims, Res.isDim, List.filter_cons] using h)
    | new =>
      cases r with
      | nil => simp [ndims, Res.isDim, List.filter_cons] at h
      | cons i r => simpa [walk] using ih r (by simpa [ndims, Res.isDim, List.filter_cons] using h)

/-- Number of source dimensions of a checked index. -/
def nsrc (rs : List Res) : Nat := (rs.filter (fun r => match r with | .new => false | .flag _ => false | _ => true)).length

theorem walk_length (rs : List Res) (j : Nat) (r : List Nat) : (walk rs j r).length = nsrc rs := by
  induction rs generalizing r with
  | nil => rfl
  | cons x rs ih => cases x <;> simp_all [walk, nsrc]

theorem resolve_append : ∀ {is is' : List Item} {s s' : List Nat} {rs rs' : List Res},
    resolve is s = some rs → resolve is' s' = some rs' →
    resolve (is ++ is') (s ++ s') = some (rs ++ rs')
  | [], is', [], s', rs, rs', h, h' => by simp [resolve] at h; subst h; simpa using h'
  | [], _, _ :: _, _, _, _, h, _ => by simp [resolve] at h
  | i :: is, is', s, s', rs, rs', h, h' => by
    by_cases hn : i = .newaxis
    · subst hn
      simp only [resolve, Option.map_eq_some_iff] at h
      obtain ⟨t, ht, rfl⟩ := h
      simp [resolve, resolve_append ht h']
    · by_cases hb : ∃ b, i = .bool b
      · obtain ⟨b, rfl⟩ := hb
        simp only [resolve, Option.map_eq_some_iff] at h
        obtain ⟨t, ht, rfl⟩ := h
        simp [resolve, resolve_append ht h']
      · cases s with
        | nil => cases i <;> simp_all [resolve]
        | cons n s =>
          cases h1 : resolve1 n i with
          | none => cases i <;> simp_all [resolve]
          | some r =>
            cases h2 : resolve is s with
            | none => cases i <;> simp_all [resolve]
            | some t =>
              have := resolve_append h2 h'
              cases i <;> simp_all [resolve] <;> (subst h; simp)

theorem resolve_split : ∀ {is is' : List Item} {s : List Nat} {rs : List Res},
    resolve (is ++ is') s = some rs →
    ∃ s1 s2 r1 r2, s = s1 ++ s2 ∧ rs = r1 ++ r2 ∧ resolve is s1 = some r1 ∧ resolve is' s2 = some r2
  | [], is', s, rs, h => ⟨[], s, [], rs, rfl, rfl, rfl, h⟩
  | i :: is, is', s, rs, h => by
    by_cases hn : i = .newaxis
    · subst hn
      simp only [List.cons_append, resolve, Option.map_eq_some_iff] at h
      obtain ⟨t, ht, rfl⟩ := h
      obtain ⟨s1, s2, r1, r2, rfl, rfl, h1, h2⟩ := resolve_split ht
      exact ⟨s1, s2, .new :: r1, r2, rfl, rfl, by simp [resolve, h1], h2⟩
    · by_cases hb : ∃ b, i = .bool b
      · obtain ⟨b, rfl⟩ := hb
        simp only [List.cons_append, resolve, Option.map_eq_some_iff] at h
        obtain ⟨t, ht, rfl⟩ := h
        obtain ⟨s1, s2, r1, r2, rfl, rfl, h1, h2⟩ := resolve_split ht
        exact ⟨s1, s2, .flag b :: r1, r2, rfl, rfl, by simp [resolve, h1], h2⟩
      · cases s with
        | nil => cases i <;> simp_all [resolve]
        | cons n s =>
          cases h1 : resolve1 n i with
          | none => cases i <;> simp_all [resolve]
          | some r =>
            cases h2 : resolve (is ++ is') s with
            | none => cases i <;> simp_all [resolve]
            | some t =>
              obtain ⟨s1, s2, r1, r2, rfl, rfl, h3, h4⟩ := resolve_split h2
              refine ⟨n :: s1, s2, r :: r1, r2, rfl, ?_, ?_, h4⟩
              · cases i <;> simp_all [resolve]
              · cases i <;> simp_all [resolve]

/-- A consuming entry. -/
theorem resolve_cons {i : Item} (hi : i.consumes) {is : List Item} {n : Nat} {s : List Nat} :
    resolve (i :: is) (n :: s) =
      (resolve1 n i).bind fun r => (resolve is s).map (r :: ·) := by
  have : resolve (i :: is) (n :: s) =
      match resolve1 n i, resolve is s with
      | some r, some rs => some (r :: rs)
      | _, _ => none := by
    cases i <;> first | rfl | simp [Item.consumes] at hi
  rw [this]
  cases resolve1 n i <;> cases resolve is s <;> rfl

theorem resolve_cons_some {i : Item} (hi : i.consumes) {is : List Item} {s : List Nat}
    {rs : List Res} (h : resolve (i :: is) s = some rs) :
    ∃ n s' r rs', s = n :: s' ∧ rs = r :: rs' ∧ resolve1 n i = some r ∧ resolve is s' = some rs' := by
  cases s with
  | nil => cases i <;> simp_all [Item.consumes, resolve]
  | cons n s =>
    rw [resolve_cons hi] at h
    simp only [Option.bind_eq_some_iff, Option.map_eq_some_iff] at h
    obtain ⟨r, hr, rs', hrs, rfl⟩ := h
    exact ⟨n, s, r, rs', rfl, rfl, hr, hrs⟩

theorem resolve_count {is : List Item} {s : List Nat} {rs : List Res}
    (h : resolve is s = some rs) : countConsuming is = s.length ∧ .ellipsis ∉ is := by
  induction is generalizing s rs with
  | nil => cases s <;> simp_all [resolve, countConsuming]
  | cons i is ih =>
    by_cases hi : i.consumes
    · obtain ⟨n, s', r, rs', rfl, rfl, h1, h2⟩ := resolve_cons_some hi h
      have := ih h2
      refine ⟨by simp_all [countConsuming], ?_⟩
      simp only [List.mem_cons, not_or]
      exact ⟨by rintro rfl; simp [Item.consumes] at hi, this.2⟩
    · cases i with
      | newaxis =>
        simp only [resolve, Option.map_eq_some_iff] at h
        obtain ⟨t, ht, rfl⟩ := h
        have := ih ht
        simp_all [countConsuming, Item.consumes]
      | bool b =>
        simp only [resolve, Option.map_eq_some_iff] at h
        obtain ⟨t, ht, rfl⟩ := h
        have := ih ht
        simp_all [countConsuming, Item.consumes]
      | ellipsis => cases s <;> simp [resolve, resolve1] at h
      | _ => simp [Item.consumes] at hi

theorem npExpand_self {is : List Item} {n : Nat} (hc : countConsuming is = n)
    (he : .ellipsis ∉ is) : npExpand is n = some is := by
  have : is.findIdx? (· == .ellipsis) = none := by
    rw [List.findIdx?_eq_none_iff]
    intro x hx
    simp only [beq_eq_false_iff_ne]
    rintro rfl; exact he hx
  simp [npExpand, hc, this]

theorem npGet_of_resolve {α : Type} {a : Arr α} {is : List Item} {rs : List Res}
    (h : resolve is a.shape = some rs) : npGet a is = indexRes a rs := by
  obtain ⟨hc, he⟩ := resolve_count h
  simp [npGet, npExpand_self hc he, h]

end SC.Numpy
