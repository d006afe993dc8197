import Verif.Lut.Model
import Verif.Lut.Spec
import Verif.ListTools.Props
/-! # Lemmas about the lookup table -/
namespace SC.Lut
open SC.ListTools

variable {K : Type} [Field K] [LinearOrder K]

theorem firstValue_filter (k : K) (l : List (K × K)) :
    firstValue k l = ((l.filter (fun p => decide (p.1 = k))).head?).map (·.2) := by
  rw [firstValue, List.head?_filter]

theorem firstValue_congr {k : K} {l l' : List (K × K)}
    (h : l.filter (fun p => decide (p.1 = k)) = l'.filter (fun p => decide (p.1 = k))) :
    firstValue k l = firstValue k l' := by
  rw [firstValue_filter, firstValue_filter, h]

theorem firstValue_none {k : K} {l : List (K × K)} : firstValue k l = none ↔ k ∉ l.map (·.1) := by
  simp only [firstValue, Option.map_eq_none_iff, List.find?_eq_none, decide_eq_true_eq, List.mem_map]
  constructor
  · rintro h ⟨p, hp, rfl⟩; exact h p hp rfl
  · intro h p hp e; exact h ⟨p, hp, e⟩

theorem firstValue_append (k : K) (l l' : List (K × K)) :
    firstValue k (l ++ l') = (firstValue k l).or (firstValue k l') := by
  simp only [firstValue, List.find?_append]
  cases l.find? (fun p => decide (p.1 = k)) <;> simp

theorem firstValue_map (k : K) (keys : List K) (f : K → K) :
    firstValue k (keys.zip (keys.map f)) = if k ∈ keys then some (f k) else none := by
  induction keys with
  | nil => simp [firstValue]
  | cons a keys ih =>
    simp only [List.map_cons, List.zip_cons_cons, List.mem_cons]
    by_cases h : a = k
    · subst h; simp [firstValue]
    · have h' : ¬ k = a := fun e => h e.symm
      simp only [h', false_or, ← ih]
      simp [firstValue, h]

theorem total_append (k : K) (l l' : List (K × K)) : total k (l ++ l') = total k l + total k l' := by
  simp [total]

theorem total_notMem {k : K} {l : List (K × K)} (h : k ∉ l.map (·.1)) : total k l = 0 := by
  have : l.filter (fun p => decide (p.1 = k)) = [] := by
    rw [List.filter_eq_nil_iff]
    intro p hp
    simp only [decide_eq_true_eq]
    rintro rfl
    exact h (List.mem_map.mpr ⟨p, hp, rfl⟩)
  simp [total, this]

theorem total_nodup (k : K) (l : List (K × K)) (h : (l.map (·.1)).Nodup) :
    total k l = (firstValue k l).getD 0 := by
  induction l with
  | nil => simp [total, firstValue]
  | cons p l ih =>
    simp only [List.map_cons, List.nodup_cons] at h
    by_cases e : p.1 = k
    · have : total k l = 0 := total_notMem (by rw [← e]; exact h.1)
      simp only [total] at this
      simp [total, firstValue, e, this]
    · have := ih h.2
      simp only [total, firstValue] at this
      simp [total, firstValue, e, this]

theorem firstKeys_eq (l : List K) : firstKeys l = uniqueEverseen id [] l := by
  rw [uniqueEverseen_spec]; simp [firstKeys]

theorem firstKeys_mem (l : List K) (k : K) : k ∈ firstKeys l ↔ k ∈ l := by
  have := (uniqueEverseen_nodup (id : K → K) l).2.1 k
  rw [firstKeys_eq]; simpa using this

theorem firstKeys_nodup (l : List K) : (firstKeys l).Nodup := by
  have := (uniqueEverseen_nodup (id : K → K) l).1
  rw [firstKeys_eq]; simpa using this

theorem firstValue_uniqueEverseen (k : K) (l : List (K × K)) (seen : List K) (hk : k ∉ seen) :
    firstValue k (uniqueEverseen Prod.fst seen l) = firstValue k l := by
  induction l generalizing seen with
  | nil => rfl
  | cons p l ih =>
    simp only [uniqueEverseen]
    by_cases e : p.1 = k
    · have : p.1 ∉ seen := by rw [e]; exact hk
      rw [if_neg this]; simp [firstValue, e]
    · split
      · rw [ih seen hk]; simp [firstValue, e]
      · have := ih (p.1 :: seen) (by simp [hk]; exact fun h => e h.symm)
        simp only [firstValue] at this ⊢
        simp [e, this]

theorem unique2listsFirst_ok (l1 l2 : List K) (hne : l1.zip l2 ≠ []) :
    unique2listsFirst l1 l2 = .ok ((uniqueEverseen Prod.fst [] (l1.zip l2)).map (·.1),
      (uniqueEverseen Prod.fst [] (l1.zip l2)).map (·.2)) := by
  obtain ⟨s, h, e⟩ := unique2listsFirst_spec l1 l2 hne
  rw [h, e, uniqueEverseen_spec]

/-- What `uniq` returns, for both modes: distinct keys with the wanted values. -/
theorem uniq_ok (add : Bool) (l1 l2 : List K) (hlen : l1.length = l2.length) (hne : l1 ≠ []) :
    ∃ ux uy, uniq add (l1, l2) = .ok (ux, uy) ∧ ux.length = uy.length ∧ ux ≠ [] ∧ ux.Nodup ∧
      ∀ k, firstValue k (ux.zip uy) =
        if k ∈ l1 then (if add then some (total k (l1.zip l2)) else firstValue k (l1.zip l2)) else none := by
  have hzf : (l1.zip l2).map Prod.fst = l1 := List.map_fst_zip (by omega)
  cases add with
  | true =>
    obtain ⟨h1, h2⟩ := unique2listsAdd_spec l1 l2 hlen
    refine ⟨(unique2listsAdd l1 l2).1, (unique2listsAdd l1 l2).2, rfl, ?_, ?_, ?_, ?_⟩
    · rw [h1, h2]; simp
    · rw [h1]
      obtain ⟨a, t, e⟩ := List.exists_cons_of_ne_nil hne
      have : a ∈ firstKeys l1 := (firstKeys_mem l1 a).mpr (by simp [e])
      exact List.ne_nil_of_mem this
    · rw [h1]; exact firstKeys_nodup l1
    · intro k
      rw [h2, h1, firstValue_map]
      simp [firstKeys_mem]
  | false =>
    have hz : l1.zip l2 ≠ [] := by
      intro h
      apply hne
      rw [← hzf, h]; rfl
    have hn := uniqueEverseen_nodup (Prod.fst : K × K → K) (l1.zip l2)
    refine ⟨_, _, unique2listsFirst_ok l1 l2 hz, by simp, ?_, hn.1, ?_⟩
    · obtain ⟨a, t, e⟩ := List.exists_cons_of_ne_nil hne
      have : a ∈ (uniqueEverseen Prod.fst [] (l1.zip l2)).map (·.1) :=
        (hn.2.1 a).mpr (by rw [hzf]; simp [e])
      exact List.ne_nil_of_mem this
    · intro k
      have hzip : ∀ (s : List (K × K)), (s.map (·.1)).zip (s.map (·.2)) = s := by
        intro s; rw [List.zip_map']; simp
      rw [hzip, firstValue_uniqueEverseen _ _ _ (by simp)]
      split
      · simp
      · next h => rw [firstValue_none, hzf]; exact h

/-- The state represents the partial function `m`. -/
def Rep (s : Lut K) (m : K → Option K) : Prop :=
  (s.x = none ∧ s.y = none ∧ s.func = none ∧ ∀ k, m k = none) ∨
  ∃ xs ys, s.x = some xs ∧ s.y = some ys ∧ xs.length = ys.length ∧ xs ≠ [] ∧ xs.Pairwise (· < ·) ∧
    s.func = some (if xs.length = 1 then .const (ys.getD 0 0) else .interp1d xs ys) ∧
    ∀ k, firstValue k (xs.zip ys) = m k

theorem newData_joined (s : Lut K) (x y jx jy : List K) (add : Bool) (hj : joined s x y = (jx, jy))
    (hlen : jx.length = jy.length) (hne : jx ≠ []) :
    ∃ s', newData s x y add = (s', none) ∧ s'.default = s.default ∧
      Rep s' (fun k => if k ∈ jx then (if add then some (total k (jx.zip jy)) else firstValue k (jx.zip jy))
        else none) := by
  obtain ⟨ux, uy, hu, hul, hune, hnd, hval⟩ := uniq_ok add jx jy hlen hne
  obtain ⟨s1, s2, hs, hs1, hs2, hperm, hsorted, hfil⟩ := sort2lists_spec ux uy hul hune
  have hp : s1.Perm ux := by
    have := hperm.map Prod.fst
    rwa [List.map_fst_zip (by omega), List.map_fst_zip (by omega)] at this
  refine ⟨{ x := some s1, y := some s2, default := s.default,
            func := some (if s1.length = 1 then .const (s2.getD 0 0) else .interp1d s1 s2) }, ?_, rfl, ?_⟩
  · simp only [newData, hj, hu, hs]
  · refine Or.inr ⟨s1, s2, rfl, rfl, by omega, ?_, ?_, rfl, ?_⟩
    · intro h
      rw [h] at hp
      exact hune (List.nil_perm.mp hp)
    · have hnd1 : s1.Nodup := hp.nodup_iff.mpr hnd
      exact (hsorted.and hnd1).imp (fun {a b} h => lt_of_le_of_ne h.1 h.2)
    · intro k
      rw [firstValue_congr (hfil k), hval]

theorem newData_rep (s : Lut K) (m : K → Option K) (hr : Rep s m) (x y : List K) (add : Bool)
    (hlen : x.length = y.length) (hne : x ≠ []) :
    ∃ s', newData s x y add = (s', none) ∧ s'.default = s.default ∧
      Rep s' (fun k => if k ∈ (x.zip y).map (·.1) then
        if add then some ((m k).getD 0 + total k (x.zip y)) else firstValue k (x.zip y) else m k) := by
  have hzf : (x.zip y).map Prod.fst = x := List.map_fst_zip (by omega)
  rcases hr with ⟨h1, h2, h3, h4⟩ | ⟨xs, ys, h1, h2, h3, h4, h5, h6, h7⟩
  · obtain ⟨s', e, hd, h⟩ := newData_joined s x y x y add (by simp [joined, h1]) hlen hne
    refine ⟨s', e, hd, ?_⟩
    rw [hzf]
    simp only [h4, Option.getD_none, zero_add]
    exact h
  · obtain ⟨s', e, hd, h⟩ := newData_joined s x y (x ++ xs) (y ++ ys) add (by simp [joined, h1, h2])
      (by simp; omega) (by simp [hne])
    refine ⟨s', e, hd, ?_⟩
    rw [hzf]
    have hz : (x ++ xs).zip (y ++ ys) = x.zip y ++ xs.zip ys := List.zip_append hlen
    have hzf2 : (xs.zip ys).map Prod.fst = xs := List.map_fst_zip (by omega)
    have hnd : ((xs.zip ys).map (·.1)).Nodup := by
      have : ((xs.zip ys).map (·.1)) = xs := hzf2
      rw [this]; exact h5.imp (fun h => ne_of_lt h)
    have : (fun k => if k ∈ x ++ xs then (if add then some (total k ((x ++ xs).zip (y ++ ys)))
        else firstValue k ((x ++ xs).zip (y ++ ys))) else none) =
        (fun k => if k ∈ x then
        if add then some ((m k).getD 0 + total k (x.zip y)) else firstValue k (x.zip y) else m k) := by
      funext k
      rw [hz, total_append, firstValue_append, total_nodup _ _ hnd, h7]
      by_cases hx : k ∈ x
      · have hfv : firstValue k (x.zip y) ≠ none := by
          intro hh
          have := firstValue_none.mp hh
          have e : (x.zip y).map (·.1) = x := hzf
          rw [e] at this; exact this hx
        simp only [List.mem_append, hx, true_or, if_true]
        cases add with
        | true => simp [add_comm]
        | false =>
          cases hf : firstValue k (x.zip y) with
          | none => exact absurd hf hfv
          | some v => simp
      · have e : (x.zip y).map (·.1) = x := hzf
        have hfv : firstValue k (x.zip y) = none := firstValue_none.mpr (by rw [e]; exact hx)
        have htot : total k (x.zip y) = 0 := total_notMem (by rw [e]; exact hx)
        have e2 : (xs.zip ys).map (·.1) = xs := hzf2
        by_cases hxs : k ∈ xs
        · have hfv2 : firstValue k (xs.zip ys) ≠ none := by
            intro hh
            have := firstValue_none.mp hh
            rw [e2] at this; exact this hxs
          rw [h7] at hfv2
          cases hm : m k with
          | none => exact absurd hm hfv2
          | some v =>
            cases add <;> simp [hx, hxs, hfv, htot]
        · have hfv2 : firstValue k (xs.zip ys) = none := firstValue_none.mpr (by rw [e2]; exact hxs)
          rw [h7] at hfv2
          simp [hx, hxs, hfv2]
    rw [← this]; exact h

/-- Values determine a table with strictly increasing keys. -/
theorem rep_unique {xs ys xs' ys' : List K} (h1 : xs.length = ys.length) (h2 : xs.Pairwise (· < ·))
    (h1' : xs'.length = ys'.length) (h2' : xs'.Pairwise (· < ·))
    (h : ∀ k, firstValue k (xs.zip ys) = firstValue k (xs'.zip ys')) : xs = xs' ∧ ys = ys' := by
  have key : xs.zip ys = xs'.zip ys' := by
    have hfil : ∀ (l : List (K × K)), (l.map (·.1)).Pairwise (· < ·) → ∀ k,
        l.filter (fun p => decide (p.1 = k)) = (firstValue k l).elim [] (fun v => [(k, v)]) := by
      intro l
      induction l with
      | nil => simp [firstValue]
      | cons p l ih =>
        intro hl k
        simp only [List.map_cons, List.pairwise_cons] at hl
        by_cases e : p.1 = k
        · have : l.filter (fun p => decide (p.1 = k)) = [] := by
            rw [List.filter_eq_nil_iff]
            intro q hq
            have := hl.1 q.1 (List.mem_map.mpr ⟨q, hq, rfl⟩)
            simp only [decide_eq_true_eq]
            intro e'
            rw [e, e'] at this
            exact lt_irrefl _ this
          simp only [List.filter_cons, e, decide_true, if_true, this]
          obtain ⟨a, b⟩ := p
          have e : a = k := e
          subst e
          simp [firstValue]
        · have := ih hl.2 k
          simp only [firstValue] at this ⊢
          simp [e, this]
    have hp : ∀ (xs ys : List K), xs.length = ys.length → xs.Pairwise (· < ·) →
        ((xs.zip ys).map (·.1)).Pairwise (· < ·) := by
      intro xs ys hl hp
      have : (xs.zip ys).map (·.1) = xs := List.map_fst_zip (by omega)
      rw [this]; exact hp
    apply Common.sorted_ext Prod.fst
    · have := hp _ _ h1 h2
      rw [List.pairwise_map] at this
      exact this.imp le_of_lt
    · have := hp _ _ h1' h2'
      rw [List.pairwise_map] at this
      exact this.imp le_of_lt
    · intro k
      rw [hfil _ (hp _ _ h1 h2) k, hfil _ (hp _ _ h1' h2') k, h k]
  constructor
  · have := congrArg (List.map Prod.fst) key
    rwa [List.map_fst_zip (by omega), List.map_fst_zip (by omega)] at this
  · have := congrArg (List.map Prod.snd) key
    rwa [List.map_snd_zip (by omega), List.map_snd_zip (by omega)] at this

theorem rep_ext {s s' : Lut K} {m : K → Option K} (h : Rep s m) (h' : Rep s' m)
    (hd : s.default = s'.default) : s = s' := by
  rcases h with ⟨h1, h2, h3, h4⟩ | ⟨xs, ys, h1, h2, h3, h4, h5, h6, h7⟩
  · rcases h' with ⟨g1, g2, g3, g4⟩ | ⟨xs', ys', g1, g2, g3, g4, g5, g6, g7⟩
    · cases s; cases s'; simp_all
    · exfalso
      obtain ⟨a, t, rfl⟩ := List.exists_cons_of_ne_nil g4
      cases ys' with
      | nil => simp at g3
      | cons b u =>
        have := g7 a
        rw [h4] at this
        simp [firstValue] at this
  · rcases h' with ⟨g1, g2, g3, g4⟩ | ⟨xs', ys', g1, g2, g3, g4, g5, g6, g7⟩
    · exfalso
      obtain ⟨a, t, rfl⟩ := List.exists_cons_of_ne_nil h4
      cases ys with
      | nil => simp at h3
      | cons b u =>
        have := h7 a
        rw [g4] at this
        simp [firstValue] at this
    · obtain ⟨e1, e2⟩ := rep_unique h3 h5 g3 g5 (fun k => by rw [h7, g7])
      subst e1 e2
      cases s; cases s'; simp_all

theorem run_rep (s : Lut K) (m : K → Option K) (hr : Rep s m) (ops : List (Op K))
    (hops : ∀ o ∈ ops, o.x.length = o.y.length ∧ o.x ≠ []) :
    ∃ s', run s ops = some s' ∧ s'.default = s.default ∧
      Rep s' (table m (ops.map fun o => (o.add, o.x.zip o.y))) := by
  induction ops generalizing s m with
  | nil => exact ⟨s, rfl, rfl, hr⟩
  | cons o ops ih =>
    obtain ⟨h1, h2⟩ := hops o (by simp)
    obtain ⟨s1, e1, hd1, hr1⟩ := newData_rep s m hr o.x o.y o.add h1 h2
    obtain ⟨s2, e2, hd2, hr2⟩ := ih s1 _ hr1 (fun o ho => hops o (by simp [ho]))
    refine ⟨s2, by simp only [run, e1, e2], hd2.trans hd1, ?_⟩
    simp only [List.map_cons, table]
    exact hr2

theorem rep_clear (d : K) : Rep (clear d) (fun _ => none) := Or.inl ⟨rfl, rfl, rfl, fun _ => rfl⟩

/-- The number of entries below `x` when `x` lies in the segment ending at `i + 1`. -/
theorem countP_seg {xs : List K} (hs : xs.Pairwise (· < ·)) {i : Nat} (hi : i + 1 < xs.length) {x : K}
    (h1 : xs[i] < x) (h2 : x ≤ xs[i + 1]) : xs.countP (fun k => decide (k < x)) = i + 1 := by
  rw [← List.take_append_drop (i + 1) xs, List.countP_append]
  have ha : (xs.take (i + 1)).countP (fun k => decide (k < x)) = i + 1 := by
    have : (xs.take (i + 1)).countP (fun k => decide (k < x)) = (xs.take (i + 1)).length := by
      rw [List.countP_eq_length]
      intro a ha
      obtain ⟨j, hj, rfl⟩ := List.mem_iff_getElem.mp ha
      simp only [List.length_take] at hj
      simp only [List.getElem_take, decide_eq_true_eq]
      rcases Nat.lt_or_ge j i with h | h
      · exact lt_trans (List.pairwise_iff_getElem.mp hs j i (by omega) (by omega) h) h1
      · have : j = i := by omega
        subst this; exact h1
    rw [this]; simp; omega
  have hb : (xs.drop (i + 1)).countP (fun k => decide (k < x)) = 0 := by
    rw [List.countP_eq_zero]
    intro a ha
    obtain ⟨j, hj, rfl⟩ := List.mem_iff_getElem.mp ha
    simp only [List.getElem_drop, decide_eq_true_eq, not_lt]
    simp only [List.length_drop] at hj
    cases j with
    | zero => simpa using h2
    | succ j =>
      exact le_of_lt (lt_of_le_of_lt h2 (List.pairwise_iff_getElem.mp hs (i + 1) (i + 1 + (j + 1)) (by omega) (by omega) (by omega)))
  omega

theorem countP_first {xs : List K} (hs : xs.Pairwise (· < ·)) (h0 : 0 < xs.length) :
    xs.countP (fun k => decide (k < xs[0])) = 0 := by
  rw [List.countP_eq_zero]
  intro a ha
  obtain ⟨j, hj, rfl⟩ := List.mem_iff_getElem.mp ha
  simp only [decide_eq_true_eq, not_lt]
  cases j with
  | zero => exact le_refl _
  | succ j => exact le_of_lt (List.pairwise_iff_getElem.mp hs 0 (j + 1) (by omega) (by omega) (by omega))

theorem interp_seg {xs ys : List K} (hl : xs.length = ys.length) (hs : xs.Pairwise (· < ·)) {i : Nat}
    (hi : i + 1 < xs.length) {x : K} (h1 : xs[i] ≤ x) (h2 : x ≤ xs[i + 1]) :
    interp xs ys x = (ys[i + 1] - ys[i]) / (xs[i + 1] - xs[i]) * (x - xs[i]) + ys[i] := by
  have hmono := List.pairwise_iff_getElem.mp hs
  have hle : ∀ (a b : Nat) (ha : a < xs.length) (hb : b < xs.length), a ≤ b → xs[a] ≤ xs[b] := by
    intro a b ha hb hab
    rcases Nat.lt_or_ge a b with h | h
    · exact le_of_lt (hmono a b ha hb h)
    · have : a = b := by omega
      subst this; exact le_refl _
  have g : ∀ (j : Nat) (hj : j < xs.length), xs.getD j 0 = xs[j] := fun j hj => by simp [hj]
  have g' : ∀ (j : Nat) (hj : j < xs.length), ys.getD j 0 = ys[j] := fun j hj => by
    have : j < ys.length := by omega
    simp [this]
  have hlow : ¬ x < xs.getD 0 0 := by
    rw [g 0 (by omega), not_lt]
    exact le_trans (hle 0 i (by omega) (by omega) (by omega)) h1
  have hhigh : ¬ xs.getD (xs.length - 1) 0 < x := by
    rw [g _ (by omega), not_lt]
    exact le_trans h2 (hle (i + 1) (xs.length - 1) (by omega) (by omega) (by omega))
  simp only [interp, if_neg hlow, if_neg hhigh]
  rcases lt_or_eq_of_le h1 with h | h
  · rw [countP_seg hs hi h h2]
    have : max 1 (min (i + 1) (xs.length - 1)) = i + 1 := by omega
    rw [this, show i + 1 - 1 = i from rfl, g _ hi, g i (by omega), g' _ hi, g' i (by omega)]
  · -- x is the left end of the segment
    subst h
    rw [sub_self, mul_zero, zero_add]
    cases i with
    | zero =>
      rw [countP_first hs (by omega)]
      have : max 1 (min 0 (xs.length - 1)) = 1 := by omega
      rw [this, show 1 - 1 = 0 from rfl, g 0 (by omega), g' 0 (by omega), sub_self, mul_zero, zero_add]
    | succ i =>
      rw [countP_seg hs (i := i) (by omega) (hmono i (i + 1) (by omega) (by omega) (by omega)) (le_refl _)]
      have : max 1 (min (i + 1) (xs.length - 1)) = i + 1 := by omega
      have hne : xs[i + 1] - xs[i] ≠ 0 :=
        sub_ne_zero.mpr (ne_of_gt (hmono i (i + 1) (by omega) (by omega) (by omega)))
      rw [this, show i + 1 - 1 = i from rfl, g _ (by omega), g i (by omega), g' _ (by omega), g' i (by omega),
        div_mul_cancel₀ _ hne]
      simp

end SC.Lut
