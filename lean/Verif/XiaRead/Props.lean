import Verif.XiaRead.Lemmas
/-! # Reading XIA data (C50) -/

namespace SC.XiaRead
open XiaConfig

variable {K : Type} [Field K] (dtf : K → K → K)

theorem zipWith_swap {A B C D E F : Type} {f : A → B → C} {g : C → D → E} {f' : A → D → F} {g' : F → B → E}
    (h : ∀ a b d, g (f a b) d = g' (f' a d) b) (x : List A) (y : List B) (z : List D) :
    List.zipWith g (List.zipWith f x y) z = List.zipWith g' (List.zipWith f' x z) y := by
  induction x generalizing y z with
  | nil => simp
  | cons a x ih => cases y <;> cases z <;> simp [h, ih]

theorem dt_norm (oi : Bool) (x : Block K) (m : List K) (st : Block K) :
    dtLine dtf oi (normLine x m) st = normLine (dtLine dtf oi x st) m := by
  unfold dtLine normLine
  refine zipWith_swap ?_ x m st
  intro sp a s
  simp only [List.map_map]
  refine List.map_congr_left fun ch _ => ?_
  simp only [Function.comp, List.zipWith_map_left, List.map_zipWith]
  congr 1
  funext u v
  ring

theorem sum_div (l : List K) (a : K) : (l.map (· / a)).sum = l.sum / a := by
  induction l with
  | nil => simp
  | cons x l ih => simp [ih, add_div]

theorem sum_norm (x : Block K) (m : List K) : sumLine (normLine x m) = normLine (sumLine x) m := by
  unfold sumLine normLine
  rw [List.map_zipWith, List.zipWith_map_left]
  congr 1
  funext sp a
  simp only [List.map_map]
  refine List.map_congr_left fun ch _ => ?_
  simp [sum_div]

theorem dt_pick (oi : Bool) (x st : Block K) :
    dtLine dtf oi x (if oi then st.map fun s => [s.getD 2 [], s.getD 3 []] else st) = deadtime dtf x st := by
  unfold dtLine deadtime
  cases oi
  · rfl
  · simp [List.zipWith_map_right, indexIcr, indexOcr]

/-- Sum over the detectors if requested. -/
def summed (add : Bool) (n : Nat) (d : Arr K n) : Arr K n := if add then sumArr n d else d

/-- Dead time correction and sum done later give `v`. -/
def Post (p : Params) (n : Nat) (o : Obj K n) (u v : Arr K n) : Prop :=
  if p.dtcor then ∃ st, rawStats p.onlyicrocr n o = some st ∧ v = summed p.add n (dtArr dtf p.onlyicrocr n u st)
  else v = summed p.add n u

theorem post_list {p : Params} {n : Nat} {items : List (Obj K n)} {g : Obj K n → Option (Arr K n)} {vs : List (Arr K n)}
    (h : List.Forall₂ (fun x v => ∃ u, g x = some u ∧ Post dtf p n x u v) items vs) :
    ∃ us, gather (items.map g) = some us ∧
      (if p.dtcor then ∃ sts, gather (items.map (rawStats p.onlyicrocr n)) = some sts ∧
        vs = summed p.add (n + 1) (List.zipWith (dtArr dtf p.onlyicrocr n) us sts)
       else vs = summed p.add (n + 1) us) := by
  induction h with
  | nil =>
    refine ⟨[], rfl, ?_⟩
    split
    · exact ⟨[], rfl, by simp [summed, sumArr]⟩
    · simp [summed, sumArr]
  | @cons x v l vs h1 _ ih =>
    obtain ⟨u, hu, hp⟩ := h1
    obtain ⟨us, hus, hps⟩ := ih
    refine ⟨u :: us, by simp [gather, hu, hus], ?_⟩
    unfold Post at hp
    cases hdt : p.dtcor <;> simp only [hdt, if_true, Bool.false_eq_true, if_false] at hp hps ⊢
    · rw [hp, hps]
      unfold summed
      split <;> rfl
    · obtain ⟨st, hst, rfl⟩ := hp
      obtain ⟨sts, hsts, rfl⟩ := hps
      refine ⟨st :: sts, by simp [gather, hst, hsts], ?_⟩
      unfold summed
      split <;> rfl

/-- The information on the levels, the dead time correction and the sum on level `l`. -/
def AtLevel (l : Nat) (c : Config) : Prop := c.levels = ⟨l, l, 1, 1⟩

theorem info_dt {l n : Nat} {c : Config} (h : AtLevel l c) : (infoOf n c).dt = (c.dtcor && decide (n = l)) := by
  unfold AtLevel at h; simp [infoOf, h]

theorem info_sum {l n : Nat} {c : Config} (h : AtLevel l c) : (infoOf n c).sum = (c.add && decide (n = l)) := by
  unfold AtLevel at h; simp [infoOf, h]

theorem info_norm {l n : Nat} {c : Config} (h : AtLevel l c) : (infoOf n c).norm = (c.norm.isSome && decide (n = 1)) := by
  unfold AtLevel at h; simp [infoOf, h]

/-- A level that does neither the dead time correction nor the sum only normalizes. -/
theorem fixup_norm {l n : Nat} {c : Config} (h : AtLevel l c) (hl : n + 1 ≠ l) (st : Option (Arr K (n + 1)))
    (dt : Arr K (n + 1) → Arr K (n + 1) → Arr K (n + 1)) (sum : Arr K (n + 1) → Arr K (n + 1))
    (monitor : Str → Option (List (List K))) (d : Arr K (n + 1)) :
    fixup (infoOf (n + 1) c) st dt sum (normOpt n monitor c.norm) d = normalized n monitor c.norm d := by
  unfold fixup
  rw [info_dt h, info_sum h, info_norm h]
  simp only [hl, decide_false, Bool.and_false, Bool.false_eq_true, if_false, Option.bind_some]
  cases n with
  | zero =>
    cases hn : c.norm with
    | none => rfl
    | some ctr => rfl
  | succ n => simp [normalized]

/-- The level of the corrections. -/
theorem fixup_here {n : Nat} {c : Config} (h : AtLevel (n + 1) c) (st : Option (Arr K (n + 1)))
    (monitor : Str → Option (List (List K))) (d v : Arr K (n + 1))
    (hv : if c.dtcor then ∃ s, st = some s ∧ v = summed c.add (n + 1) (dtArr dtf c.indexing.onlyicrocr (n + 1) d s)
      else v = summed c.add (n + 1) d) :
    fixup (infoOf (n + 1) c) st (dtArr dtf c.indexing.onlyicrocr (n + 1)) (sumArr (n + 1)) (normOpt n monitor c.norm) d =
      normalized n monitor c.norm v := by
  have key : ∀ x : Arr K (n + 1), (if (c.norm.isSome && decide (n + 1 = 1)) = true then normOpt n monitor c.norm x else some x) =
      normalized n monitor c.norm x := by
    intro x
    cases n with
    | zero =>
      cases hn : c.norm with
      | none => rfl
      | some ctr => rfl
    | succ n => simp [normalized]
  unfold fixup
  rw [info_dt h, info_sum h, info_norm h]
  simp only [decide_true, Bool.and_true]
  cases hdt : c.dtcor <;> simp only [hdt, Bool.false_eq_true, if_false, if_true, Option.bind_some] at hv ⊢
  · rw [hv]; exact key _
  · obtain ⟨s, rfl, rfl⟩ := hv
    simp only [Option.map_some, Option.bind_some]
    exact key _

/-- Normalizing commutes with the other corrections. -/
theorem post_norm {p : Params} {o : Obj K 1} {us vs : Arr K 1} (m : List (List K))
    (h : Post dtf p 1 o us vs) : Post dtf p 1 o (List.zipWith normLine us m) (List.zipWith normLine vs m) := by
  have hs : ∀ x : Arr K 1, sumArr 1 (List.zipWith normLine x m) = List.zipWith normLine (sumArr 1 x) m := by
    intro x
    show List.map sumLine (List.zipWith normLine x m) = List.zipWith normLine (List.map sumLine x) m
    rw [List.map_zipWith, List.zipWith_map_left]
    congr 1
    funext a b
    exact sum_norm a b
  have hd : ∀ x st : Arr K 1, dtArr dtf p.onlyicrocr 1 (List.zipWith normLine x m) st =
      List.zipWith normLine (dtArr dtf p.onlyicrocr 1 x st) m := by
    intro x st
    exact zipWith_swap (fun a b d => dt_norm dtf p.onlyicrocr a b d) x m st
  unfold Post at h ⊢
  cases hdt : p.dtcor <;> simp only [hdt, Bool.false_eq_true, if_false, if_true] at h ⊢
  · rw [h]
    unfold summed
    split
    · exact (hs _).symm
    · rfl
  · obtain ⟨st, hst, rfl⟩ := h
    refine ⟨st, hst, ?_⟩
    rw [hd]
    unfold summed
    split
    · exact (hs _).symm
    · rfl

/-- Below the level of the corrections the data is normalized only. -/
theorem dataAt_before {l n : Nat} {c : Config} (h : AtLevel l c) (hn : n < l) (o : Obj K n) (v : Arr K n)
    (hv : corrected dtf (paramsOf c) n o = some v) :
    ∃ u, dataAt dtf c n o = some u ∧ Post dtf (paramsOf c) n o u v := by
  induction n with
  | zero =>
    obtain ⟨d, hd, h2⟩ := Option.bind_eq_some_iff.1 (show Option.bind _ _ = some v from hv)
    obtain ⟨w, h3, rfl⟩ := Option.map_eq_some_iff.1 h2
    refine ⟨d, ?_, ?_⟩
    · show Option.bind _ _ = _
      rw [hd]
      unfold fixup
      rw [info_dt h, info_sum h, info_norm h]
      simp [Nat.ne_of_lt hn]
    · unfold Post
      cases hdt : (paramsOf c).dtcor <;> simp only [hdt, Bool.false_eq_true, if_false, if_true] at h3 ⊢
      · rw [Option.some.inj h3]
        rfl
      · obtain ⟨st, hst, rfl⟩ := Option.map_eq_some_iff.1 h3
        refine ⟨_, by show Option.map _ _ = _; rw [hst]; rfl, ?_⟩
        show _ = summed (paramsOf c).add 0 (dtLine dtf (paramsOf c).onlyicrocr d _)
        rw [dt_pick]
        rfl
  | succ n ih =>
    obtain ⟨vs, hvs, h2⟩ := Option.bind_eq_some_iff.1 (show Option.bind _ _ = some v from hv)
    have h3 := (gather_some.1 hvs).imp fun x v hx => ih (by omega) x v hx
    obtain ⟨us, hus, hp⟩ := post_list dtf h3
    have hp' : Post dtf (paramsOf c) (n + 1) o us vs := hp
    have key : dataAt dtf c (n + 1) o = normalized n (show Node (Obj K n) K from o).monitor c.norm us := by
      show Option.bind _ _ = _
      rw [hus]
      exact fixup_norm h (by omega) _ _ _ _ _
    rw [key]
    cases n with
    | zero =>
      have h2' : normalized 0 (show Node (Obj K 0) K from o).monitor c.norm vs = some v := h2
      cases hn : c.norm with
      | none =>
        rw [hn] at h2'
        refine ⟨us, rfl, ?_⟩
        rw [← Option.some.inj h2']
        exact hp'
      | some ctr =>
        rw [hn] at h2'
        obtain ⟨m, hm, rfl⟩ := Option.map_eq_some_iff.1 (show Option.map _ _ = some v from h2')
        refine ⟨List.zipWith normLine us m, ?_, post_norm dtf m hp'⟩
        show Option.map _ _ = _
        rw [hm]
        rfl
    | succ n =>
      have h2' : normalized (n + 1) (show Node (Obj K (n + 1)) K from o).monitor c.norm vs = some v := h2
      simp only [normalized] at h2' ⊢
      exact ⟨us, rfl, Option.some.inj h2' ▸ hp'⟩

/-- From the level of the corrections on the data is corrected. -/
theorem dataAt_corrected {l n : Nat} {c : Config} (h : AtLevel l c) (hn : l ≤ n) (o : Obj K n) (v : Arr K n)
    (hv : corrected dtf (paramsOf c) n o = some v) : dataAt dtf c n o = some v := by
  induction n with
  | zero =>
    obtain rfl : l = 0 := by omega
    obtain ⟨d, hd, h2⟩ := Option.bind_eq_some_iff.1 (show Option.bind _ _ = some v from hv)
    obtain ⟨w, h3, rfl⟩ := Option.map_eq_some_iff.1 h2
    show Option.bind _ _ = _
    rw [hd]
    unfold fixup
    rw [Option.bind_some, info_dt h, info_sum h, info_norm h]
    simp only [decide_true, Bool.and_true, Nat.zero_ne_one, decide_false, Bool.and_false, Bool.false_eq_true, if_false]
    cases hdt : (paramsOf c).dtcor
    · have hdt' : c.dtcor = false := hdt
      simp only [hdt, Bool.false_eq_true, if_false] at h3
      rw [hdt', Option.some.inj h3]
      rfl
    · have hdt' : c.dtcor = true := hdt
      simp only [hdt, if_true] at h3
      obtain ⟨st, hst, rfl⟩ := Option.map_eq_some_iff.1 h3
      rw [hdt']
      simp only [if_true]
      have : rawStats c.indexing.onlyicrocr 0 o = some (if c.indexing.onlyicrocr then st.map fun s => [s.getD 2 [], s.getD 3 []] else st) := by
        show Option.map _ _ = _
        rw [hst]
        rfl
      rw [this, Option.map_some, Option.bind_some, dt_pick]
      rfl
  | succ n ih =>
    obtain ⟨vs, hvs, h2⟩ := Option.bind_eq_some_iff.1 (show Option.bind _ _ = some v from hv)
    by_cases hl : l = n + 1
    · subst hl
      have h3 := (gather_some.1 hvs).imp fun x v hx => dataAt_before dtf h (by omega) x v hx
      obtain ⟨us, hus, hp⟩ := post_list dtf h3
      show Option.bind _ _ = _
      rw [hus]
      refine (fixup_here dtf h _ _ us vs ?_).trans h2
      exact hp
    · have h3 := (gather_some.1 hvs).imp fun x v hx => ih (by omega) x v hx
      show Option.bind _ _ = _
      rw [gather_some.2 h3]
      exact (fixup_norm h (by omega) _ _ _ _ vs).trans h2

end SC.XiaRead
