import Verif.NxFile.Model
import Verif.Paths.Lemmas
import Mathlib.Tactic.Ring
import Mathlib.Data.List.Induction
/-! # C96: steps, classes, defaults and axes in a NeXus file -/
namespace SC.NxFile
open SC.Paths (Str)

theorem parts_glue (l : List Str) (h : ∀ x ∈ l, x ≠ [] ∧ '/' ∉ x) : Paths.parts (Paths.glue ['/'] l) = l := by
  induction l with
  | nil => rfl
  | cons x l ih =>
    obtain ⟨h1, h2⟩ := h x List.mem_cons_self
    have ih' := ih fun y hy => h y (List.mem_cons_of_mem _ hy)
    cases l with
    | nil => simp [Paths.parts, Paths.glue, Paths.split_plain h2, h1]
    | cons y l =>
      have e : Paths.glue ['/'] (x :: y :: l) = x ++ '/' :: Paths.glue ['/'] (y :: l) := by simp [Paths.glue]
      rw [e]
      unfold Paths.parts at ih' ⊢
      rw [Paths.split_append, List.filter_append, ih', Paths.split_plain h2]
      simp [h1]

/-- The name is the last part of the path and the path has the other parts. -/
theorem parse_spec (path : Str) :
    (pathParse path).2 = (Paths.parts path).getLastD [] ∧ Paths.parts (pathParse path).1 = (Paths.parts path).dropLast ∧
    ['/'] <+: (pathParse path).1 := by
  have hp : ∀ x ∈ Paths.parts path, x ≠ [] ∧ '/' ∉ x := by
    intro x hx
    unfold Paths.parts at hx
    rw [List.mem_filter] at hx
    refine ⟨?_, Paths.split_noslash path x hx.1⟩
    rintro rfl
    simp at hx
  unfold pathParse
  generalize Paths.parts path = l at *
  rcases List.eq_nil_or_concat l with rfl | ⟨r, n, rfl⟩
  · simp [Paths.parts, Paths.split]
  · rw [List.concat_eq_append, List.reverse_concat]
    cases hr : r.reverse with
    | nil =>
      have : r = [] := by simpa using hr
      subst this
      simp [Paths.parts, Paths.split]
    | cons a as =>
      have : r = (a :: as).reverse := by rw [← hr, List.reverse_reverse]
      subst this
      refine ⟨by simp, ?_, ⟨_, rfl⟩⟩
      simp only [List.dropLast_concat]
      have := parts_glue (a :: as).reverse fun x hx => hp x (by simp only [List.concat_eq_append]; exact List.mem_append_left _ hx)
      unfold Paths.parts at this ⊢
      rw [Paths.split_slash, List.filter_cons]
      simpa using this

/-! ## Steps -/

theorem step_index (i : Nat) (n : Str) : intOf ((stepName i n).takeWhile fun c => c != '.') = some i := by
  have hd : ∀ c ∈ Nat.toDigits 10 i, c.isDigit = true := fun c hc => Nat.isDigit_of_mem_toDigits (by decide) (by decide) hc
  have e : (stepName i n).takeWhile (fun c => c != '.') = Nat.toDigits 10 i := by
    unfold stepName
    rw [List.takeWhile_append_of_pos]
    · simp
    · intro c hc
      have := hd c hc
      simp only [bne_iff_ne, ne_eq]
      rintro rfl
      revert this; decide
  rw [e]
  unfold intOf
  rw [if_pos ⟨Nat.toDigits_ne_nil, by rw [List.all_eq_true]; exact hd⟩]
  rw [Nat.ofDigitChars_toDigits (b := 10) (by decide) (by decide)]

/-- One step after the other. -/
def addAll {D : Type} (steps : List (Str × D)) : Option (List (Str × D)) := steps.foldlM (fun g s => addInfo g s.1 s.2) []

/-- The groups of the steps. -/
def groups {D : Type} (steps : List (Str × D)) : List (Str × D) := steps.zipIdx.map fun p => (stepName (p.2 + 1) p.1.1, p.1.2)

theorem addAll_eq {D : Type} (steps : List (Str × D)) : addAll steps = some (groups steps) := by
  induction steps using List.reverseRecOn with
  | nil => rfl
  | append_singleton l s ih =>
    unfold addAll at ih ⊢
    rw [List.foldlM_append, ih]
    have hl : (groups l).length = l.length := by simp [groups]
    have hnot : stepName (l.length + 1) s.1 ∉ (groups l).map (·.1) := by
      intro h
      simp only [groups, List.map_map, List.mem_map, Function.comp] at h
      obtain ⟨⟨p, i⟩, hp, e⟩ := h
      have hi : i < l.length := by
        have := List.mem_zipIdx hp
        simp at this
        omega
      have := congrArg (fun t => intOf (t.takeWhile fun c => c != '.')) e
      simp only [step_index, Option.some.injEq] at this
      omega
    simp only [bind, Option.bind, List.foldlM_cons, List.foldlM_nil, addInfo, hl, hnot, if_false]
    simp [groups, List.zipIdx_append, pure]

theorem assign_fold {D : Type} : ∀ (es : List (Nat × D)) (r : List (Option D)), (∀ e ∈ es, 1 ≤ e.1 ∧ e.1 ≤ r.length) → (es.map (·.1)).Nodup →
    ∃ r', es.foldlM (fun ret p => assign ret p.1 p.2) r = some r' ∧ r'.length = r.length ∧
      (∀ e ∈ es, r'[e.1 - 1]? = some (some e.2)) ∧ ∀ j, (∀ e ∈ es, e.1 - 1 ≠ j) → r'[j]? = r[j]? := by
  intro es
  induction es with
  | nil => intro r _ _; exact ⟨r, rfl, rfl, by simp, by simp⟩
  | cons e es ih =>
    intro r hb hn
    obtain ⟨b1, b2⟩ := hb e List.mem_cons_self
    rw [List.map_cons, List.nodup_cons] at hn
    obtain ⟨r', h1, h2, h3, h4⟩ := ih (r.set (e.1 - 1) (some e.2))
      (fun x hx => by rw [List.length_set]; exact hb x (List.mem_cons_of_mem _ hx)) hn.2
    have ha : assign r e.1 e.2 = some (r.set (e.1 - 1) (some e.2)) := by
      unfold assign
      simp only
      rw [if_neg (show ¬ e.1 = 0 by omega), if_pos (by omega)]
    refine ⟨r', ?_, by rw [h2, List.length_set], ?_, ?_⟩
    · rw [List.foldlM_cons, ha]; exact h1
    · intro x hx
      rcases List.mem_cons.mp hx with rfl | hx
      · rw [h4]
        · rw [List.getElem?_set]
          simp [show x.1 - 1 < r.length by omega]
        · intro y hy e'
          have y1 := hb y (List.mem_cons_of_mem _ hy)
          have : y.1 = x.1 := by omega
          exact hn.1 (List.mem_map.mpr ⟨y, hy, this⟩)
      · exact h3 x hx
    · intro j hj
      rw [h4 j fun x hx => hj x (List.mem_cons_of_mem _ hx), List.getElem?_set_ne (hj e List.mem_cons_self)]

/-- All steps can be added, and are read in the order in which they were added, in whatever order the file gives them. -/
theorem steps_roundtrip {D : Type} (steps : List (Str × D)) :
    ∃ g, addAll steps = some g ∧ ∀ g', g'.Perm g → getInfo g' = some (steps.map fun s => some s.2) := by
  refine ⟨groups steps, addAll_eq steps, ?_⟩
  intro g' hp
  -- the entries with their numbers
  let es : List (Nat × D) := steps.zipIdx.map fun p => (p.2 + 1, p.1.2)
  have hidx : ∀ p ∈ g', ∃ i n d, p = (stepName (i + 1) n, d) ∧ (i + 1, d) ∈ es := by
    intro p h
    have := hp.mem_iff.mp h
    simp only [groups, List.mem_map] at this
    obtain ⟨⟨q, i⟩, hq, rfl⟩ := this
    exact ⟨i, q.1, q.2, rfl, List.mem_map.mpr ⟨(q, i), hq, rfl⟩⟩
  let num : Str × D → Nat × D := fun p => ((intOf (p.1.takeWhile fun c => c != '.')).getD 0, p.2)
  have hnum : (groups steps).map num = es := by
    simp only [groups, es, List.map_map]
    apply List.map_congr_left
    intro p _
    simp only [Function.comp, num, step_index, Option.getD_some]
  have hperm : (g'.map num).Perm es := by rw [← hnum]; exact hp.map num
  have hlen : g'.length = steps.length := by rw [hp.length_eq]; simp [groups]
  have hnd : (es.map (·.1)).Nodup := by
    simp only [es, List.map_map]
    have : steps.zipIdx.map ((fun x : Nat × D => x.1) ∘ fun p => (p.2 + 1, p.1.2)) = (List.range steps.length).map (· + 1) := by
      apply List.ext_getElem <;> simp
    rw [this]
    exact List.nodup_range.map fun a b h => by simpa using h
  have hes : ∀ e ∈ es, 1 ≤ e.1 ∧ e.1 ≤ steps.length := by
    intro e he
    simp only [es, List.mem_map] at he
    obtain ⟨⟨q, i⟩, hq, rfl⟩ := he
    have := List.mem_zipIdx hq
    simp at this
    simp only
    omega
  obtain ⟨r', h1, h2, h3, _⟩ := assign_fold (g'.map num) (List.replicate g'.length none)
    (fun e he => by rw [List.length_replicate, hlen]; exact hes e (hperm.mem_iff.mp he)) ((hperm.map _).nodup_iff.mpr hnd)
  have hget : getInfo g' = some r' := by
    unfold getInfo
    rw [← h1, List.foldlM_map]
    have gen : ∀ (l : List (Str × D)) (r : List (Option D)), (∀ p ∈ l, p ∈ g') →
        l.foldlM (fun ret p => (intOf (p.1.takeWhile fun c => c != '.')).bind fun ind => assign ret ind p.2) r =
        l.foldlM (fun ret p => assign ret (num p).1 (num p).2) r := by
      intro l
      induction l with
      | nil => intro r _; rfl
      | cons p l ih =>
        intro r h
        obtain ⟨i, n, d, rfl, _⟩ := hidx p (h p List.mem_cons_self)
        rw [List.foldlM_cons, List.foldlM_cons]
        simp only [num, step_index, Option.bind_some, Option.getD_some]
        congr 1
        funext r'
        exact ih r' fun q hq => h q (List.mem_cons_of_mem _ hq)
    exact gen g' _ fun p h => h
  rw [hget]
  congr 1
  apply List.ext_getElem?
  intro j
  by_cases hj : j < steps.length
  · have hm : (j + 1, (steps[j]).2) ∈ g'.map num := by
      rw [hperm.mem_iff]
      simp only [es, List.mem_map]
      exact ⟨(steps[j], j), by rw [List.mem_zipIdx_iff_getElem?]; simp [hj], rfl⟩
    have := h3 _ hm
    simp only [Nat.add_sub_cancel] at this
    rw [this]
    simp [hj]
  · rw [List.getElem?_eq_none (by rw [h2, List.length_replicate, hlen]; omega), List.getElem?_eq_none (by simpa using hj)]

/-! ## Classes -/

/-- Parents up to the first with a class get one; the others do not change. -/
theorem class_spec (dataset : Bool) (l : List (Option Cls)) (i : Nat) (hi : i < l.length) :
    (classUp dataset l).length = l.length ∧
    ((∀ j ≤ i, l[j]? = some none) → (classUp dataset l)[i]? = some (some (if dataset = true ∧ i = 0 then .data
      else if l[i + 1]? = some (some .root) then .entry else .subentry))) ∧
    ((∃ j ≤ i, ∃ c, l[j]? = some (some c)) → (classUp dataset l)[i]? = l[i]?) := by
  induction l generalizing dataset i with
  | nil => simp at hi
  | cons a l ih =>
    cases a with
    | some c =>
      refine ⟨rfl, fun h => ?_, fun _ => rfl⟩
      have := h 0 (by omega)
      simp at this
    | none =>
      cases i with
      | zero =>
        refine ⟨?_, fun _ => ?_, ?_⟩
        · cases l with
          | nil => rfl
          | cons b l => simp only [classUp, List.length_cons]; rw [(ih false 0 (by simp)).1]; rfl
        · cases dataset <;> simp [classUp, List.head?_eq_getElem?]
        · rintro ⟨j, hj, c, hc⟩
          have : j = 0 := by omega
          subst this
          simp at hc
      | succ i =>
        have hi' : i < l.length := by simpa using hi
        obtain ⟨h1, h2, h3⟩ := ih false i hi'
        refine ⟨by simp only [classUp, List.length_cons, h1], ?_, ?_⟩
        · intro h
          have := h2 fun j hj => by simpa using h (j + 1) (by omega)
          simp only [classUp, List.getElem?_cons_succ]
          rw [this]
          simp
        · rintro ⟨j, hj, c, hc⟩
          cases j with
          | zero => simp at hc
          | succ j =>
            simp only [classUp, List.getElem?_cons_succ]
            exact h3 ⟨j, by omega, c, by simpa using hc⟩

/-- A root without class becomes a subentry. -/
theorem root_subentry : classUp false [none] = [some .subentry] := rfl

/-- A parent above one with a class is not changed. -/
theorem class_stops (dataset : Bool) (c : Cls) (l : List (Option Cls)) : classUp dataset (some c :: l) = some c :: l := rfl

/-! ## Defaults -/

/-- Following the default attributes from a group. -/
def follow (st : Py.Dict (List Str) Str) : Nat → List Str → List Str
  | 0, p => p
  | k + 1, p => match Py.Dict.get? st p with
    | none => p
    | some n => follow st k (n :: p)

theorem default_other (p q : List Str) (st : Py.Dict (List Str) Str) (h : ∀ n r, n :: r <:+ p → q ≠ r) :
    Py.Dict.get? (defaultUp st p) q = Py.Dict.get? st q := by
  induction p generalizing st with
  | nil => rfl
  | cons a p ih =>
    unfold defaultUp
    rw [ih _ fun n r hs => h n r (hs.trans (List.suffix_cons a p)), Py.Dict.get?_set, if_neg]
    exact fun e => h a p (List.suffix_refl _) e.symm

theorem default_set (p r : List Str) (n : Str) (st : Py.Dict (List Str) Str) (h : n :: r <:+ p) :
    Py.Dict.get? (defaultUp st p) r = some n := by
  induction p generalizing st with
  | nil => simp at h
  | cons a p ih =>
    unfold defaultUp
    rcases List.suffix_cons_iff.mp h with e | h
    · cases e
      rw [default_other, Py.Dict.get?_set, if_pos rfl]
      intro m q hs e
      have := hs.length_le
      rw [← e] at this
      simp at this
    · exact ih _ h

/-- Following the defaults from the root leads to the group. Defaults of groups that are not parents do not change. -/
theorem default_follow (a : Attrs) (p : List Str) :
    follow (nxDefault a false true p).default p.length [] = p ∧
    (∀ q, (∀ n r, n :: r <:+ p → q ≠ r) → Py.Dict.get? (nxDefault a false true p).default q = Py.Dict.get? a.default q) ∧
    (nxDefault a false true p).signal = a.signal := by
  have key : ∀ k r, k + r.length = p.length → r <:+ p → follow (defaultUp a.default p) k r = p := by
    intro k
    induction k with
    | zero =>
      intro r hk hr
      exact hr.eq_of_length (by omega)
    | succ k ih =>
      intro r hk hr
      obtain ⟨t, ht⟩ := hr
      rcases List.eq_nil_or_concat t with rfl | ⟨t', n, rfl⟩
      · simp only [List.nil_append] at ht
        subst ht
        omega
      · rw [List.concat_eq_append, List.append_assoc, List.singleton_append] at ht
        have hs : n :: r <:+ p := ⟨t', ht⟩
        unfold follow
        rw [default_set p r n _ hs]
        exact ih (n :: r) (by simp only [List.length_cons]; omega) hs
  refine ⟨?_, ?_, ?_⟩
  · cases p <;> exact key _ [] (by simp) (by simp)
  · intro q hq
    have := default_other p q a.default hq
    cases p <;> exact this
  · cases p <;> rfl

/-- A dataset becomes the signal of its group, which becomes the default. -/
theorem default_dataset (a : Attrs) (n : Str) (r : List Str) :
    follow (nxDefault a true true (n :: r)).default r.length [] = r ∧
    Py.Dict.get? (nxDefault a true true (n :: r)).signal r = some n ∧
    (nxDefault a true false (n :: r)).default = a.default ∧
    Py.Dict.get? (nxDefault a true false (n :: r)).signal r = some n := by
  refine ⟨?_, by simp [nxDefault, Py.Dict.get?_set], rfl, by simp [nxDefault, Py.Dict.get?_set]⟩
  have := (default_follow a r).1
  cases r <;> exact this

/-! ## Axes -/

theorem splitColon_ne (s : Str) : splitColon s ≠ [] := by
  cases s with
  | nil => simp [splitColon]
  | cons c s =>
    simp only [splitColon]
    split
    · simp
    · split <;> simp

theorem splitColon_plain (n : Str) (h : ':' ∉ n) : splitColon n = [n] := by
  induction n with
  | nil => rfl
  | cons c n ih =>
    have hc : c ≠ ':' := fun e => h (by simp [e])
    simp [splitColon, hc, ih fun h' => h (List.mem_cons_of_mem _ h')]

theorem splitColon_append (a b : Str) (h : ':' ∉ a) : splitColon (a ++ ':' :: b) = a :: splitColon b := by
  induction a with
  | nil => simp [splitColon]
  | cons c a ih =>
    have hc : c ≠ ':' := fun e => h (by simp [e])
    simp [splitColon, hc, ih fun h' => h (List.mem_cons_of_mem _ h')]

theorem splitColon_glue (l : List Str) (hne : l ≠ []) (h : ∀ x ∈ l, ':' ∉ x) : splitColon (Paths.glue [':'] l) = l := by
  induction l with
  | nil => exact absurd rfl hne
  | cons x l ih =>
    cases l with
    | nil => exact splitColon_plain x (h x List.mem_cons_self)
    | cons y l =>
      have e : Paths.glue [':'] (x :: y :: l) = x ++ ':' :: Paths.glue [':'] (y :: l) := by simp [Paths.glue]
      rw [e, splitColon_append _ _ (h x List.mem_cons_self), ih (by simp) fun z hz => h z (List.mem_cons_of_mem _ hz)]

theorem links_get {D : Type} (axes : List (Str × D)) (links : Py.Dict Str D) (hn : (axes.map (·.1)).Nodup) :
    (∀ a ∈ axes, Py.Dict.get? (axes.foldl (fun l a => Py.Dict.set l a.1 a.2) links) a.1 = some a.2) ∧
    ∀ n, n ∉ axes.map (·.1) → Py.Dict.get? (axes.foldl (fun l a => Py.Dict.set l a.1 a.2) links) n = Py.Dict.get? links n := by
  induction axes generalizing links with
  | nil => simp
  | cons b axes ih =>
    rw [List.map_cons, List.nodup_cons] at hn
    obtain ⟨i1, i2⟩ := ih (Py.Dict.set links b.1 b.2) hn.2
    rw [List.foldl_cons]
    refine ⟨?_, ?_⟩
    · intro a ha
      rcases List.mem_cons.mp ha with rfl | ha
      · rw [i2 _ hn.1, Py.Dict.get?_set, if_pos rfl]
      · exact i1 a ha
    · intro n hmem
      rw [List.map_cons, List.mem_cons, not_or] at hmem
      rw [i2 n hmem.2, Py.Dict.get?_set, if_neg (Ne.symm hmem.1)]

/-- Axes that are linked are read again in the same order. -/
theorem axes_roundtrip {D : Type} (axes : List (Str × D)) (links : Py.Dict Str D) (hne : axes ≠ []) (hn : (axes.map (·.1)).Nodup)
    (hc : ∀ a ∈ axes, ':' ∉ a.1) : readAxes (linkAxes links axes).1 (linkAxes links axes).2 = some axes := by
  unfold readAxes linkAxes
  simp only
  rw [splitColon_glue _ (by simpa using hne) (by
    intro x hx
    obtain ⟨a, ha, rfl⟩ := List.mem_map.mp hx
    exact hc a ha)]
  have hg := (links_get axes links hn).1
  generalize List.foldl (fun l a => Py.Dict.set l a.1 a.2) links axes = L at hg
  clear hne hn hc
  induction axes with
  | nil => rfl
  | cons a axes ih =>
    rw [List.map_cons, List.mapM_cons, hg a List.mem_cons_self, ih fun b hb => hg b (List.mem_cons_of_mem _ hb)]
    rfl

/-- Names with a colon are not found, and neither are no axes at all. -/
theorem axes_lost : readAxes (linkAxes ([] : Py.Dict Str Nat) [(['a', ':', 'b'], 1)]).1 (linkAxes [] [(['a', ':', 'b'], 1)]).2 = none ∧
    readAxes (linkAxes ([] : Py.Dict Str Nat) []).1 (linkAxes ([] : Py.Dict Str Nat) []).2 = none := by decide +kernel

example : pathParse "/a//b/c/".toList = ("/a/b".toList, "c".toList) := by decide +kernel
example : getInfo [("10.b".toList, 1)] = (none : Option (List (Option Nat))) := by decide +kernel
example : addAll [("a".toList, 1), ("b".toList, 2)] = some [("1.a".toList, 1), ("2.b".toList, 2)] := by decide +kernel
example : classUp true [none, none, none, some .root] = [some .data, some .subentry, some .entry, some .root] := by decide +kernel
example : follow (nxDefault ⟨[], []⟩ false true [['c'], ['b'], ['a']]).default 3 [] = [['c'], ['b'], ['a']] := by decide +kernel

end SC.NxFile
