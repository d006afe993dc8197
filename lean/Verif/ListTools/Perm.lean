import Verif.ListTools.Lemmas
/-! # C12: element moves, flattening and boolean/integer selection (utils/listtools.py) -/
namespace SC.ListTools
open SC.Py

/-! ## Python index normalisation -/

theorem normIdx_lt {n : Nat} {i : Int} {a : Nat} (h : normIdx n i = some a) : a < n := by
  unfold normIdx at h
  split at h
  · simp at h; omega
  · split at h
    · simp at h; omega
    · simp at h

theorem normIdx_nat {n k : Nat} (h : k < n) : normIdx n (k : Int) = some k := by
  unfold normIdx
  rw [if_pos (by omega)]
  simp

/-! ## swap -/

/-- **C12.** `swap(lst, i, j)` with valid (possibly negative) indices exchanges exactly the two
addressed elements. -/
theorem swap_spec {α : Type} (l : List α) (i j : Int) (a b : Nat)
    (hi : normIdx l.length i = some a) (hj : normIdx l.length j = some b) :
    ∃ r, swap l i j = .ok r ∧ r.length = l.length ∧ r[a]? = l[b]? ∧ r[b]? = l[a]? ∧
      ∀ k, k ≠ a → k ≠ b → r[k]? = l[k]? := by
  have ha := normIdx_lt hi
  have hb := normIdx_lt hj
  unfold swap
  by_cases hij : i = j
  · subst hij
    rw [hi] at hj
    have hab : a = b := by simpa using hj
    subst hab
    exact ⟨l, by simp, rfl, rfl, rfl, fun _ _ _ => rfl⟩
  · simp only [ne_eq, hij, not_false_eq_true, if_true, hi, hj, List.getElem?_eq_getElem ha,
      List.getElem?_eq_getElem hb]
    refine ⟨_, rfl, by simp, ?_, ?_, ?_⟩
    · by_cases hab : a = b
      · subst hab; simp [ha]
      · rw [List.getElem?_set_ne (Ne.symm hab)]; simp [ha]
    · simp [hb]
    · intro k h1 h2
      rw [List.getElem?_set_ne (Ne.symm h2), List.getElem?_set_ne (Ne.symm h1)]

/-- **C12.** Swapping twice restores the list. -/
theorem swap_involutive {α : Type} (l : List α) (i j : Int) (r : List α) (h : swap l i j = .ok r) :
    swap r i j = .ok l := by
  by_cases hij : i = j
  · subst hij
    unfold swap at h ⊢
    simp at h ⊢; exact h.symm
  · have hi : ∃ a, normIdx l.length i = some a := by
      unfold swap at h
      cases hh : normIdx l.length i with
      | some a => exact ⟨a, rfl⟩
      | none => simp [hij, hh] at h
    have hj : ∃ b, normIdx l.length j = some b := by
      unfold swap at h
      cases hh : normIdx l.length j with
      | some a => exact ⟨a, rfl⟩
      | none => obtain ⟨a, ha⟩ := hi; simp [hij, hh, ha] at h
    obtain ⟨a, ha⟩ := hi
    obtain ⟨b, hb⟩ := hj
    obtain ⟨r', h1, h2, h3, h4, h5⟩ := swap_spec l i j a b ha hb
    have : r' = r := by rw [h1] at h; simpa using h
    subst this
    obtain ⟨q, q1, q2, q3, q4, q5⟩ := swap_spec r' i j a b (by rw [h2]; exact ha) (by rw [h2]; exact hb)
    rw [q1]
    congr 1
    apply List.ext_getElem?
    intro k
    by_cases ka : k = a
    · subst ka; rw [q3, h4]
    · by_cases kb : k = b
      · subst kb; rw [q4, h3]
      · rw [q5 k ka kb, h5 k ka kb]

example : swap [10, 11, 12, 13] 1 (-1) = .ok [10, 13, 12, 11] := by decide

/-- **C12.** Out-of-range indices raise `IndexError` (unless `i == j`, where nothing is done). -/
theorem swap_error {α : Type} (l : List α) (i j : Int) (hij : i ≠ j)
    (h : normIdx l.length i = none ∨ normIdx l.length j = none) : swap l i j = .error .indexError := by
  unfold swap
  rw [if_pos hij]
  rcases h with h | h
  · simp [h]
  · rw [h]
    cases normIdx l.length i <;> rfl

/-! ## move -/

/-- **C12.** `move(lst, i, j)` with non-negative in-range indices: the element at `i` ends up at
`j`, and the remaining elements keep their order (removing position `j` from the result and
position `i` from the input leaves the same list). -/
theorem move_spec {α : Type} (l : List α) (i j : Nat) (hi : i < l.length) (hj : j < l.length) :
    ∃ r, move l i j = .ok r ∧ r.length = l.length ∧ r[j]? = l[i]? ∧
      r.eraseIdx j = l.eraseIdx i := by
  unfold move
  by_cases hij : (i : Int) = (j : Int)
  · have : i = j := by omega
    subst this
    exact ⟨l, by simp, rfl, rfl, rfl⟩
  · simp only [ne_eq, hij, not_false_eq_true, if_true, normIdx_nat hi,
      List.getElem?_eq_getElem hi]
    have hlen : (l.eraseIdx i).length = l.length - 1 := List.length_eraseIdx_of_lt hi
    have hidx : (if (j : Int) < 0 then max 0 ((j : Int) + ((l.eraseIdx i).length : Nat))
        else min (j : Int) ((l.eraseIdx i).length : Nat)).toNat = j := by
      rw [if_neg (by omega), hlen]; omega
    refine ⟨_, rfl, ?_, ?_, ?_⟩
    · simp only [insertPy, hidx]
      rw [List.length_insertIdx, hlen, if_pos (by omega)]; omega
    · simp only [insertPy, hidx]
      rw [List.getElem?_insertIdx_self, if_pos (by omega)]
    · simp only [insertPy, hidx]
      rw [List.eraseIdx_insertIdx_self]

/-- **C12.** `move` is a permutation of its input for any indices it accepts (negative too). -/
theorem move_perm {α : Type} (l : List α) (i j : Int) (r : List α) (h : move l i j = .ok r) :
    r.Perm l := by
  unfold move at h
  by_cases hij : i = j
  · simp [hij] at h; rw [h]
  · rw [if_pos hij] at h
    cases hn : normIdx l.length i with
    | none => simp [hn] at h
    | some a =>
      have ha := normIdx_lt hn
      simp only [hn, List.getElem?_eq_getElem ha, Except.ok.injEq] at h
      rw [← h]
      simp only [insertPy]
      have hp : ((l.eraseIdx a).insertIdx (if j < 0 then max 0 (j + ((l.eraseIdx a).length : Nat))
          else min j ((l.eraseIdx a).length : Nat)).toNat l[a]).Perm (l[a] :: l.eraseIdx a) := by
        apply List.perm_insertIdx
        split <;> omega
      exact hp.trans (List.getElem_cons_eraseIdx_perm ha)

/-- **C12.** `move` back undoes `move`. -/
theorem move_inverse {α : Type} (l : List α) (i j : Nat) (hi : i < l.length) (hj : j < l.length) :
    (move l i j).bind (fun r => move r j i) = .ok l := by
  obtain ⟨r, h1, h2, h3, h4⟩ := move_spec l i j hi hj
  obtain ⟨q, q1, q2, q3, q4⟩ := move_spec r j i (by omega) (by omega)
  rw [h1]
  simp only [Except.bind, q1]
  congr 1
  have e1 : q[i]? = l[i]? := by rw [q3, h3]
  have e2 : q.eraseIdx i = l.eraseIdx i := by rw [q4, h4]
  apply List.ext_getElem?
  intro k
  rcases Nat.lt_trichotomy k i with hk | hk | hk
  · have := congrArg (fun m => m[k]?) e2
    simpa [List.getElem?_eraseIdx_of_lt hk] using this
  · subst hk; exact e1
  · have := congrArg (fun m => m[k - 1]?) e2
    rw [List.getElem?_eraseIdx_of_ge (by omega), List.getElem?_eraseIdx_of_ge (by omega)] at this
    rwa [Nat.sub_add_cancel (by omega)] at this

example : move ['a','b','c','d'] 0 2 = .ok ['b','c','a','d'] := by decide

/-! ## roll -/

theorem map_some_filterMap {α β : Type} (g : α → Option β) (l : List α)
    (h : ∀ a ∈ l, (g a).isSome) : (l.filterMap g).map some = l.map g := by
  induction l with
  | nil => rfl
  | cons a l ih =>
    obtain ⟨b, hb⟩ := Option.isSome_iff_exists.mp (h a (by simp))
    simp [hb, ih (fun x hx => h x (by simp [hx]))]

/-- **C12.** `roll(lst, n)`: result `k` is input `(k + |n|) mod len` – the direction does not
depend on the sign of `n`. -/
theorem roll_spec {α : Type} (l : List α) (n : Int) :
    (roll l n).length = l.length ∧
    ∀ k < l.length, (roll l n)[k]? = l[(k + n.natAbs) % l.length]? := by
  unfold roll
  by_cases hn : n = 0
  · subst hn
    simp
    intro k hk; rw [Nat.mod_eq_of_lt hk]
  · rw [if_pos hn]
    have key : (cycleSlice l n.natAbs).map some =
        (List.range l.length).map (fun k => l[(n.natAbs + k) % l.length]?) := by
      unfold cycleSlice
      apply map_some_filterMap
      intro k hk
      have := List.mem_range.mp hk
      rw [List.getElem?_eq_getElem (Nat.mod_lt _ (by omega))]; simp
    have hlen : (cycleSlice l n.natAbs).length = l.length := by
      simpa using congrArg List.length key
    refine ⟨hlen, fun k hk => ?_⟩
    have hk' := congrArg (fun m => m[k]?) key
    simp only [List.getElem?_map, List.getElem?_range hk, Option.map_some] at hk'
    rw [List.getElem?_eq_getElem (by omega)] at hk' ⊢
    simp only [Option.map_some, Option.some.injEq] at hk'
    rw [hk', Nat.add_comm]

/-- **C12 (finding).** `roll` ignores the sign: rolling by `-n` is the same as by `n`. -/
theorem roll_neg {α : Type} (l : List α) (n : Int) : roll l (-n) = roll l n := by
  unfold roll
  simp

/-- **C12 (finding).** Hence `roll` by `-n` does not undo `roll` by `n`. -/
theorem roll_neg_not_inverse : roll (roll [1, 2, 3] 1) (-1) ≠ [1, 2, 3] := by decide

/-- **C12.** What does undo it: rolling on by the remaining distance. -/
theorem roll_inverse {α : Type} (l : List α) (n : Nat) (hn : n ≤ l.length) :
    roll (roll l n) ((l.length - n : Nat) : Int) = l := by
  obtain ⟨h1, h2⟩ := roll_spec l n
  obtain ⟨h3, h4⟩ := roll_spec (roll l n) ((l.length - n : Nat) : Int)
  apply List.ext_getElem?
  intro k
  by_cases hk : k < l.length
  · rw [h4 k (by omega), h1, h2 _ (Nat.mod_lt _ (by omega))]
    congr 1
    simp only [Int.natAbs_natCast]
    rw [Nat.mod_add_mod]
    have : k + (l.length - n) + n = k + l.length := by omega
    rw [this, Nat.add_mod_right, Nat.mod_eq_of_lt hk]
  · rw [List.getElem?_eq_none (by omega), List.getElem?_eq_none (by omega)]

example : roll [1, 2, 3, 4, 5] 2 = [3, 4, 5, 1, 2] := by decide

/-! ## flatten -/

/-- Specification: the leaf at a path of child positions. -/
def Nested.leafAt {α : Type} : Nested α → List Nat → Option α
  | .leaf a, [] => some a
  | .leaf _, _ :: _ => none
  | .node _, [] => none
  | .node ts, i :: p => (ts[i]?).bind fun t => t.leafAt p
termination_by _ p => p.length

mutual
/-- Helper: list of leaf paths in traversal order. -/
def paths {α : Type} : Nested α → List (List Nat)
  | .leaf _ => [[]]
  | .node ts => pathsAll 0 ts
def pathsAll {α : Type} : Nat → List (Nested α) → List (List Nat)
  | _, [] => []
  | k, t :: ts => (paths t).map (k :: ·) ++ pathsAll (k + 1) ts
end

mutual
theorem paths_spec {α : Type} : ∀ (t : Nested α),
    (paths t).Pairwise (List.Lex (· < ·)) ∧ (∀ p, p ∈ paths t ↔ (t.leafAt p).isSome) ∧
    (paths t).map t.leafAt = (flatten t).map some
  | .leaf a => by
    refine ⟨by simp [paths], fun p => ?_, by simp [paths, flatten, Nested.leafAt]⟩
    cases p <;> simp [paths, Nested.leafAt]
  | .node ts => by
    obtain ⟨h1, h2, h3⟩ := pathsAll_spec ts 0
    refine ⟨by simpa [paths] using h1, fun p => ?_, ?_⟩
    · simp only [paths, h2]
      cases p with
      | nil => simp [Nested.leafAt]
      | cons i q => simp [Nested.leafAt]
    · simp only [paths, flatten]
      rw [← h3]
      apply List.map_congr_left
      intro p hp
      obtain ⟨i, q, rfl, -, -⟩ := (h2 p).mp hp
      simp [Nested.leafAt]
theorem pathsAll_spec {α : Type} : ∀ (ts : List (Nested α)) (k : Nat),
    (pathsAll k ts).Pairwise (List.Lex (· < ·)) ∧
    (∀ p, p ∈ pathsAll k ts ↔ ∃ i q, p = i :: q ∧ k ≤ i ∧
      ((ts[i - k]?).bind (fun t => t.leafAt q)).isSome) ∧
    (pathsAll k ts).map (fun p => match p with
      | [] => none
      | i :: q => (ts[i - k]?).bind (fun t => t.leafAt q)) = (flattenAll ts).map some
  | [], k => by
    refine ⟨by simp [pathsAll], fun p => by simp [pathsAll], by simp [pathsAll, flattenAll]⟩
  | t :: ts, k => by
    obtain ⟨a1, a2, a3⟩ := paths_spec t
    obtain ⟨b1, b2, b3⟩ := pathsAll_spec ts (k + 1)
    refine ⟨?_, ?_, ?_⟩
    · simp only [pathsAll]
      rw [List.pairwise_append]
      refine ⟨?_, b1, ?_⟩
      · rw [List.pairwise_map]
        exact a1.imp (fun h => List.Lex.cons h)
      · intro p hp q hq
        obtain ⟨p', _, rfl⟩ := List.mem_map.mp hp
        obtain ⟨i, q', rfl, hi, -⟩ := (b2 q).mp hq
        exact List.Lex.rel (by omega)
    · intro p
      simp only [pathsAll, List.mem_append, List.mem_map, b2]
      constructor
      · rintro (⟨q, hq, rfl⟩ | ⟨i, q, rfl, hi, h⟩)
        · exact ⟨k, q, rfl, Nat.le_refl _, by simpa using (a2 q).mp hq⟩
        · refine ⟨i, q, rfl, by omega, ?_⟩
          rw [show i - k = (i - (k + 1)) + 1 by omega]; simpa using h
      · rintro ⟨i, q, rfl, hi, h⟩
        rcases Nat.eq_or_lt_of_le hi with rfl | hlt
        · left; exact ⟨q, (a2 q).mpr (by simpa using h), rfl⟩
        · right; refine ⟨i, q, rfl, by omega, ?_⟩
          rw [show i - k = (i - (k + 1)) + 1 by omega] at h; simpa using h
    · simp only [pathsAll, List.map_append, List.map_map, flattenAll]
      congr 1
      · rw [← a3]
        apply List.map_congr_left
        intro p _
        simp
      · rw [← b3]
        apply List.map_congr_left
        intro p hp
        obtain ⟨i, q, rfl, hi, -⟩ := (b2 p).mp hp
        simp only
        rw [show i - k = (i - (k + 1)) + 1 by omega]
        simp
end

/-- **C12.** `flatten` lists every leaf exactly once, in lexicographic (left-to-right, depth
first) order of the leaf positions. -/
theorem flatten_spec {α : Type} (t : Nested α) :
    ∃ ps : List (List Nat), ps.Pairwise (List.Lex (· < ·)) ∧
      (∀ p, p ∈ ps ↔ (t.leafAt p).isSome) ∧ ps.map t.leafAt = (flatten t).map some :=
  ⟨paths t, paths_spec t⟩

/-- **C12.** Flattening is idempotent: flattening a flat list returns it unchanged. -/
theorem flatten_idempotent {α : Type} (t : Nested α) :
    flatten (.node ((flatten t).map .leaf)) = flatten t := by
  have : ∀ l : List α, flattenAll (l.map Nested.leaf) = l := by
    intro l
    induction l with
    | nil => simp [flattenAll]
    | cons a l ih => simp [flattenAll, flatten, ih]
  simp [flatten, this]

example : flatten (.node [.leaf 1, .node [.leaf 2, .node [], .node [.leaf 3]], .leaf 4]) = [1, 2, 3, 4] := by
  simp [flatten, flattenAll]

/-! ## selection by booleans or integers -/

/-- **C12.** Selecting with a predicate's truth values is filtering; selecting with the negated
mask gives the complement, and together they are a permutation of the list. -/
theorem listadvancedBool_filter {α : Type} (l : List α) (f : α → Bool) :
    listadvancedBool l (l.map f) = l.filter f ∧
    listadvancedBool l (l.map f) true = l.filter (fun a => !f a) := by
  have h : ∀ g : α → Bool, compress l (l.map g) = l.filter g := by
    intro g
    induction l with
    | nil => rfl
    | cons a l ih => simp only [List.map_cons, compress, ih, List.filter_cons]
  constructor
  · simp [listadvancedBool, h]
  · simp only [listadvancedBool, if_true, List.map_map]
    exact h (fun a => !f a)

theorem listadvancedBool_partition {α : Type} (l : List α) (b : List Bool) (hl : b.length = l.length) :
    (listadvancedBool l b ++ listadvancedBool l b true).Perm l := by
  simp only [listadvancedBool, if_true, Bool.false_eq_true, if_false]
  induction l generalizing b with
  | nil => simp [compress]
  | cons a l ih =>
    cases b with
    | nil => simp at hl
    | cons x b =>
      have := ih b (by simpa using hl)
      cases x
      · simp only [List.map_cons, compress, Bool.false_eq_true, if_false, Bool.not_false, if_true]
        exact List.perm_middle.trans (this.cons a)
      · simp only [List.map_cons, compress, if_true, Bool.not_true, Bool.false_eq_true, if_false,
          List.cons_append]
        exact this.cons a

example : listadvancedBool [1, 2, 3, 4] [true, false, true, false] = [1, 3] ∧
  listadvancedBool [1, 2, 3, 4] [true, false, true, false] true = [2, 4] := by decide

/-- **C12.** Integer selection returns element `normalised index` for every requested index, and
raises `IndexError` iff some index is out of range. -/
theorem listadvancedInt_spec {α : Type} (l : List α) (is : List Int) :
    (∀ r, listadvancedInt l is = .ok r →
      r.map some = is.map (fun i => (normIdx l.length i).bind (fun k => l[k]?))) ∧
    (listadvancedInt l is = .error .indexError ↔ ∃ i ∈ is, normIdx l.length i = none) ∧
    ((∀ i ∈ is, normIdx l.length i ≠ none) → ∃ r, listadvancedInt l is = .ok r) := by
  induction is with
  | nil => simp [listadvancedInt]
  | cons i is ih =>
    obtain ⟨h1, h2, h3⟩ := ih
    simp only [listadvancedInt]
    cases hn : normIdx l.length i with
    | none => simp [hn]
    | some k =>
      have hk := normIdx_lt hn
      simp only [Option.bind_some, List.getElem?_eq_getElem hk]
      refine ⟨?_, ?_, ?_⟩
      · intro r hr
        cases hh : listadvancedInt l is with
        | error e => rw [hh] at hr; simp [Except.map] at hr
        | ok q =>
          rw [hh] at hr
          simp only [Except.map, Except.ok.injEq] at hr
          subst hr
          simp [hn, hk, h1 q hh]
      · cases hh : listadvancedInt l is with
        | error e =>
          have : e = .indexError ∨ e = .valueError := by cases e <;> simp
          simp only [Except.map, List.mem_cons, exists_eq_or_imp, hn]
          rw [hh] at h2
          simpa using h2
        | ok q =>
          simp only [Except.map, List.mem_cons, exists_eq_or_imp, hn]
          rw [hh] at h2
          simpa using h2
      · intro h
        obtain ⟨q, hq⟩ := h3 (fun j hj => h j (by simp [hj]))
        exact ⟨l[k] :: q, by simp [hq, Except.map]⟩

example : listadvancedInt ['a','b','c'] [2, -3, 0] = .ok ['c','a','a'] := by decide

/-- **C12.** `where` followed by integer selection is filtering: the two selection styles agree. -/
theorem where_select {α : Type} (l : List α) (f : α → Bool) :
    listadvancedInt l ((whereIdx l f).map (fun (n : Nat) => (n : Int))) = .ok (l.filter f) := by
  have h : ∀ (m pre : List α), l = pre ++ m →
      listadvancedInt l ((((enumFrom pre.length m).filter (fun p => f p.2)).map (·.1)).map
        (fun (n : Nat) => (n : Int))) = .ok (m.filter f) := by
    intro m
    induction m with
    | nil => intro pre _; simp [enumFrom, listadvancedInt]
    | cons a m ih =>
      intro pre hl
      have ih' := ih (pre ++ [a]) (by simp [hl])
      simp only [List.length_append, List.length_singleton] at ih'
      simp only [enumFrom, List.filter_cons]
      by_cases hf : f a = true
      · simp only [hf, if_true, List.map_cons, listadvancedInt]
        have hlt : pre.length < l.length := by rw [hl]; simp
        rw [normIdx_nat hlt]
        have hg : l[pre.length]? = some a := by rw [hl]; simp
        simp only [Option.bind_some, hg, ih', Except.map]
      · simp only [hf, Bool.false_eq_true, if_false, ih']
  exact h l [] rfl

end SC.ListTools
