import Verif.IntBase.Lemmas
/-! # C09: integer base conversion (utils/integerbase.py)

Specification vocabulary (independent of the model): `horner b ds` is the
value of the most-significant-first digit list `ds` in base `b`. -/
namespace SC.IntBase

/-- Positional value, most significant digit first (Horner). -/
def horner (b : Nat) (ds : List Nat) : Nat := ds.foldl (fun acc d => acc * b + d) 0

theorem horner_reverse (b : Nat) (l : List Nat) : horner b l.reverse = lsValue b l := by
  induction l with
  | nil => rfl
  | cons d ds ih =>
    have : horner b (ds.reverse ++ [d]) = horner b ds.reverse * b + d := by
      simp [horner, List.foldl_append]
    rw [List.reverse_cons, this, ih, lsValue, Nat.mul_comm]; omega

/-- Shape of the result for positive integers: used by all theorems below. -/
theorem int2base_pos {α : Type} (digs : List α) (minus : α) (hb : 2 ≤ digs.length) (n : Nat)
    (hn : n ≠ 0) :
    int2base digs minus (n : Int) =
      .ok ((emit digs.length n).filterMap (fun i => digs[i]?)).reverse := by
  match digs, hb with
  | a :: b :: r, _ =>
    have h1 : ¬ ((n : Int) = 0) := by omega
    have h2 : ¬ ((n : Int) < 0) := by omega
    simp [int2base, hn, h2]

theorem int2base_neg {α : Type} (digs : List α) (minus : α) (hb : 2 ≤ digs.length) (n : Nat)
    (hn : n ≠ 0) :
    int2base digs minus (-(n : Int)) =
      .ok (minus :: ((emit digs.length n).filterMap (fun i => digs[i]?)).reverse) := by
  match digs, hb with
  | a :: b :: r, _ =>
    have h1 : ¬ (-(n : Int) = 0) := by omega
    simp [int2base, hn]

/-- **C09 (round trip).** For every digit table with at least two distinct characters and
every natural number `n`, converting to a string and back gives `n`. -/
theorem base2int_int2base {α : Type} [DecidableEq α] (digs : List α) (minus : α)
    (hnd : digs.Nodup) (hb : 2 ≤ digs.length) (n : Nat) :
    (int2base digs minus (n : Int)).bind (base2int digs) = .ok n := by
  by_cases hn : n = 0
  · subst hn
    match digs, hb with
    | a :: b :: r, _ =>
      simp [int2base, Except.bind, base2int, accum, index?]
  · rw [int2base_pos digs minus hb n hn]
    simp only [Except.bind, base2int, List.reverse_reverse]
    rw [accum_ok digs hnd _ (emit_lt hb n)]
    simp [lsValue_emit hb n]

example : int2base ['a','b','c'] '-' 31 = .ok ['b','a','b','b'] ∧
    base2int ['a','b','c'] ['b','a','b','b'] = .ok 31 := by
  constructor <;> simp [int2base, emit, loopStep, base2int, accum, index?]

/-- **C09 (meaning of the string).** The produced characters are the table entries of a digit
list `ds` (most significant first) of value `n`, every digit is smaller than the base, and
there is no leading zero digit unless the string is the single character for 0. -/
theorem int2base_spec {α : Type} (digs : List α) (minus : α) (hb : 2 ≤ digs.length) (n : Nat) :
    ∃ (s : List α) (ds : List Nat), int2base digs minus (n : Int) = .ok s ∧
      s.map some = ds.map (fun i => digs[i]?) ∧ horner digs.length ds = n ∧
      (∀ d ∈ ds, d < digs.length) ∧ (ds = [0] ∨ ∃ d t, ds = d :: t ∧ d ≠ 0) := by
  by_cases hn : n = 0
  · subst hn
    match digs, hb with
    | a :: b :: r, _ =>
      exact ⟨[a], [0], by simp [int2base], by simp, by simp [horner], by simp, Or.inl rfl⟩
  · refine ⟨_, (emit digs.length n).reverse, int2base_pos digs minus hb n hn, ?_, ?_, ?_, Or.inr ?_⟩
    · rw [List.map_reverse, filterMap_lookup_length digs _ (emit_lt hb n), List.map_reverse]
    · rw [horner_reverse, lsValue_emit hb]
    · intro d hd; exact emit_lt hb n d (List.mem_reverse.mp hd)
    · have hne := emit_ne_nil hb hn
      have hl := emit_getLast hb n hne
      refine ⟨(emit digs.length n).getLast hne, (emit digs.length n).dropLast.reverse, ?_, hl⟩
      conv => lhs; rw [← List.dropLast_concat_getLast hne]
      simp

/-- **C09 (length).** A positive `n` gets exactly the number of digits its size requires:
`base^(len-1) ≤ n < base^len`. -/
theorem int2base_length {α : Type} (digs : List α) (minus : α) (hb : 2 ≤ digs.length) (n : Nat)
    (hn : 0 < n) :
    ∃ s, int2base digs minus (n : Int) = .ok s ∧ s ≠ [] ∧
      digs.length ^ (s.length - 1) ≤ n ∧ n < digs.length ^ s.length := by
  have hn' : n ≠ 0 := by omega
  refine ⟨_, int2base_pos digs minus hb n hn', ?_⟩
  have hlen : (((emit digs.length n).filterMap (fun i => digs[i]?)).reverse).length
      = (emit digs.length n).length := by
    have := congrArg List.length (filterMap_lookup_length digs _ (emit_lt hb n))
    simpa using this
  have hne := emit_ne_nil hb hn'
  refine ⟨?_, ?_, ?_⟩
  · intro h
    have : (emit digs.length n).length = 0 := by rw [← hlen, h]; rfl
    exact hne (List.length_eq_zero_iff.mp this)
  · rw [hlen]
    have := lsValue_lower digs.length _ hne (emit_getLast hb n hne)
    rwa [lsValue_emit hb] at this
  · rw [hlen]
    have := lsValue_bounds digs.length hb _ (emit_lt hb n)
    rwa [lsValue_emit hb] at this

example : ∃ s, int2base ['0','1'] '-' (6 : Nat) = .ok s ∧ s.length = 3 :=
  ⟨['1','1','0'], by simp [int2base, emit, loopStep], rfl⟩

/-- **C09 (injectivity).** If "-" is not a digit, distinct integers (of either sign) never share
a string. -/
theorem int2base_injective {α : Type} [DecidableEq α] (digs : List α) (minus : α)
    (hnd : digs.Nodup) (hb : 2 ≤ digs.length) (hm : minus ∉ digs) (x y : Int)
    (h : int2base digs minus x = int2base digs minus y) : x = y := by
  -- characterise membership of the minus sign
  have key : ∀ z : Int, ∃ s, int2base digs minus z = .ok s ∧ (minus ∈ s ↔ z < 0) ∧
      (∀ w : Int, ¬ z < 0 → ¬ w < 0 → int2base digs minus w = .ok s → z = w) ∧
      (∀ w : Int, z < 0 → w < 0 → int2base digs minus w = .ok s → z = w) := by
    have nomem : ∀ l : List Nat, minus ∉ l.filterMap (fun i => digs[i]?) := by
      intro l hmem
      obtain ⟨i, _, hi⟩ := List.mem_filterMap.mp hmem
      exact hm (List.mem_of_getElem? hi)
    have rt := base2int_int2base digs minus hnd hb
    intro z
    rcases Int.lt_or_le z 0 with hz | hz
    · obtain ⟨n, rfl, hn⟩ : ∃ n : Nat, z = -(n : Int) ∧ n ≠ 0 := ⟨z.natAbs, by omega, by omega⟩
      refine ⟨_, int2base_neg digs minus hb n hn, by simp; omega, fun w h1 => absurd hz h1, ?_⟩
      intro w _ hw hww
      obtain ⟨m, rfl, hm0⟩ : ∃ m : Nat, w = -(m : Int) ∧ m ≠ 0 := ⟨w.natAbs, by omega, by omega⟩
      rw [int2base_neg digs minus hb m hm0] at hww
      have e : int2base digs minus (m : Int) = int2base digs minus (n : Int) := by
        rw [int2base_pos digs minus hb m hm0, int2base_pos digs minus hb n hn]
        simpa using hww
      have r1 := rt m; have r2 := rt n
      rw [e, r2] at r1
      have : n = m := by simpa using r1
      omega
    · obtain ⟨n, rfl⟩ : ∃ n : Nat, z = (n : Int) := ⟨z.natAbs, by omega⟩
      have hs : ∃ s, int2base digs minus (n : Int) = .ok s ∧ minus ∉ s := by
        by_cases hn : n = 0
        · subst hn
          match digs, hb, hm with
          | a :: b :: r, _, hm =>
            exact ⟨[a], by simp [int2base], by simp at hm ⊢; exact hm.1⟩
        · exact ⟨_, int2base_pos digs minus hb n hn, by
            intro hmem; exact nomem _ (List.mem_reverse.mp hmem)⟩
      obtain ⟨s, hs, hsm⟩ := hs
      refine ⟨s, hs, by simp [hsm], ?_, fun w h1 => absurd h1 (by omega)⟩
      intro w _ hw hww
      obtain ⟨m, rfl⟩ : ∃ m : Nat, w = (m : Int) := ⟨w.natAbs, by omega⟩
      have r1 := rt m; have r2 := rt n
      rw [hww, ← hs, r2] at r1
      have : n = m := by simpa using r1
      omega
  obtain ⟨s, hs, hmem, hp, hneg⟩ := key x
  obtain ⟨t, ht, hmem', _, _⟩ := key y
  have hst : s = t := by rw [hs, ht] at h; simpa using h
  subst hst
  by_cases hx : x < 0
  · exact hneg y hx (hmem'.mp (hmem.mpr hx)) ht
  · exact hp y hx (fun hy => hx (hmem.mp (hmem'.mpr hy))) ht

example : (['a','b','c'].Nodup) ∧ 2 ≤ ['a','b','c'].length ∧ '-' ∉ ['a','b','c'] := by decide

/-- **C09 (the other direction).** Every string of table characters without leading zero
digit (or the one-character zero) is what `int2base` produces for its value. -/
theorem int2base_base2int {α : Type} [DecidableEq α] (z : α) (rest : List α) (minus : α)
    (hnd : (z :: rest).Nodup) (hb : 2 ≤ (z :: rest).length) (s : List α)
    (hs : ∀ c ∈ s, c ∈ z :: rest) (hlead : s = [z] ∨ ∃ c t, s = c :: t ∧ c ≠ z) :
    ∃ n, base2int (z :: rest) s = .ok n ∧ int2base (z :: rest) minus (n : Int) = .ok s := by
  rcases hlead with rfl | ⟨c, t, rfl, hc⟩
  · exact ⟨0, by simp [base2int, accum, index?], by simp [int2base]⟩
  · obtain ⟨l, h1, h2, h3⟩ := exists_indices (z :: rest) (c :: t) hs
    have hl : l ≠ [] := by rintro rfl; simp at h3
    obtain ⟨d, ds, rfl⟩ := List.exists_cons_of_ne_nil hl
    have hd0 : d ≠ 0 := by
      rintro rfl
      simp only [List.map_cons, List.cons.injEq] at h3
      have h30 := h3.1
      simp at h30
      exact hc h30.symm
    have hrev : (c :: t).reverse = ((d :: ds).reverse).filterMap (fun i => (z :: rest)[i]?) := by
      rw [h2, List.filterMap_reverse]
    have hlt : ∀ x ∈ (d :: ds).reverse, x < (z :: rest).length :=
      fun x hx => h1 x (List.mem_reverse.mp hx)
    refine ⟨lsValue (z :: rest).length (d :: ds).reverse, ?_, ?_⟩
    · rw [base2int, hrev, accum_ok _ hnd _ hlt]; simp
    · have hem := emit_lsValue hb (d :: ds).reverse hlt
        (fun h => by simpa [List.getLast_reverse] using hd0)
      have hne : lsValue (z :: rest).length (d :: ds).reverse ≠ 0 := by
        intro h0; rw [h0, emit_zero] at hem; simp at hem
      rw [int2base_pos _ minus hb _ hne, hem, ← hrev, List.reverse_reverse]

example : ∃ n, base2int ['a','b','c'] ['c','a'] = .ok n ∧ n = 6 := ⟨6, by
  simp [base2int, accum, index?], rfl⟩

/-- **C09 (negative numbers do not round-trip).** `int2base` happily writes a minus sign, but
`base2int` rejects every such string with `ValueError` (digs.index("-")). -/
theorem base2int_int2base_neg {α : Type} [DecidableEq α] (digs : List α) (minus : α)
    (hb : 2 ≤ digs.length) (hm : minus ∉ digs) (n : Nat) (hn : 0 < n) :
    (int2base digs minus (-(n : Int))).bind (base2int digs) = .error .valueError := by
  rw [int2base_neg digs minus hb n (by omega)]
  simp only [Except.bind, base2int, List.reverse_cons, List.reverse_reverse]
  exact accum_error digs minus hm [] _ _ _

/-- **C09 (foreign characters).** Any string containing a character outside the table is
rejected, wherever the character stands. -/
theorem base2int_foreign {α : Type} [DecidableEq α] (digs : List α) (s : List α) (c : α)
    (hc : c ∈ s) (hd : c ∉ digs) : base2int digs s = .error .valueError := by
  obtain ⟨a, b, rfl⟩ := List.append_of_mem hc
  simp only [base2int, List.reverse_append, List.reverse_cons, List.append_assoc,
    List.singleton_append]
  exact accum_error digs c hd _ _ _ _

example : base2int ['0','1'] ['1','x','0'] = .error .valueError := by
  simp [base2int, accum, index?]

/-- **C09 (unary table).** With a single digit the `while x` loop never reaches 0: after any
number `k` of rounds the loop variable still is `x`.  This justifies `Err.diverges`. -/
theorem unary_loop_diverges (x k : Nat) (hx : 0 < x) :
    (Nat.repeat (fun v => (loopStep 1 v).2) k x) = x ∧ x ≠ 0 := by
  refine ⟨?_, by omega⟩
  induction k with
  | zero => rfl
  | succ k ih => rw [Nat.repeat, ih]; simp [loopStep]

end SC.IntBase
