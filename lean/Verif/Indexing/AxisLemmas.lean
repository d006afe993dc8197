import Verif.Indexing.NewaxisLemmas
/-! # Helper lemmas: extracting the stack axis -/
namespace SC.Indexing
open SC.Py SC.Numpy

/-! ## Selected positions are in range -/

theorem normIdx_lt {n : Nat} {i : Int} {k : Nat} (h : normIdx n i = some k) : k < n := by
  unfold normIdx at h
  split at h
  · simp at h; omega
  · split at h
    · simp at h; omega
    · simp at h

theorem clampBound_mem {n : Nat} {lo up v : Int} (h : lo ≤ up) :
    lo ≤ clampBound n lo up v ∧ clampBound n lo up v ≤ up := by
  unfold clampBound
  constructor
  · simp only; split <;> split <;> (try split) <;> omega
  · simp only; split <;> split <;> (try split) <;> omega

theorem boundOr_mem {n : Nat} {lo up d : Int} {v : Option Int} (h : lo ≤ up) (hd : lo ≤ d ∧ d ≤ up) :
    lo ≤ boundOr n lo up d v ∧ boundOr n lo up d v ≤ up := by
  cases v with
  | none => exact hd
  | some v => exact clampBound_mem h

theorem rangeList_mem_pos {a b c x : Int} (hc : 0 < c) (h : x ∈ rangeList a b c) :
    a ≤ x ∧ x < b := by
  simp only [rangeList, List.mem_map, List.mem_range] at h
  obtain ⟨k, hk, rfl⟩ := h
  simp only [rangeLen, hc, if_true] at hk
  have h1 : ((k : Int) + 1) ≤ (b - a + c - 1) / c := by omega
  have h2 := (Int.le_ediv_iff_mul_le hc).mp h1
  have h3 : 0 ≤ (k : Int) * c := Int.mul_nonneg (by omega) (by omega)
  rw [Int.add_mul] at h2
  omega

theorem rangeList_mem_neg {a b c x : Int} (hc : c < 0) (h : x ∈ rangeList a b c) :
    x ≤ a ∧ b < x := by
  simp only [rangeList, List.mem_map, List.mem_range] at h
  obtain ⟨k, hk, rfl⟩ := h
  have hn : ¬ 0 < c := by omega
  simp only [rangeLen, hn, if_false, hc, if_true] at hk
  have h1 : ((k : Int) + 1) ≤ (a - b + (-c) - 1) / (-c) := by omega
  have h2 := (Int.le_ediv_iff_mul_le (by omega : 0 < -c)).mp h1
  have h3 : 0 ≤ (k : Int) * (-c) := Int.mul_nonneg (by omega) (by omega)
  rw [Int.add_mul] at h2
  have h4 : (k : Int) * (-c) = - (k * c) := by rw [Int.mul_neg]
  omega

theorem positions_lt {s : Slice} {n : Nat} {ps : List Nat} (h : s.positions n = some ps) :
    ∀ p ∈ ps, p < n := by
  intro p hp
  simp only [Slice.positions, Option.map_eq_some_iff] at h
  obtain ⟨⟨a, b, c⟩, hi, rfl⟩ := h
  simp only [List.mem_map] at hp
  obtain ⟨x, hx, rfl⟩ := hp
  simp only [Slice.indices] at hi
  split at hi
  · simp at hi
  · rename_i hstep
    simp only [Option.some.injEq, Prod.mk.injEq] at hi
    obtain ⟨ha, hb, hc⟩ := hi
    by_cases hneg : s.step.getD 1 < 0
    · rw [← hc] at hx
      have hxb := rangeList_mem_neg hneg hx
      simp only [hneg, if_true] at ha hb
      have h1 := boundOr_mem (n := n) (lo := -1) (up := (n : Int) - 1) (d := (n : Int) - 1)
        (v := s.start) (by omega) (by omega)
      have h2 := boundOr_mem (n := n) (lo := -1) (up := (n : Int) - 1) (d := -1)
        (v := s.stop) (by omega) (by omega)
      rw [ha] at h1; rw [hb] at h2
      omega
    · rw [← hc] at hx
      have hxb := rangeList_mem_pos (by omega) hx
      simp only [hneg, if_false] at ha hb
      have h1 := boundOr_mem (n := n) (lo := 0) (up := (n : Int)) (d := 0)
        (v := s.start) (by omega) (by omega)
      have h2 := boundOr_mem (n := n) (lo := 0) (up := (n : Int)) (d := n)
        (v := s.stop) (by omega) (by omega)
      rw [ha] at h1; rw [hb] at h2
      omega

theorem nonzeroFrom_mem {k : Nat} {l : List Bool} {p : Nat} (h : p ∈ nonzeroFrom k l) :
    k ≤ p ∧ p < k + l.length := by
  induction l generalizing k with
  | nil => simp [nonzeroFrom] at h
  | cons b l ih =>
    simp only [nonzeroFrom] at h
    split at h
    · simp only [List.mem_cons] at h
      rcases h with rfl | h
      · simp
      · have := ih h; simp; omega
    · have := ih h; simp; omega

theorem mapM_some_iff {α β : Type} {f : α → Option β} {l : List α} {l' : List β} :
    l.mapM f = some l' ↔ l.map f = l'.map some := by
  induction l generalizing l' with
  | nil => cases l' <;> simp
  | cons a l ih =>
    rw [List.mapM_cons]
    cases hfa : f a with
    | none => cases l' <;> simp [hfa]
    | some b =>
      cases hl : l.mapM f with
      | none =>
        cases l' with
        | nil => simp
        | cons c l' =>
          simp only [Option.pure_def, Option.bind_eq_bind, Option.bind_some, Option.bind_none,
            List.map_cons, List.cons.injEq, hfa]
          constructor
          · intro h; simp at h
          · rintro ⟨_, h⟩
            have := ih.mpr h
            rw [hl] at this; simp at this
      | some t =>
        have ht := ih.mp hl
        cases l' with
        | nil => simp
        | cons c l' =>
          simp only [Option.pure_def, Option.bind_eq_bind, Option.bind_some, Option.some.injEq,
            List.map_cons, List.cons.injEq, hfa]
          constructor
          · rintro ⟨rfl, rfl⟩; exact ⟨rfl, ht⟩
          · rintro ⟨rfl, h⟩
            refine ⟨rfl, ?_⟩
            rw [ht] at h
            exact List.map_injective_iff.mpr (fun _ _ h => Option.some.inj h) h

theorem mapM_normIdx_lt {n : Nat} {l : List Int} {ks : List Nat}
    (h : l.mapM (normIdx n) = some ks) : ∀ k ∈ ks, k < n := by
  intro k hk
  rw [mapM_some_iff] at h
  have : some k ∈ l.map (normIdx n) := by rw [h]; exact List.mem_map.mpr ⟨k, hk, rfl⟩
  obtain ⟨i, _, hi⟩ := List.mem_map.mp this
  exact normIdx_lt hi

/-! ## Selecting the generator arguments -/

theorem compress_spec {β : Type} {args : List β} {l : List Bool} (pre : List β)
    (h : l.length ≤ args.length) :
    (compress args l).map some = (nonzeroFrom pre.length l).map fun p => (pre ++ args)[p]? := by
  induction args generalizing l pre with
  | nil =>
    have : l = [] := List.length_eq_zero_iff.mp (by simpa using h)
    subst this; rfl
  | cons a args ih =>
    cases l with
    | nil => rfl
    | cons b l =>
      have := ih (l := l) (pre ++ [a]) (by simpa using h)
      simp only [List.length_append, List.length_singleton, List.append_assoc,
        List.singleton_append] at this
      cases b
      · simpa [compress, nonzeroFrom] using this
      · simp [compress, nonzeroFrom, this]

theorem nonzeroFrom_all {k : Nat} {l : List Bool} (h : l.all id = true) :
    nonzeroFrom k l = (List.range l.length).map (· + k) := by
  induction l generalizing k with
  | nil => rfl
  | cons b l ih =>
    simp only [List.all_cons, id_eq, Bool.and_eq_true] at h
    obtain ⟨rfl, h⟩ := h
    simp only [nonzeroFrom, if_true, ih h, List.length_cons, List.range_succ_eq_map, List.map_cons,
      List.map_map, Nat.zero_add]
    congr 1
    apply List.map_congr_left
    intro x _
    simp; omega

theorem map_range_getElem? {β : Type} (args : List β) :
    args.map some = (List.range args.length).map (fun k => args[k]?) := by
  apply List.ext_getElem?
  intro i
  by_cases h : i < args.length
  · simp [h]
  · simp [h]

/-- A non-changing slice selects everything. -/
theorem nonchanging_slice {s : Slice} {sh : Option Nat} {n : Nat} {ks : List Nat}
    (h : nonchanging1 sh (.slice s)) (hk : s.positions n = some ks) : ks = List.range n := by
  simp only [nonchanging1, Bool.or_eq_true, beq_iff_eq] at h
  have h2 : rangeLen 0 (n : Int) 1 = n := by simp [rangeLen]
  have key : ∀ t : Slice, t.indices n = some (0, (n : Int), 1) → t.positions n = some ks →
      ks = List.range n := by
    intro t ht hp
    simp only [Slice.positions, ht, Option.map_some, rangeList, h2, List.map_map,
      Option.some.injEq] at hp
    rw [← hp]
    apply List.ext_getElem?
    intro i
    simp only [List.getElem?_map]
    cases (List.range n)[i]? <;> simp
  rcases h with (h | h) | h
  · subst h; exact key _ (by simp [Slice.full, Slice.indices, boundOr]) hk
  · subst h
    refine key _ ?_ hk
    simp only [Slice.indices, boundOr, clampBound]
    simp
    omega
  · subst h; exact key _ (by simp [Slice.indices, boundOr]) hk

/-- `selectArgs` picks the arguments at the checked positions. -/
theorem selectArgs_list {β : Type} {args : List β} {x : Item} {ks : List Nat}
    (h : resolve1 args.length x = some (.span ks) ∨ resolve1 args.length x = some (.many ks)) :
    ∃ sel, selectArgs args (some args.length) x = some (sel, false) ∧
      sel.map some = ks.map (fun k => args[k]?) := by
  cases x with
  | int i => simp [resolve1, Option.map_eq_some_iff] at h
  | newaxis => simp [resolve1] at h
  | ellipsis => simp [resolve1] at h
  | bool b => simp [resolve1] at h
  | slice s =>
    have hk : s.positions args.length = some ks := by
      simpa [resolve1, Option.map_eq_some_iff] using h
    by_cases hn : nonchanging1 (some args.length) (.slice s)
    · refine ⟨args, by simp [selectArgs, hn], ?_⟩
      rw [nonchanging_slice hn hk]; exact map_range_getElem? args
    · refine ⟨ks.filterMap (args[·]?), by simp [selectArgs, hn, pySlice, hk], ?_⟩
      have hlt := positions_lt hk
      clear hk h hn
      induction ks with
      | nil => rfl
      | cons k ks ih =>
        have hk : k < args.length := hlt k (by simp)
        have : args[k]? = some args[k] := List.getElem?_eq_getElem hk
        simp only [List.filterMap_cons, this, List.map_cons]
        rw [ih (fun p hp => hlt p (by simp [hp]))]
  | ilist l =>
    have hk : l.mapM (normIdx args.length) = some ks := by
      simpa [resolve1, Option.map_eq_some_iff] using h
    by_cases hn : nonchanging1 (some args.length) (.ilist l)
    · refine ⟨args, by simp [selectArgs, hn], ?_⟩
      have hl : l = (List.range args.length).map (fun (k : Nat) => (k : Int)) := by
        simpa [nonchanging1] using hn
      have : ks = List.range args.length := by
        rw [mapM_some_iff, hl, List.map_map] at hk
        apply List.map_injective_iff.mpr (fun _ _ h => Option.some.inj h)
        rw [← hk]
        apply List.map_congr_left
        intro k hk'
        have := List.mem_range.mp hk'
        simp only [Function.comp, normIdx]
        rw [if_pos (by omega)]
        simp
      rw [this]; exact map_range_getElem? args
    · have hlt := mapM_normIdx_lt hk
      have hk' := mapM_some_iff.mp hk
      have hm : l.map (pyGet args) = ks.map (fun k => args[k]?) := by
        have e1 : l.map (pyGet args) = (l.map (normIdx args.length)).map (fun o => o.bind (args[·]?)) := by
          rw [List.map_map]; rfl
        rw [e1, hk', List.map_map]; rfl
      have hsel : ∃ sel : List β, ks.map (fun k => args[k]?) = sel.map some := by
        clear hk hm hk' h
        induction ks with
        | nil => exact ⟨[], rfl⟩
        | cons k ks ih =>
          obtain ⟨sel, hs⟩ := ih (fun p hp => hlt p (by simp [hp]))
          exact ⟨args[k]'(hlt k (by simp)) :: sel, by
            simp only [List.map_cons, hs]
            rw [List.getElem?_eq_getElem (hlt k (by simp))]⟩
      obtain ⟨sel, hs⟩ := hsel
      refine ⟨sel, ?_, hs.symm⟩
      have : l.mapM (pyGet args) = some sel := by rw [mapM_some_iff, hm, hs]
      simp [selectArgs, hn, this]
  | blist l =>
    have hl : (l.length = args.length ∨ l = []) ∧ nonzeroFrom 0 l = ks := by
      simp only [resolve1] at h
      split at h
      · rename_i hc; exact ⟨hc, by simpa using h⟩
      · simp at h
    obtain ⟨hlen, rfl⟩ := hl
    by_cases hn : nonchanging1 (some args.length) (.blist l)
    · refine ⟨args, by simp [selectArgs, hn], ?_⟩
      simp only [nonchanging1] at hn
      split at hn
      · rename_i h0; subst h0
        have : args = [] := List.length_eq_zero_iff.mp (by simpa using hn)
        subst this; rfl
      · rename_i h0
        have hll : l.length = args.length := by
          rcases hlen with h | h
          · exact h
          · exact absurd h h0
        rw [nonzeroFrom_all hn, hll]
        simp only [Nat.add_zero, List.map_map]
        rw [map_range_getElem? args]
        apply List.map_congr_left
        intro x _; rfl
    · refine ⟨compress args l, by simp [selectArgs, hn], ?_⟩
      have := compress_spec (args := args) (l := l) [] (by
        rcases hlen with h | h
        · omega
        · subst h; simp)
      simpa using this

theorem selectArgs_pick {β : Type} {args : List β} {x : Item} {c : Nat} {sh : Option Nat}
    (h : resolve1 args.length x = some (.pick c)) :
    ∃ a, args[c]? = some a ∧ selectArgs args sh x = some ([a], true) := by
  cases x with
  | int i =>
    have hk : normIdx args.length i = some c := by
      simpa [resolve1, Option.map_eq_some_iff] using h
    have hlt := normIdx_lt hk
    refine ⟨args[c], List.getElem?_eq_getElem hlt, ?_⟩
    simp [selectArgs, nonchanging1, pyGet, hk, List.getElem?_eq_getElem hlt]
  | blist l =>
    simp only [resolve1] at h
    split at h <;> simp at h
  | _ => simp [resolve1, Option.map_eq_some_iff] at h

/-! ## Position of the advanced dimension with and without a slice -/

def ctrue (bs : List Bool) : Nat := (bs.filter id).length

theorem apos_remove (as bs : List Bool) :
    (apos (as ++ true :: bs) ≤ ctrue as → apos (as ++ bs) ≤ ctrue as) ∧
    (ctrue as < apos (as ++ true :: bs) → ctrue as ≤ apos (as ++ bs)) := by
  by_cases hall : ∀ b ∈ as, b = true
  · have e : as = List.replicate as.length true := List.eq_replicate_iff.mpr ⟨rfl, hall⟩
    generalize as.length = n at e
    subst e
    have hc : ctrue (List.replicate n true) = n := by simp [ctrue]
    have t1 : ∀ l : List Bool, (List.replicate n true ++ l).takeWhile id =
        List.replicate n true ++ l.takeWhile id := by
      intro l; rw [List.takeWhile_append]; simp
    have t2 : ∀ l : List Bool, (List.replicate n true ++ l).dropWhile id = l.dropWhile id := by
      intro l; rw [List.dropWhile_append]; simp
    rw [hc]
    simp only [apos, t1, t2, List.takeWhile_cons, List.dropWhile_cons, id_eq, if_true,
      List.length_append, List.length_replicate, List.length_cons]
    split <;> constructor <;> intros <;> omega
  · have : ∃ t u, as = t ++ false :: u ∧ ∀ b ∈ t, b = true := by
      clear bs
      induction as with
      | nil => simp at hall
      | cons a as ih =>
        cases a
        · exact ⟨[], as, rfl, by simp⟩
        · have h' : ¬ ∀ b ∈ as, b = true := by
            intro h; apply hall; intro b hb
            rcases List.mem_cons.mp hb with h1 | h1
            · exact h1
            · exact h b h1
          obtain ⟨t, u, rfl, ht⟩ := ih h'
          exact ⟨true :: t, u, rfl, by
            intro b hb
            rcases List.mem_cons.mp hb with h1 | h1
            · exact h1
            · exact ht b h1⟩
    obtain ⟨t, u, rfl, ht⟩ := this
    have tw : ∀ l : List Bool, (t ++ false :: u ++ l).takeWhile id = t := by
      intro l
      rw [List.append_assoc, List.takeWhile_append_of_pos (by simpa using ht)]
      simp
    have hle : ∀ l : List Bool, apos (t ++ false :: u ++ l) ≤ ctrue (t ++ false :: u) := by
      intro l
      have h1 : apos (t ++ false :: u ++ l) ≤ t.length := by
        unfold apos; rw [tw]; split <;> omega
      have h2 : t.length ≤ ctrue (t ++ false :: u) := by
        simp only [ctrue, List.filter_append, List.length_append]
        have : t.filter id = t := List.filter_eq_self.mpr (by simpa using ht)
        rw [this]; omega
      omega
    exact ⟨fun _ => hle bs, fun h => absurd (hle (true :: bs)) (by omega)⟩

end SC.Indexing
