import Verif.XiaNx.Model
import Mathlib.Data.List.Chain
import Mathlib.Tactic.Ring
import Mathlib.Tactic.Linarith
import Mathlib.Tactic.FieldSimp
/-! # C90: XIA files converted to a NeXus entry -/
namespace SC.XiaNx

theorem ceilDiv_ge {a b : Nat} (hb : 0 < b) : a ≤ ceilDiv a b * b := by
  unfold ceilDiv
  have h := Nat.div_add_mod (a + b - 1) b
  have h2 := Nat.mod_lt (a + b - 1) hb
  have h3 : b * ((a + b - 1) / b) = (a + b - 1) / b * b := Nat.mul_comm _ _
  omega

theorem ceilDiv_lt {a b : Nat} (hb : 0 < b) : ceilDiv a b * b < a + b := by
  unfold ceilDiv
  have h := Nat.div_mul_le_self (a + b - 1) b
  omega

theorem ceilDiv_pos {a b : Nat} (hb : 0 < b) (ha : 0 < a) : 0 < ceilDiv a b := by
  rcases Nat.eq_zero_or_pos (ceilDiv a b) with h | h
  · have := ceilDiv_ge (a := a) hb
    rw [h] at this; omega
  · exact h

/-- Number of rows of a chunk. -/
def step (n row mem : Nat) : Nat := ceilDiv n (nchunks (n * row) mem)

/-- Shape of the chunk boundaries. -/
theorem copyIndex_eq {n row mem : Nat} {ind : List Nat} (h : copyIndex n row mem = some ind) :
    0 < n ∧ 0 < step n row mem ∧ ∃ m, 0 < m ∧ (m - 1) * step n row mem < n ∧ n ≤ m * step n row mem ∧
      ind = (List.range m).map (· * step n row mem) ++ [n] := by
  unfold copyIndex at h
  simp only at h
  split at h
  · cases h
  · rename_i hc
    have hc : 0 < nchunks (n * row) mem := Nat.pos_of_ne_zero hc
    have hn : 0 < n := by
      rcases Nat.eq_zero_or_pos n with h0 | h0
      · subst h0
        simp only [strided] at h
        have : ceilDiv 0 (ceilDiv 0 (nchunks (0 * row) mem)) = 0 := by
          have e : ceilDiv 0 (nchunks (0 * row) mem) = 0 := by
            unfold ceilDiv
            apply Nat.div_eq_of_lt
            omega
          rw [e]; rfl
        rw [this] at h
        simp at h
      · exact h0
    have hs : 0 < step n row mem := ceilDiv_pos hc hn
    change (match (strided n (step n row mem)).getLast? with
      | none => none
      | some l => some (if l ≠ n then strided n (step n row mem) ++ [n] else strided n (step n row mem))) = some ind at h
    have hm : 0 < ceilDiv n (step n row mem) := ceilDiv_pos hs hn
    have hlast : (strided n (step n row mem)).getLast? = some ((ceilDiv n (step n row mem) - 1) * step n row mem) := by
      unfold strided
      rw [List.getLast?_map, List.getLast?_range]
      simp [hm.ne']
    rw [hlast] at h
    simp only at h
    have hlt : (ceilDiv n (step n row mem) - 1) * step n row mem < n := by
      have := ceilDiv_lt (a := n) hs
      have e : (ceilDiv n (step n row mem) - 1) * step n row mem + step n row mem = ceilDiv n (step n row mem) * step n row mem := by
        rw [Nat.sub_mul, Nat.one_mul]
        have : step n row mem ≤ ceilDiv n (step n row mem) * step n row mem := Nat.le_mul_of_pos_left _ hm
        omega
      omega
    rw [if_pos (by omega)] at h
    cases h
    exact ⟨hn, hs, _, hm, hlt, ceilDiv_ge hs, rfl⟩

theorem chain_map (m k : Nat) (hk : 0 < k) (n : Nat) (hn : (m - 1) * k < n) (hm : 0 < m) :
    ((List.range m).map (· * k) ++ [n]).Pairwise (· < ·) := by
  rw [List.pairwise_append]
  refine ⟨?_, by simp, ?_⟩
  · rw [List.pairwise_map]
    exact List.pairwise_lt_range.imp fun h => Nat.mul_lt_mul_of_pos_right h hk
  · intro a ha b hb
    simp only [List.mem_map, List.mem_range, List.mem_singleton] at ha hb
    obtain ⟨i, hi, rfl⟩ := ha
    subst hb
    exact lt_of_le_of_lt (Nat.mul_le_mul_right k (by omega)) hn

/-- The chunks start at the first row, end with the last one and each follows the other: every row is in exactly
one chunk. -/
theorem chunks_partition {n row mem : Nat} {ind : List Nat} (h : copyIndex n row mem = some ind) :
    ind.head? = some 0 ∧ ind.getLast? = some n ∧ ind.Pairwise (· < ·) := by
  obtain ⟨hn, hs, m, hm, h1, h2, rfl⟩ := copyIndex_eq h
  refine ⟨?_, by simp, chain_map m _ hs n h1 hm⟩
  obtain ⟨m', rfl⟩ : ∃ m', m = m' + 1 := ⟨m - 1, by omega⟩
  simp [List.range_succ_eq_map]

/-- A chunk needs no more memory than allowed, as long as a row needs at most half of it. -/
theorem chunks_memory {n row mem : Nat} {ind : List Nat} (h : copyIndex n row mem = some ind) (hmem : 0 < mem)
    (hr : 2 * row ≤ mem) {i a b : Nat} (ha : ind[i]? = some a) (hb : ind[i + 1]? = some b) : (b - a) * row ≤ mem := by
  obtain ⟨hn, hs, m, hm, h1, h2, rfl⟩ := copyIndex_eq h
  have hstep : step n row mem * row ≤ mem := by
    have hc : 0 < nchunks (n * row) mem := by
      rcases Nat.eq_zero_or_pos (nchunks (n * row) mem) with h0 | h0
      · unfold copyIndex at h; simp [h0] at h
      · exact h0
    have hlt : step n row mem * nchunks (n * row) mem < n + nchunks (n * row) mem := ceilDiv_lt hc
    by_cases hbig : ceilDiv (n * row) mem > 1
    · have e : nchunks (n * row) mem = ceilDiv (2 * (n * row)) mem := by unfold nchunks; simp [hbig]
      have hge : 2 * (n * row) ≤ nchunks (n * row) mem * mem := by rw [e]; exact ceilDiv_ge hmem
      -- step * c < n + c, so step * c * row ≤ n * row + c * row
      have k1 : step n row mem * nchunks (n * row) mem * row ≤ n * row + nchunks (n * row) mem * row := by
        have := Nat.mul_le_mul_right row hlt.le
        rw [Nat.add_mul] at this; exact this
      have k2 : 2 * (step n row mem * row * nchunks (n * row) mem) ≤ 2 * (mem * nchunks (n * row) mem) := by
        have k3 : nchunks (n * row) mem * (2 * row) ≤ nchunks (n * row) mem * mem := Nat.mul_le_mul_left _ hr
        nlinarith
      have k4 : step n row mem * row * nchunks (n * row) mem ≤ mem * nchunks (n * row) mem := by omega
      exact Nat.le_of_mul_le_mul_right k4 hc
    · have e : nchunks (n * row) mem = ceilDiv (n * row) mem := by unfold nchunks; simp [hbig]
      have e1 : ceilDiv (n * row) mem = 1 := by omega
      have hge : n * row ≤ 1 * mem := by rw [← e1]; exact ceilDiv_ge hmem
      have hst : step n row mem = n := by
        unfold step; rw [e, e1]; unfold ceilDiv; omega
      rw [hst]; omega
  have hba : b - a ≤ step n row mem := by
    have hi : i < m := by
      have := List.getElem?_eq_some_iff.mp hb
      obtain ⟨hl, _⟩ := this
      simp at hl
      exact hl
    rw [List.getElem?_append_left (by simpa using hi)] at ha
    simp [hi] at ha
    by_cases hi2 : i + 1 < m
    · rw [List.getElem?_append_left (by simpa using hi2)] at hb
      simp [hi2] at hb
      subst ha hb
      rw [Nat.add_mul]; omega
    · have : i + 1 = m := by omega
      rw [List.getElem?_append_right (by simp [this])] at hb
      simp [this] at hb
      subst ha hb
      have : m * step n row mem = i * step n row mem + step n row mem := by
        rw [← this, Nat.add_mul, Nat.one_mul]
      omega
  exact (Nat.mul_le_mul_right row hba).trans hstep

/-- The conversion can be done unless there is nothing to copy. -/
theorem copyIndex_none {n row mem : Nat} (hmem : 0 < mem) : copyIndex n row mem = none ↔ n * row = 0 := by
  constructor
  · intro h
    by_contra hne
    have hpos : 0 < n * row := Nat.pos_of_ne_zero hne
    have hn : 0 < n := Nat.pos_of_mul_pos_right hpos
    have hc : 0 < nchunks (n * row) mem := by
      unfold nchunks
      simp only
      split
      · exact ceilDiv_pos hmem (by omega)
      · exact ceilDiv_pos hmem hpos
    have hs := ceilDiv_pos hc hn
    have hm := ceilDiv_pos hs hn
    unfold copyIndex at h
    simp only [hc.ne', if_false] at h
    unfold strided at h
    rw [List.getLast?_map, List.getLast?_range] at h
    simp [hm.ne'] at h
  · intro h
    unfold copyIndex
    have : nchunks (n * row) mem = 0 := by
      rw [h]
      unfold nchunks ceilDiv
      have : (0 + mem - 1) / mem = 0 := Nat.div_eq_of_lt (by omega)
      simp [this, hmem]
    simp [this]

theorem copyChunks_get {α : Type} (src : List α) (l : List Nat) (a z : Nat) (d : Nat → Option α) (i : Nat)
    (h : (a :: l).Pairwise (· < ·)) (hz : (a :: l).getLast? = some z) :
    copyChunks src (a :: l) d i = if a ≤ i ∧ i < z then src[i]? else d i := by
  induction l generalizing a d with
  | nil =>
    simp only [List.getLast?_singleton, Option.some.injEq] at hz
    subst hz
    have : ¬ (a ≤ i ∧ i < a) := by omega
    simp only [this, if_false]
    rfl
  | cons b l ih =>
    have hb : (b :: l).Pairwise (· < ·) := (List.pairwise_cons.mp h).2
    have hab : a < b := (List.pairwise_cons.mp h).1 b (by simp)
    have hz' : (b :: l).getLast? = some z := by rw [List.getLast?_cons_cons] at hz; exact hz
    have hbl : b ≤ z := by
      rcases List.mem_cons.mp (List.mem_of_getLast? hz') with e | e
      · omega
      · exact ((List.pairwise_cons.mp hb).1 _ e).le
    simp only [copyChunks]
    rw [ih b _ hb hz']
    unfold writeRows
    by_cases h1 : b ≤ i ∧ i < z
    · rw [if_pos h1, if_pos ⟨by omega, h1.2⟩]
    · rw [if_neg h1]
      by_cases h2 : a ≤ i ∧ i < b
      · rw [if_pos h2, if_pos ⟨h2.1, by omega⟩]
      · rw [if_neg h2, if_neg (by omega)]

/-- In one piece or in chunks, the file has every row of the data at its place and nothing else. -/
theorem copy_all {α : Type} (src : List α) (row mem : Nat) {d : Nat → Option α} (h : copyMca src row mem = some d) (i : Nat) :
    d i = src[i]? := by
  unfold copyMca at h
  cases hi : copyIndex src.length row mem with
  | none => rw [hi] at h; cases h
  | some ind =>
    rw [hi] at h
    simp only [Option.map_some, Option.some.injEq] at h
    subst h
    split
    · obtain ⟨h0, h1, h2⟩ := chunks_partition hi
      cases ind with
      | nil => simp at h0
      | cons a l =>
        simp only [List.head?_cons, Option.some.injEq] at h0
        subst h0
        rw [copyChunks_get src l 0 _ _ i h2 h1]
        split
        · rfl
        · rename_i hn
          rw [List.getElem?_eq_none (by omega)]
    · rfl

/-- A counter is stored when it is in the list to include (or there is none) and not in the list to exclude. -/
theorem skip_spec (includes excludes : List Match) (ctr : String) :
    skipCounter (includes.map Match.func) (excludes.map Match.func) ctr = false ↔
      (includes = [] ∨ ∃ f ∈ includes, f.func ctr = true) ∧ ∀ f ∈ excludes, f.func ctr = false := by
  unfold skipCounter
  have : ∀ l : List Match, (l.map Match.func).any (fun f => f ctr) = true ↔ ∃ f ∈ l, f.func ctr = true := by
    intro l; simp
  have h2 : ∀ l : List Match, (l.map Match.func).any (fun f => f ctr) = false ↔ ∀ f ∈ l, f.func ctr = false := by
    intro l; simp
  simp only [Bool.or_eq_false_iff, Bool.not_eq_false']
  apply and_congr
  · by_cases hi : includes = []
    · simp [hi]
    · simp only [List.isEmpty_iff, List.map_eq_nil_iff, hi, if_false, false_or]
      exact this includes
  · by_cases he : excludes = []
    · simp [he]
    · simp only [List.isEmpty_iff, List.map_eq_nil_iff, he, if_false]
      exact h2 excludes

theorem inverse_some {l : List (String × Option String)} {c k : String} (h : inverse l c = some k) :
    (k, some c) ∈ l ∧ c ≠ "" := by
  induction l with
  | nil => simp [inverse] at h
  | cons x l ih =>
    obtain ⟨k', v⟩ := x
    unfold inverse at h
    cases hi : inverse l c with
    | some k2 =>
      rw [hi] at h
      cases h
      exact ⟨List.mem_cons_of_mem _ (ih hi).1, (ih hi).2⟩
    | none =>
      rw [hi] at h
      simp only at h
      split at h
      · rename_i hv
        cases h
        rw [hv.1]
        exact ⟨List.mem_cons_self, hv.2⟩
      · cases h

theorem inverse_mem {l : List (String × Option String)} {c k : String} (hc : c ≠ "") (h : (k, some c) ∈ l)
    (hu : ∀ k', (k', some c) ∈ l → k' = k) : inverse l c = some k := by
  induction l with
  | nil => simp at h
  | cons x l ih =>
    obtain ⟨k', v⟩ := x
    unfold inverse
    cases hi : inverse l c with
    | some k2 => rw [hu k2 (List.mem_cons_of_mem _ (inverse_some hi).1)]
    | none =>
      rcases List.mem_cons.mp h with e | e
      · cases e
        simp [hc]
      · rw [ih e (fun k' h' => hu k' (List.mem_cons_of_mem _ h'))] at hi
        cases hi

/-- The name of a counter in the file. -/
def pathName (cd : String × String) : String := if cd.2 ≠ "" then cd.1 ++ "_" ++ cd.2 else cd.1
def detName (cd : String × String) : String := if cd.2 ≠ "" then cd.2 else "counters"

theorem addCounters_meas (parse : String → String × String) (skip : String → Bool) (interp : String → Option String)
    (names : List String) (st : St) (s : Nat) (p : String) (i : Nat) :
    (p, i) ∈ (addCounters parse skip interp st s names).meas ↔
      (p, i) ∈ st.meas ∨ ∃ j n, names[j]? = some n ∧ i = s + j ∧ skip (parse n).1 = false ∧ p = pathName (parse n) := by
  induction names generalizing st s with
  | nil => simp [addCounters]
  | cons m l ih =>
    unfold addCounters
    rw [ih]
    have h1 : (p, i) ∈ (addCounter parse skip interp st s m).meas ↔
        (p, i) ∈ st.meas ∨ (i = s ∧ skip (parse m).1 = false ∧ p = pathName (parse m)) := by
      unfold addCounter
      simp only
      split
      · rename_i hk; simp [hk]
      · rename_i hk
        simp only [Bool.not_eq_true] at hk
        simp [hk, pathName, and_comm]
    rw [h1]
    constructor
    · rintro ((h | ⟨h, hs, hp⟩) | ⟨j, n, hn, hi, hs, hp⟩)
      · exact .inl h
      · exact .inr ⟨0, m, by simp, by omega, hs, hp⟩
      · exact .inr ⟨j + 1, n, by simpa using hn, by omega, hs, hp⟩
    · rintro (h | ⟨j, n, hn, hi, hs, hp⟩)
      · exact .inl (.inl h)
      · cases j with
        | zero =>
          simp only [List.getElem?_cons_zero, Option.some.injEq] at hn
          subst hn
          exact .inl (.inr ⟨by omega, hs, hp⟩)
        | succ j => exact .inr ⟨j, n, by simpa using hn, by omega, hs, hp⟩

/-- Exactly the counters that are not skipped are stored, each with its own column of the data. -/
theorem counters_stored (parse : String → String × String) (skip : String → Bool) (interp : String → Option String)
    (names : List String) (p : String) (i : Nat) :
    (p, i) ∈ (parseCounters parse skip interp names).meas ↔
      ∃ n, names[i]? = some n ∧ skip (parse n).1 = false ∧ p = pathName (parse n) := by
  unfold parseCounters
  rw [addCounters_meas]
  constructor
  · rintro (h | ⟨j, n, hn, hi, hs, hp⟩)
    · simp at h
    · exact ⟨n, by rw [hi, Nat.zero_add]; exact hn, hs, hp⟩
  · rintro ⟨n, hn, hs, hp⟩
    exact .inr ⟨i, n, hn, by omega, hs, hp⟩

theorem addCounters_paths (parse : String → String × String) (skip : String → Bool) (interp : String → Option String)
    (names : List String) (st : St) (s : Nat) (d k : String) :
    (∃ j n, names[j]? = some n ∧ skip (parse n).1 = false ∧ interp (parse n).1 = some k ∧ detName (parse n) = d ∧
      (addCounters parse skip interp st s names).paths d k = some (pathName (parse n), s + j)) ∨
    ((∀ n ∈ names, skip (parse n).1 = false → interp (parse n).1 = some k → detName (parse n) ≠ d) ∧
      (addCounters parse skip interp st s names).paths d k = st.paths d k) := by
  induction names generalizing st s with
  | nil => exact .inr ⟨by simp, rfl⟩
  | cons m l ih =>
    unfold addCounters
    rcases ih (addCounter parse skip interp st s m) (s + 1) with ⟨j, n, hn, hs, hk, hd, e⟩ | ⟨hno, e⟩
    · exact .inl ⟨j + 1, n, by simpa using hn, hs, hk, hd, by rw [e]; congr 2; omega⟩
    · by_cases hm : skip (parse m).1 = false ∧ interp (parse m).1 = some k ∧ detName (parse m) = d
      · obtain ⟨hs, hk, hd⟩ := hm
        refine .inl ⟨0, m, by simp, hs, hk, hd, ?_⟩
        rw [e]
        unfold addCounter
        simp only [hs, hk, Bool.false_eq_true, if_false]
        unfold detName at hd
        simp [hd, pathName]
      · refine .inr ⟨?_, ?_⟩
        · intro n hn hs hk hd
          rcases List.mem_cons.mp hn with rfl | hn
          · exact hm ⟨hs, hk, hd⟩
          · exact hno n hn hs hk hd
        · rw [e]
          unfold addCounter
          simp only
          split
          · rfl
          · rename_i hs
            simp only [Bool.not_eq_true] at hs
            cases hi : interp (parse m).1 with
            | none => rfl
            | some k' =>
              simp only
              rw [if_neg]
              rintro ⟨h1, h2⟩
              exact hm ⟨hs, by rw [hi, h2], h1.symm⟩

/-- What the application links as flux before (or after) the sample is the stored counter of that name, and it is
linked whenever that counter is stored. The counter has no detector, detectors are not called "counters", and no other meaning
has the same counter name. -/
theorem link_spec (parse : String → String × String) (hp : ∀ n, (parse n).2 ≠ "counters") (skip : String → Bool)
    (ctrdict : String → Option String) (fluxid transmissionid : String) (names : List String) (k c : String) (hc : c ≠ "")
    (hk : (k, some c) ∈ interpretations ctrdict fluxid transmissionid)
    (hu : ∀ k' c', (k', some c') ∈ interpretations ctrdict fluxid transmissionid → (k' = k ↔ c' = c)) :
    let st := parseCounters parse skip (inverse (interpretations ctrdict fluxid transmissionid)) names
    (∀ p i, link st k = some (p, i) → ∃ n, names[i]? = some n ∧ parse n = (c, "") ∧ p = c ∧ (p, i) ∈ st.meas) ∧
    (skip c = false → (∃ n ∈ names, parse n = (c, "")) → ∃ i, link st k = some (c, i)) := by
  intro st
  have hinv : inverse (interpretations ctrdict fluxid transmissionid) c = some k :=
    inverse_mem hc hk fun k' h' => (hu k' c h').mpr rfl
  have hdet : ∀ n, detName (parse n) = "counters" → (parse n).2 = "" := by
    intro n h
    unfold detName at h
    by_contra hne
    rw [if_pos hne] at h
    exact hp n h
  have key := addCounters_paths parse skip (inverse (interpretations ctrdict fluxid transmissionid)) names
    ⟨[], fun _ _ => none⟩ 0 "counters" k
  rcases key with ⟨j, n, hn, hs, hi, hd, e⟩ | ⟨hno, e⟩
  · have h2 := hdet n hd
    have h1 : (parse n).1 = c := (hu k _ (inverse_some hi).1).mp rfl
    have hpar : parse n = (c, "") := by rw [← h1, ← h2]
    have hl : link st k = some (c, j) := by
      have : pathName (parse n) = c := by rw [hpar]; simp [pathName]
      rw [this, Nat.zero_add] at e
      exact e
    refine ⟨?_, fun _ _ => ⟨j, hl⟩⟩
    intro p i h
    rw [hl] at h
    cases h
    refine ⟨n, hn, hpar, rfl, ?_⟩
    rw [counters_stored]
    exact ⟨n, hn, hs, by rw [hpar]; simp [pathName]⟩
  · have hl : link st k = none := e
    refine ⟨fun p i h => (by rw [hl] at h; exact absurd h (by simp)), ?_⟩
    rintro hs ⟨n, hn, hpar⟩
    exact absurd (by rw [hpar]; simp [detName]) (hno n hn (by rw [hpar]; exact hs) (by rw [hpar]; exact hinv))

/-- With one counter for both fluxes only the flux after the sample is linked. -/
theorem same_counter :
    let st := parseCounters (fun n => (n, "")) (fun _ => false)
      (inverse (interpretations (fun s => if s = "I0_counts" ∨ s = "It_counts" then some "diode" else none) "I0" "It")) ["diode"]
    link st "i0" = none ∧ link st "it" = some ("diode", 0) := by decide +kernel

/-- Calculated times are events per rate: live time times input rate and elapsed time times output rate both
give the events. -/
theorem times_calculated (s : Stats) (hi : s.icr ≠ 0) (ho : s.ocr ≠ 0) :
    ∃ lt rt, times none none (some s) = (.calculated (some lt), .calculated (some rt)) ∧
      lt * s.icr = s.events ∧ rt * s.ocr = s.events := by
  refine ⟨s.events / s.icr, s.events / s.ocr, by simp [times, npDiv, hi, ho], ?_, ?_⟩
  · field_simp
  · field_simp

/-- The fraction of live time is the fraction of processed events. -/
theorem times_fraction (s : Stats) (hi : s.icr ≠ 0) (ho : s.ocr ≠ 0) (he : s.events ≠ 0) {lt rt : Rat}
    (h : times none none (some s) = (.calculated (some lt), .calculated (some rt))) : lt / rt = s.ocr / s.icr := by
  simp only [times, npDiv, hi, ho, if_false, Prod.mk.injEq, Time.calculated.injEq, Option.some.injEq] at h
  rw [← h.1, ← h.2]
  field_simp

/-- Measured times go before calculated ones, one by one, and without statistics the times are left out. -/
theorem times_measured (lt rt : Option Ref) (stats : Option Stats) :
    (∀ r, lt = some r → (times lt rt stats).1 = .counter r) ∧ (∀ r, rt = some r → (times lt rt stats).2 = .counter r) ∧
    (lt = none → (times lt rt stats).1 = (times none none stats).1) ∧
    (rt = none → (times lt rt stats).2 = (times none none stats).2) ∧
    times none none none = (.missing, .missing) := by
  refine ⟨?_, ?_, ?_, ?_, rfl⟩
  · rintro r rfl; rfl
  · rintro r rfl; rfl
  · rintro rfl; rfl
  · rintro rfl; rfl

theorem tempName_spec {α : Type} {e : Entries α} {drawn : List String} {t : String} (h : tempName e drawn = some t) :
    ∀ x ∈ e, x.1 ≠ t := by
  have := List.find?_some h
  intro x hx he
  simp only [Bool.not_eq_true', List.any_eq_false, beq_iff_eq] at this
  exact this x hx he

/-- After a failure the file has the entries it had. -/
theorem task_failed {α : Type} (e : Entries α) (drawn : List String) (empty : α) (out : String) {e' : Entries α}
    (h : runTask e drawn empty out none = some e') : e' = e := by
  unfold runTask at h
  cases ht : tempName e drawn with
  | none => rw [ht] at h; cases h
  | some t =>
    rw [ht] at h
    simp only [Option.map_some, Option.some.injEq] at h
    subst h
    rw [List.filter_append]
    have h1 : e.filter (fun x => x.1 != t) = e := List.filter_eq_self.mpr fun x hx => by simpa using tempName_spec ht x hx
    rw [h1]
    simp

/-- After a conversion the output has the converted data and the other entries are untouched; an output that exists
already is kept and the conversion dropped. The random name is not that of the output. -/
theorem task_done {α : Type} (e : Entries α) (drawn : List String) (empty c : α) (out : String) (hd : out ∉ drawn) {e' : Entries α}
    (h : runTask e drawn empty out (some c) = some e') :
    ((∃ x ∈ e, x.1 = out) → e' = e) ∧ ((∀ x ∈ e, x.1 ≠ out) → e' = e ++ [(out, c)]) := by
  unfold runTask at h
  cases ht : tempName e drawn with
  | none => rw [ht] at h; cases h
  | some t =>
    have hto : t ≠ out := fun h => hd (h ▸ List.mem_of_find?_eq_some ht)
    have hfresh := tempName_spec ht
    rw [ht] at h
    simp only [Option.map_some, Option.some.injEq] at h
    have hmap : ∀ y : String × α, e.map (fun x => if x.1 == t then y else x) = e := by
      intro y
      conv_rhs => rw [← List.map_id e]
      apply List.map_congr_left
      intro x hx
      simp [hfresh x hx]
    have h2 : (e ++ [(t, empty)]).map (fun x => if x.1 == t then (t, c) else x) = e ++ [(t, c)] := by
      rw [List.map_append, hmap]; simp
    rw [h2] at h
    constructor
    · rintro ⟨x, hx, hxo⟩
      have : (e ++ [(t, c)]).any (fun x => x.1 == out) = true := by
        rw [List.any_eq_true]; exact ⟨x, by simp [hx], by simp [hxo]⟩
      rw [if_pos this] at h
      subst h
      rw [List.filter_append, List.filter_eq_self.mpr fun x hx => by simpa using hfresh x hx]
      simp
    · intro hno
      have : (e ++ [(t, c)]).any (fun x => x.1 == out) = false := by
        rw [List.any_eq_false]
        intro x hx
        simp only [List.mem_append, List.mem_singleton] at hx
        rcases hx with hx | rfl
        · simpa using hno x hx
        · simpa using hto
      rw [this] at h
      simp only [Bool.false_eq_true, if_false] at h
      subst h
      rw [List.map_append, hmap]
      simp

example : copyIndex 10 40 100 = some [0, 2, 4, 6, 8, 10] := by decide +kernel
example : copyIndex 7 40 100 = some [0, 2, 4, 6, 7] := by decide +kernel
example : (copyMca [5, 6, 7, 8, 9] 40 100).map (fun d => [d 0, d 4, d 5]) = some [some 5, some 9, none] := by decide +kernel
example : runTask [("a", 1)] ["a", "t"] 0 "b" (some 2) = some [("a", 1), ("b", 2)] := by decide +kernel
example :
    let d : String → Option String := fun s => if s = "I0_counts" then some "arr_iodet" else if s = "It_counts" then some "arr_idet" else none
    (∀ k' c', (k', some c') ∈ interpretations d "I0" "It" → (k' = "i0" ↔ c' = "arr_iodet")) ∧
      ("i0", some "arr_iodet") ∈ interpretations d "I0" "It" := by
  simp only [interpretations]
  refine ⟨?_, by decide⟩
  intro k' c' h
  simp at h
  rcases h with ⟨rfl, rfl⟩ | ⟨rfl, rfl⟩ <;> decide

end SC.XiaNx
