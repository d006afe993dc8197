import Verif.Jobs.Model
import Mathlib.Tactic.Linarith
import Mathlib.Tactic.FieldSimp
import Mathlib.Tactic.Ring
import Mathlib.Tactic.NormNum
import Mathlib.Tactic.Positivity
import Mathlib.Data.Nat.Digits.Defs
/-! # C85: jobs, times and progress -/
namespace SC.Jobs

/-! ## Jobs -/

/-- Specification: the jobs that ran. -/
def ranOf (l : List Event) : List Nat := l.filterMap fun | .ran k => some k | _ => none
/-- Specification: the numbers that were refused. -/
def refusedOf (l : List Event) : List Int := l.filterMap fun | .invalid i => some i | _ => none

theorem pyIndex_valid (n : Nat) (i : Int) (h : 1 ≤ i ∧ i ≤ n) : pyIndex n (i - 1) = some (i - 1).toNat := by
  unfold pyIndex; rw [if_pos (by omega)]

theorem pyIndex_none (n : Nat) (i : Int) : pyIndex n i = none ↔ (n : Int) ≤ i ∨ i < -(n : Int) := by
  unfold pyIndex; split
  · simp; omega
  · split
    · simp; omega
    · simp; omega

theorem pyIndex_lt (n : Nat) (i : Int) (k : Nat) (h : pyIndex n i = some k) : k < n ∧ ((k : Int) = i ∨ (k : Int) = i + n) := by
  unfold pyIndex at h; split at h
  · simp only [Option.some.injEq] at h; omega
  · split at h
    · simp only [Option.some.injEq] at h; omega
    · cases h

/-- **C85.**  Numbers run the jobs with these numbers, in the given order, and numbers that are too high are refused
without stopping the others. -/
theorem runNumbers_spec (fails : Nat → Bool) (n : Nat) (l : List Int) (hl : ∀ i ∈ l, 1 ≤ i) (hf : ∀ k < n, fails k = false) :
    ranOf (runNumbers fails n l) = (l.filter (fun i => i ≤ (n : Int))).map (fun i => (i - 1).toNat) ∧
    refusedOf (runNumbers fails n l) = l.filter (fun i => (n : Int) < i) ∧ .error ∉ runNumbers fails n l := by
  induction l with
  | nil => exact ⟨rfl, rfl, by simp [runNumbers]⟩
  | cons i l ih =>
    obtain ⟨h1, h2, h3⟩ := ih fun x hx => hl x (List.mem_cons_of_mem _ hx)
    have hi := hl i List.mem_cons_self
    by_cases h : i ≤ n
    · simp only [runNumbers, pyIndex_valid n i ⟨hi, h⟩]
      rw [hf _ (by omega)]
      simp only [Bool.false_eq_true, if_false]
      refine ⟨?_, ?_, ?_⟩
      · show (i - 1).toNat :: ranOf _ = _
        rw [h1, List.filter_cons_of_pos (by simpa using h)]; rfl
      · show refusedOf (runNumbers fails n l) = _
        rw [h2, List.filter_cons_of_neg (by simpa using h)]
      · simpa using h3
    · have hn : pyIndex n (i - 1) = none := (pyIndex_none n (i - 1)).mpr (by omega)
      simp only [runNumbers, hn]
      refine ⟨?_, ?_, ?_⟩
      · show ranOf (runNumbers fails n l) = _
        rw [h1, List.filter_cons_of_neg (by simpa using h)]
      · show i :: refusedOf _ = _
        rw [h2, List.filter_cons_of_pos (by simpa using h)]
      · simpa using h3

/-- **C85.**  Without options every job runs once, in order; the first that fails is the last that runs. -/
theorem runAll_spec (fails : Nat → Bool) (n : Nat) :
    (∀ k < n, fails k = false) → execute fails n {} = (List.range n).map Event.ran := by
  intro h
  have key : ∀ l : List Nat, (∀ k ∈ l, fails k = false) → runAll fails l = l.map Event.ran := by
    intro l
    induction l with
    | nil => intro _; rfl
    | cons k l ih =>
      intro hl
      rw [runAll, hl k List.mem_cons_self, ih fun x hx => hl x (List.mem_cons_of_mem _ hx)]; rfl
  simp only [execute]
  exact key _ fun k hk => h k (List.mem_range.mp hk)

theorem runAll_fails (fails : Nat → Bool) (n k : Nat) (hk : k < n) (hf : fails k = true) (hb : ∀ j < k, fails j = false) :
    execute fails n {} = (List.range (k + 1)).map Event.ran ++ [.error] := by
  have key : ∀ (m : Nat) (a : Nat), (∀ j, a ≤ j → j < k → fails j = false) → a ≤ k → k < a + m →
      runAll fails (List.range' a m) = (List.range' a (k + 1 - a)).map Event.ran ++ [.error] := by
    intro m
    induction m with
    | zero => intro a _ h1 h2; omega
    | succ m ih =>
      intro a h h1 h2
      rw [List.range'_succ, runAll]
      by_cases e : a = k
      · subst e
        rw [if_pos hf, Nat.add_sub_cancel_left]; rfl
      · rw [if_neg (by simp [h a le_rfl (by omega)]), ih (a + 1) (fun j h3 h4 => h j (by omega) h4) (by omega) (by omega)]
        have : k + 1 - a = (k + 1 - (a + 1)) + 1 := by omega
        rw [this, List.range'_succ]; rfl
  simp only [execute]
  have := key n 0 (fun j _ h => hb j h) (Nat.zero_le _) (by omega)
  simpa [List.range_eq_range'] using this

/-- Only jobs that exist run, whatever the options. -/
theorem execute_exists (fails : Nat → Bool) (n : Nat) (o : Opts) : ∀ k ∈ ranOf (execute fails n o), k < n := by
  have h1 : ∀ l, ∀ k ∈ ranOf (runNumbers fails n l), k < n := by
    intro l
    induction l with
    | nil => intro k hk; cases hk
    | cons i l ih =>
      intro k hk
      simp only [runNumbers] at hk
      split at hk
      · exact ih k hk
      · rename_i j hj
        have hj := (pyIndex_lt n _ j hj).1
        split at hk
        · simp [ranOf] at hk; omega
        · have : k = j ∨ k ∈ ranOf (runNumbers fails n l) := by simpa [ranOf] using hk
          rcases this with rfl | h
          · exact hj
          · exact ih k h
  have h2 : ∀ l : List Nat, (∀ k ∈ l, k < n) → ∀ k ∈ ranOf (runAll fails l), k < n := by
    intro l
    induction l with
    | nil => intro _ k hk; cases hk
    | cons j l ih =>
      intro hl k hk
      rw [runAll] at hk
      split at hk
      · have : k = j := by simpa [ranOf] using hk
        subst this; exact hl _ List.mem_cons_self
      · have : k = j ∨ k ∈ ranOf (runAll fails l) := by simpa [ranOf] using hk
        rcases this with rfl | h
        · exact hl _ List.mem_cons_self
        · exact ih (fun x hx => hl x (List.mem_cons_of_mem _ hx)) k h
  intro k hk
  unfold execute at hk
  split at hk
  · cases hk
  · split at hk
    · cases hk
    · split at hk
      · split at hk
        · cases hk
        · exact h1 _ k hk
      · exact h2 _ (fun k hk => List.mem_range.mp hk) k hk

/-- **C85 (deviation).**  The options for a range of jobs never run a job. -/
theorem range_fails (fails : Nat → Bool) (n : Nat) (o : Opts) (h1 : o.njobs = false) (h2 : o.ljobs = false)
    (h : o.ajob > 0 ∨ o.bjob > 0) : execute fails n o = [.error] := by
  unfold execute
  rw [h1, h2]
  simp [h]

/-- **C85 (deviation).**  Job zero is the last job, and negative numbers count from the end. -/
theorem zero_runs_last (n : Nat) (hn : 0 < n) (fails : Nat → Bool) (hf : fails (n - 1) = false) :
    execute fails n { jobs := [0] } = [.ran (n - 1)] := by
  have : pyIndex n (0 - 1) = some (n - 1) := by
    unfold pyIndex
    rw [if_neg (by omega), if_pos (by omega)]
    congr 1; omega
  simp only [execute, runNumbers, this, hf]
  simp

theorem digits_len_mono (a b : Nat) (h : a ≤ b) : (Nat.toDigits 10 a).length ≤ (Nat.toDigits 10 b).length := by
  have hp : 0 < (Nat.toDigits 10 b).length := Nat.length_toDigits_pos
  rw [Nat.length_toDigits_le_iff (by decide) hp]
  exact lt_of_le_of_lt h ((Nat.length_toDigits_le_iff (by decide) hp).mp le_rfl)

theorem padLeft_length (w : Nat) (s : List Char) : (padLeft w s).length = max w s.length := by
  simp [padLeft]; omega

/-- **C85.**  Every job is a line of the listing, with its number and name. -/
theorem listing_line (names : List (List Char)) (i : Nat) (h : i < names.length) :
    (listing names)[i]? = some (padLeft (width names.length) (Nat.toDigits 10 (i + 1)) ++ ['.', ' '] ++ names[i]) := by
  simp [listing, h, Nat.add_comm]

/-- **C85.**  The names are below each other, unless the number of jobs is a power of ten above one. -/
theorem listing_aligned (n i : Nat) (h1 : 1 ≤ i) (h2 : i ≤ n) (hn : ∀ k, 1 ≤ k → n ≠ 10 ^ k) :
    (padLeft (width n) (Nat.toDigits 10 i)).length = width n := by
  rw [padLeft_length]
  refine max_eq_left ?_
  unfold width
  rcases Nat.eq_or_lt_of_le h2 with rfl | h
  · rcases Nat.lt_or_ge i 2 with h | h
    · have : i = 1 := by omega
      subst this; exact le_rfl
    · have hm : max (i - 1) 1 = i - 1 := by omega
      rw [hm]
      have hp : 0 < (Nat.toDigits 10 (i - 1)).length := Nat.length_toDigits_pos
      rw [Nat.length_toDigits_le_iff (by decide) hp]
      have := (Nat.length_toDigits_le_iff (b := 10) (n := i - 1) (by decide) hp).mp le_rfl
      have := hn _ hp
      omega
  · exact digits_len_mono _ _ (by omega)

/-- **C85 (deviation).**  With ten, a hundred, … jobs the last line is shifted. -/
theorem listing_shifted (k : Nat) (hk : 1 ≤ k) :
    (padLeft (width (10 ^ k)) (Nat.toDigits 10 (10 ^ k))).length = width (10 ^ k) + 1 := by
  have h10 : 10 ≤ 10 ^ k := by
    calc 10 = 10 ^ 1 := rfl
      _ ≤ 10 ^ k := Nat.pow_le_pow_right (by decide) hk
  have hw : width (10 ^ k) ≤ k := by
    unfold width
    rw [Nat.length_toDigits_le_iff (by decide) hk]; omega
  have hw' : k ≤ width (10 ^ k) := by
    by_contra hc
    have hp : 0 < width (10 ^ k) := Nat.length_toDigits_pos
    have h := (Nat.length_toDigits_le_iff (b := 10) (n := max (10 ^ k - 1) 1) (k := width (10 ^ k)) (by decide) hp).mp le_rfl
    have : 10 ^ width (10 ^ k) * 10 ≤ 10 ^ k := by
      rw [← Nat.pow_succ]; exact Nat.pow_le_pow_right (by decide) (by omega)
    omega
  have hd : (Nat.toDigits 10 (10 ^ k)).length ≤ k + 1 := by
    rw [Nat.length_toDigits_le_iff (by decide) (by omega)]
    exact Nat.pow_lt_pow_right (by decide) (by omega)
  have hd' : ¬ (Nat.toDigits 10 (10 ^ k)).length ≤ k := by
    rw [Nat.length_toDigits_le_iff (by decide) hk]; omega
  rw [padLeft_length]; omega

/-! ## Times -/

theorem trunc_nonneg {x : ℚ} (h : 0 ≤ x) : (trunc x : ℚ) ≤ x ∧ x < trunc x + 1 ∧ 0 ≤ trunc x := by
  unfold trunc; rw [if_pos h]
  exact ⟨Int.floor_le x, Int.lt_floor_add_one x, Int.floor_nonneg.mpr h⟩

theorem trunc_unique {x : ℚ} (h : 0 ≤ x) (n : Int) (h1 : (n : ℚ) ≤ x) (h2 : x < n + 1) : trunc x = n := by
  unfold trunc; rw [if_pos h]
  exact Int.floor_eq_iff.mpr ⟨h1, h2⟩

theorem trunc_neg {x : ℚ} (h : 0 ≤ x) : trunc (-x) = -trunc x := by
  rcases eq_or_lt_of_le h with rfl | h
  · simp [trunc]
  · unfold trunc
    rw [if_neg (by linarith), if_pos h.le, Int.ceil_neg]

/-- **C85.**  Hours, minutes and seconds are the only ones that make up the time, with less than sixty minutes and seconds. -/
theorem hms_spec (x : ℚ) (hx : 0 ≤ x) (h m s : Int) :
    hms x = (h, m, s) ↔ 0 ≤ h ∧ 0 ≤ m ∧ m < 60 ∧ 0 ≤ s ∧ s < 60 ∧
      ((h * 3600 + m * 60 + s : Int) : ℚ) ≤ x ∧ x < ((h * 3600 + m * 60 + s : Int) : ℚ) + 1 := by
  have hr : ∃ h m s, hms x = (h, m, s) ∧ 0 ≤ h ∧ 0 ≤ m ∧ m < 60 ∧ 0 ≤ s ∧ s < 60 ∧
      ((h * 3600 + m * 60 + s : Int) : ℚ) ≤ x ∧ x < ((h * 3600 + m * 60 + s : Int) : ℚ) + 1 := by
    obtain ⟨a1, a2, a3⟩ := trunc_nonneg (x := x / 3600) (by positivity)
    have b0 : 0 ≤ (x - trunc (x / 3600) * 3600) / 60 := by
      rw [le_div_iff₀ (by norm_num)] at a1
      have : 0 ≤ x - trunc (x / 3600) * 3600 := by linarith
      positivity
    obtain ⟨b1, b2, b3⟩ := trunc_nonneg b0
    have b4 : trunc ((x - trunc (x / 3600) * 3600) / 60) < 60 := by
      have : ((x - trunc (x / 3600) * 3600) / 60 : ℚ) < 60 := by
        rw [div_lt_iff₀ (by norm_num)] at a2 ⊢
        linarith
      have : (trunc ((x - trunc (x / 3600) * 3600) / 60) : ℚ) < 60 := by linarith
      exact_mod_cast this
    have c0 : 0 ≤ x - trunc (x / 3600) * 3600 - trunc ((x - trunc (x / 3600) * 3600) / 60) * 60 := by
      rw [le_div_iff₀ (by norm_num)] at b1
      linarith
    obtain ⟨c1, c2, c3⟩ := trunc_nonneg c0
    refine ⟨_, _, _, rfl, a3, b3, b4, c3, ?_, ?_, ?_⟩
    · rw [div_lt_iff₀ (by norm_num)] at b2
      have : (trunc (x - trunc (x / 3600) * 3600 - trunc ((x - trunc (x / 3600) * 3600) / 60) * 60) : ℚ) < 60 := by linarith
      exact_mod_cast this
    · push_cast; linarith
    · push_cast; linarith
  obtain ⟨h', m', s', e, g1, g2, g3, g4, g5, g6, g7⟩ := hr
  rw [e]
  constructor
  · intro e'
    simp only [Prod.mk.injEq] at e'
    obtain ⟨rfl, rfl, rfl⟩ := e'
    exact ⟨g1, g2, g3, g4, g5, g6, g7⟩
  · rintro ⟨k1, k2, k3, k4, k5, k6, k7⟩
    have e1 : h' * 3600 + m' * 60 + s' < h * 3600 + m * 60 + s + 1 := by
      have : ((h' * 3600 + m' * 60 + s' : Int) : ℚ) < ((h * 3600 + m * 60 + s + 1 : Int) : ℚ) := by
        rw [Int.cast_add (h * 3600 + m * 60 + s) 1, Int.cast_one]; linarith
      exact_mod_cast this
    have e2 : h * 3600 + m * 60 + s < h' * 3600 + m' * 60 + s' + 1 := by
      have : ((h * 3600 + m * 60 + s : Int) : ℚ) < ((h' * 3600 + m' * 60 + s' + 1 : Int) : ℚ) := by
        rw [Int.cast_add (h' * 3600 + m' * 60 + s') 1, Int.cast_one]; linarith
      exact_mod_cast this
    simp only [Prod.mk.injEq]
    omega

/-- **C85.**  A negative time is the opposite time with three signs. -/
theorem hms_neg (x : ℚ) (hx : 0 ≤ x) : hms (-x) = (-(hms x).1, -(hms x).2.1, -(hms x).2.2) := by
  obtain ⟨a1, a2, a3⟩ := trunc_nonneg (x := x / 3600) (by positivity)
  have b0 : 0 ≤ x - trunc (x / 3600) * 3600 := by
    rw [le_div_iff₀ (by norm_num)] at a1; linarith
  obtain ⟨b1, b2, b3⟩ := trunc_nonneg (x := (x - trunc (x / 3600) * 3600) / 60) (by positivity)
  have c0 : 0 ≤ x - trunc (x / 3600) * 3600 - trunc ((x - trunc (x / 3600) * 3600) / 60) * 60 := by
    rw [le_div_iff₀ (by norm_num)] at b1; linarith
  have e1 : trunc (-x / 3600) = -trunc (x / 3600) := by
    rw [neg_div]; exact trunc_neg (by positivity)
  have e2 : trunc ((-x - (-trunc (x / 3600) : Int) * 3600) / 60) = -trunc ((x - trunc (x / 3600) * 3600) / 60) := by
    rw [← trunc_neg (x := (x - trunc (x / 3600) * 3600) / 60) (by positivity)]
    refine congrArg trunc ?_
    push_cast; ring
  have e3 : trunc (-x - (-trunc (x / 3600) : Int) * 3600 - (-trunc ((x - trunc (x / 3600) * 3600) / 60) : Int) * 60) =
      -trunc (x - trunc (x / 3600) * 3600 - trunc ((x - trunc (x / 3600) * 3600) / 60) * 60) := by
    rw [← trunc_neg c0]
    refine congrArg trunc ?_
    push_cast; ring
  simp only [hms, e1, e2, e3]

/-- **C85 (deviation).**  The elapsed time starts again after each day. -/
theorem deltaSeconds_day (us : Nat) : deltaSeconds (us + 86400 * 1000000) = deltaSeconds us := by
  unfold deltaSeconds; omega

theorem deltaSeconds_short (us : Nat) (h : us < 86400 * 1000000) : deltaSeconds us = us / 1000000 := by
  unfold deltaSeconds; omega

/-! ## Progress -/

/-- Specification: the part that is done. -/
def done (p : Progress) : ℚ := ((p.ncurrent * p.nmaxfine + p.ncurrentfine : Nat) : ℚ) / ((p.nmax * p.nmaxfine : Nat) : ℚ)

/-- **C85.**  When part of the work is done a line can be printed: the percentage is the part that is done rounded down,
it lies between 0 and 100, and the time left is what it takes at the speed so far. -/
theorem printprogress_spec (p : Progress) (t : Nat) (h1 : 0 < done p) (h2 : done p ≤ 1) :
    ∃ l, printprogress p t = some l ∧ 0 ≤ l.pdone ∧ l.pdone ≤ 100 ∧ (l.pdone : ℚ) ≤ 100 * done p ∧ 100 * done p < l.pdone + 1 ∧
      l.pdone + l.pleft = 100 ∧ l.elapsed = hms t ∧ ∃ left : ℚ, 0 ≤ left ∧ l.left = hms left ∧ (t + left) * done p = t := by
  set c := p.ncurrent * p.nmaxfine + p.ncurrentfine with hc
  set m := p.nmax * p.nmaxfine with hm
  have hd : done p = (c : ℚ) / m := rfl
  have hm0 : m ≠ 0 := by
    intro e; rw [hd, e] at h1; simp at h1
  have hc0 : c ≠ 0 := by
    intro e; rw [hd, e] at h1; simp at h1
  have hmq : (0 : ℚ) < m := by exact_mod_cast Nat.pos_of_ne_zero hm0
  have hcq : (0 : ℚ) < c := by exact_mod_cast Nat.pos_of_ne_zero hc0
  have hcm : (c : ℚ) ≤ m := by rwa [hd, div_le_one hmq] at h2
  obtain ⟨a1, a2, a3⟩ := trunc_nonneg (x := (c : ℚ) / m * 100) (by positivity)
  refine ⟨⟨hms t, trunc ((c : ℚ) / m * 100), hms (t * ((m : ℚ) / c - 1)), 100 - trunc ((c : ℚ) / m * 100)⟩, ?_, a3, ?_, ?_, ?_, ?_, rfl, ?_⟩
  · simp only [printprogress]
    rw [if_neg (by rw [← hc, ← hm]; omega)]
  · have : (trunc ((c : ℚ) / m * 100) : ℚ) ≤ 100 := by
      have : (c : ℚ) / m ≤ 1 := by rwa [div_le_one hmq]
      linarith
    exact_mod_cast this
  · rw [hd]; linarith
  · rw [hd]; show 100 * ((c : ℚ) / m) < (trunc ((c : ℚ) / m * 100) : ℚ) + 1; linarith
  · show trunc ((c : ℚ) / m * 100) + (100 - trunc ((c : ℚ) / m * 100)) = 100; omega
  · refine ⟨t * ((m : ℚ) / c - 1), ?_, rfl, ?_⟩
    · have : 1 ≤ (m : ℚ) / c := by rwa [le_div_iff₀ hcq, one_mul]
      have : 0 ≤ (m : ℚ) / c - 1 := by linarith
      positivity
    · rw [hd]; field_simp; ring

/-- **C85 (deviation).**  Before any work is done there is a ZeroDivisionError. -/
theorem printprogress_zero (n t : Nat) : printprogress (setn n) t = none := by simp [printprogress, setn]

theorem fitEnergies_eq (nf nE : Nat) (p : Progress) :
    fitEnergies nf nE p = ((List.range nE).map fun j => { p with ncurrentfine := p.ncurrentfine + (j + 1) * nf },
      { p with ncurrentfine := p.ncurrentfine + nE * nf }) := by
  induction nE generalizing p with
  | zero => simp [fitEnergies]
  | succ n ih =>
    simp only [fitEnergies, ih, List.range_succ_eq_map, List.map_cons, List.map_map]
    refine Prod.ext ?_ ?_
    · simp only [ndonefine, Nat.zero_add, Nat.one_mul]
      congr 1
      refine List.map_congr_left fun j _ => ?_
      simp only [Function.comp, Nat.succ_eq_add_one]
      congr 1; ring
    · simp only [ndonefine]; congr 1; ring

theorem fit_eq (nE nf : Nat) (p : Progress) :
    fit nE nf p = ((List.range nE).map fun j => ⟨p.nmax, p.ncurrent, nE * nf, (j + 1) * nf⟩, ⟨p.nmax, p.ncurrent, nE * nf, nE * nf⟩) := by
  simp [fit, fitEnergies_eq, setnfine]

/-- **C85 (deviation).**  All detectors of a spectrum show the same progress: with the second detector it starts again. -/
theorem detectors_eq (nE nf k : Nat) (p : Progress) :
    (detectors nE nf k p).1 = (List.replicate k ((List.range nE).map fun j => (⟨p.nmax, p.ncurrent, nE * nf, (j + 1) * nf⟩ : Progress))).flatten ∧
    (detectors nE nf k p).2.nmax = p.nmax ∧ (detectors nE nf k p).2.ncurrent = p.ncurrent ∧
    (0 < k → (detectors nE nf k p).2.nmaxfine = nE * nf) := by
  induction k generalizing p with
  | zero => exact ⟨rfl, rfl, rfl, fun h => absurd h (by omega)⟩
  | succ k ih =>
    simp only [detectors, fit_eq]
    obtain ⟨h1, h2, h3, h4⟩ := ih ⟨p.nmax, p.ncurrent, nE * nf, nE * nf⟩
    refine ⟨?_, h2, h3, fun _ => ?_⟩
    · rw [h1]; simp [List.replicate_succ]
    · cases k with
      | zero => rfl
      | succ k => exact h4 (by omega)

theorem done_state (N c n f : Nat) (hN : 0 < N) (hn : 0 < n) : done ⟨N, c, n, f⟩ = ((c : ℚ) + f / n) / N := by
  have h1 : (N : ℚ) ≠ 0 := by exact_mod_cast hN.ne'
  have h2 : (n : ℚ) ≠ 0 := by exact_mod_cast hn.ne'
  simp only [done]; push_cast; field_simp

theorem spectra_range (nE nf nd n : Nat) (hE : 0 < nE) (hf : 0 < nf) (hd : 0 < nd) (p : Progress) (hN : 0 < p.nmax)
    (h : p.ncurrent + n * nd ≤ p.nmax) :
    ∀ q ∈ spectra nE nf nd n p, (p.ncurrent : ℚ) / p.nmax < done q ∧ done q ≤ ((p.ncurrent + n * nd : Nat) : ℚ) / p.nmax := by
  have hNq : (0 : ℚ) < p.nmax := by exact_mod_cast hN
  have hdq : (1 : ℚ) ≤ nd := by exact_mod_cast hd
  have hEf : 0 < nE * nf := Nat.mul_pos hE hf
  induction n generalizing p with
  | zero => intro q hq; cases hq
  | succ n ih =>
    intro q hq
    obtain ⟨e1, e2, e3, e4⟩ := detectors_eq nE nf nd p
    simp only [spectra] at hq
    set q1 := (detectors nE nf nd p).2 with hq1
    have s1 : done (ndone q1 nd) = ((p.ncurrent + nd : Nat) : ℚ) / p.nmax := by
      have : ndone q1 nd = ⟨p.nmax, p.ncurrent + nd, nE * nf, 0⟩ := by
        simp only [ndone, e2, e3, e4 hd]
      rw [this, done_state _ _ _ _ hN hEf]; simp
    have hle : ((p.ncurrent + nd : Nat) : ℚ) / p.nmax ≤ ((p.ncurrent + (n + 1) * nd : Nat) : ℚ) / p.nmax := by
      rw [div_le_div_iff_of_pos_right hNq]
      exact_mod_cast (by nlinarith : p.ncurrent + nd ≤ p.ncurrent + (n + 1) * nd)
    rcases List.mem_append.mp hq with hq | hq
    · rw [e1] at hq
      obtain ⟨l, hl, hq⟩ := List.mem_flatten.mp hq
      rw [(List.mem_replicate.mp hl).2] at hq
      obtain ⟨j, hj, rfl⟩ := List.mem_map.mp hq
      have hj := List.mem_range.mp hj
      rw [done_state _ _ _ _ hN hEf]
      have hEfq : (0 : ℚ) < ((nE * nf : Nat) : ℚ) := by exact_mod_cast hEf
      have b1 : (0 : ℚ) < (((j + 1) * nf : Nat) : ℚ) / ((nE * nf : Nat) : ℚ) := by
        have : (0 : ℚ) < (((j + 1) * nf : Nat) : ℚ) := by exact_mod_cast Nat.mul_pos (Nat.succ_pos j) hf
        positivity
      have b2 : (((j + 1) * nf : Nat) : ℚ) / ((nE * nf : Nat) : ℚ) ≤ 1 := by
        rw [div_le_one hEfq]
        exact_mod_cast Nat.mul_le_mul_right nf hj
      refine ⟨?_, ?_⟩
      · rw [div_lt_div_iff_of_pos_right hNq]; linarith
      · refine le_trans ?_ hle
        rw [div_le_div_iff_of_pos_right hNq, Nat.cast_add]; linarith
    · rcases List.mem_cons.mp hq with rfl | hq
      · rw [s1]
        refine ⟨?_, hle⟩
        rw [div_lt_div_iff_of_pos_right hNq]; push_cast; linarith
      · have i1 : (ndone q1 nd).nmax = p.nmax := by simp [ndone, e2]
        have i2 : (ndone q1 nd).ncurrent = p.ncurrent + nd := by simp [ndone, e3]
        have hb : p.ncurrent + nd + n * nd ≤ p.nmax := by nlinarith
        obtain ⟨r1, r2⟩ := ih (ndone q1 nd) (by rw [i1]; exact hN) (by rw [i1, i2]; exact hb) (by rw [i1]; exact hNq) q hq
        rw [i1, i2] at r1 r2
        refine ⟨lt_trans ?_ r1, le_trans r2 (le_of_eq ?_)⟩
        · rw [div_lt_div_iff_of_pos_right hNq]; push_cast; linarith
        · congr 2; ring

/-- **C85.**  Every line of the pipeline is printed with a part between nothing (excluded) and everything done. -/
theorem process_range (nE nf nd n : Nat) (hE : 0 < nE) (hf : 0 < nf) (hd : 0 < nd) :
    ∀ q ∈ process nE nf nd n, 0 < done q ∧ done q ≤ 1 := by
  rcases Nat.eq_zero_or_pos n with rfl | hn
  · intro q hq; cases hq
  · intro q hq
    have hN : 0 < n * nd := Nat.mul_pos hn hd
    obtain ⟨h1, h2⟩ := spectra_range nE nf nd n hE hf hd (setn (n * nd)) hN (by simp [setn]) q hq
    have hNq : (n * nd : ℚ) ≠ 0 := by exact_mod_cast hN.ne'
    simp [setn] at h1 h2
    rw [div_self hNq] at h2
    exact ⟨h1, h2⟩

/-- **C85.**  With one detector the part that is done never goes back. -/
theorem process_monotone (nE nf n : Nat) (hE : 0 < nE) (hf : 0 < nf) :
    (process nE nf 1 n).Pairwise fun a b => done a ≤ done b := by
  have hEf : 0 < nE * nf := Nat.mul_pos hE hf
  have key : ∀ (n : Nat) (p : Progress), 0 < p.nmax → p.ncurrent + n * 1 ≤ p.nmax →
      (spectra nE nf 1 n p).Pairwise fun a b => done a ≤ done b := by
    intro n
    induction n with
    | zero => intro p _ _; exact List.Pairwise.nil
    | succ n ih =>
      intro p hN h
      have hNq : (0 : ℚ) < p.nmax := by exact_mod_cast hN
      obtain ⟨e1, e2, e3, e4⟩ := detectors_eq nE nf 1 p
      simp only [spectra]
      have hs : ndone (detectors nE nf 1 p).2 1 = ⟨p.nmax, p.ncurrent + 1, nE * nf, 0⟩ := by
        simp only [ndone, e2, e3, e4 Nat.one_pos]
      rw [hs, e1]
      simp only [List.replicate_one, List.flatten_cons, List.flatten_nil, List.append_nil]
      have hd1 : done ⟨p.nmax, p.ncurrent + 1, nE * nf, 0⟩ = ((p.ncurrent + 1 : Nat) : ℚ) / p.nmax := by
        rw [done_state _ _ _ _ hN hEf]; simp
      have hrest : ∀ q ∈ spectra nE nf 1 n ⟨p.nmax, p.ncurrent + 1, nE * nf, 0⟩, ((p.ncurrent + 1 : Nat) : ℚ) / p.nmax ≤ done q :=
        fun q hq => (spectra_range nE nf 1 n hE hf Nat.one_pos ⟨p.nmax, p.ncurrent + 1, nE * nf, 0⟩ hN (by dsimp only; omega) q hq).1.le
      have hfine : ∀ j, (((j + 1) * nf : Nat) : ℚ) / ((nE * nf : Nat) : ℚ) = ((j + 1 : Nat) : ℚ) / nE := by
        intro j
        have h1 : (nf : ℚ) ≠ 0 := by exact_mod_cast hf.ne'
        push_cast
        rw [mul_div_mul_right _ _ h1]
      have hEq : (0 : ℚ) < nE := by exact_mod_cast hE
      rw [List.pairwise_append]
      refine ⟨?_, ?_, ?_⟩
      · rw [List.pairwise_map]
        refine List.Pairwise.imp ?_ List.pairwise_lt_range
        intro a b hab
        rw [done_state _ _ _ _ hN hEf, done_state _ _ _ _ hN hEf, hfine, hfine, div_le_div_iff_of_pos_right hNq]
        have : ((a + 1 : Nat) : ℚ) / nE ≤ ((b + 1 : Nat) : ℚ) / nE := by
          rw [div_le_div_iff_of_pos_right hEq]; exact_mod_cast (by omega : a + 1 ≤ b + 1)
        linarith
      · rw [List.pairwise_cons]
        refine ⟨fun q hq => by rw [hd1]; exact hrest q hq, ih _ hN (by dsimp only; omega)⟩
      · intro a ha b hb
        obtain ⟨j, hj, rfl⟩ := List.mem_map.mp ha
        have hj := List.mem_range.mp hj
        have ha' : done ⟨p.nmax, p.ncurrent, nE * nf, (j + 1) * nf⟩ ≤ ((p.ncurrent + 1 : Nat) : ℚ) / p.nmax := by
          rw [done_state _ _ _ _ hN hEf, hfine, div_le_div_iff_of_pos_right hNq]
          have : ((j + 1 : Nat) : ℚ) / nE ≤ 1 := by
            rw [div_le_one hEq]; exact_mod_cast hj
          push_cast at this ⊢; linarith
        refine le_trans ha' ?_
        rcases List.mem_cons.mp hb with rfl | hb
        · rw [hd1]
        · exact hrest b hb
  rcases Nat.eq_zero_or_pos n with rfl | hn
  · exact List.Pairwise.nil
  · exact key n (setn (n * 1)) (by simp [setn]; omega) (by simp [setn])

/-- **C85 (deviation).**  With two detectors it does. -/
theorem process_back : ¬ (process 2 1 2 1).Pairwise fun a b => done a ≤ done b := by
  intro h
  have hp : process 2 1 2 1 = [⟨2, 0, 2, 1⟩, ⟨2, 0, 2, 2⟩, ⟨2, 0, 2, 1⟩, ⟨2, 0, 2, 2⟩, ⟨2, 2, 2, 0⟩] := by decide
  rw [hp] at h
  have := (List.pairwise_cons.mp (List.pairwise_cons.mp h).2).1 ⟨2, 0, 2, 1⟩ (by simp)
  norm_num [done] at this

/-! ## Cases -/

example : execute (fun _ => false) 3 { jobs := [3, 7, 1] } = [.ran 2, .invalid 7, .ran 0] := by decide
example : execute (fun k => k == 1) 3 {} = [.ran 0, .ran 1, .error] := by decide
example : execute (fun _ => false) 3 { ajob := 2, bjob := 3 } = [.error] := by decide
example : hms 3725 = (1, 2, 5) := by
  rw [hms_spec _ (by norm_num)]; norm_num
example : hms (-61) = (0, -1, -1) := by
  have h : hms 61 = (0, 1, 1) := by rw [hms_spec _ (by norm_num)]; norm_num
  have := hms_neg 61 (by norm_num)
  rw [this, h]; rfl
example : process 2 3 1 1 = [⟨1, 0, 6, 3⟩, ⟨1, 0, 6, 6⟩, ⟨1, 1, 6, 0⟩] := by decide
example : 0 < done ⟨1, 0, 6, 3⟩ ∧ done ⟨1, 0, 6, 3⟩ ≤ 1 := by norm_num [done]

end SC.Jobs
