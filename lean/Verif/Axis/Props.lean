import Verif.Axis.Lemmas
import Mathlib.Tactic.NormNum
/-! # C24: axes report what their values are; simplification; nearest index -/
namespace SC.Axis

/-! ## specification -/

/-- The arithmetic progression of `n` points. -/
def prog (s h : Rat) (n : Nat) : List Rat := (List.range n).map fun (i : Nat) => s + i * h

/-! ## regular axes -/

theorem prog_length (s h : Rat) (n : Nat) : (prog s h n).length = n := by simp [prog]

theorem prog_get (s h : Rat) (n i : Nat) (hi : i < n) : (prog s h n).getD i 0 = s + i * h := by
  simp [prog, List.getD, hi]

theorem linspace_prog (s e : Rat) (n : Nat) (hn : 0 < n) :
    linspace s e (n + 1) = prog s ((e - s) / (n : Rat)) (n + 1) := by
  obtain ⟨m, rfl⟩ : ∃ m, n = m + 1 := ⟨n - 1, by omega⟩
  apply ext_getD
  · rw [linspace_length, prog_length]
  · intro i hi
    rw [linspace_length] at hi
    rw [linspace_get _ _ _ _ hi, prog_get _ _ _ _ hi]

/-- **C24.**  A regular axis of `n ≥ 1` steps: the values are the arithmetic progression with the
reported start, step and size, and the reported end is the last value. -/
theorem regular_consistent (s e : Rat) (n : Nat) (hn : 0 < n) :
    ∃ a, mkRegular s e n = some a ∧ a.start = s ∧ a.stop = e ∧ a.size = n + 1 ∧
      a.values = prog a.start a.step a.size.toNat ∧
      a.values.getLast? = some a.stop ∧ a.stop = a.start + n * a.step := by
  have hn' : (n : Rat) ≠ 0 := by positivity
  have hsz : ¬ ((n : Int) + 1 < 0) := by omega
  have hs1 : ¬ ((n : Int) + 1 = 1) := by omega
  have e1 : ((n : Int) + 1).toNat = n + 1 := by omega
  have e2 : (((n : Int) + 1 - 1 : Int) : Rat) = n := by push_cast; ring
  refine ⟨⟨s, e, (e - s) / n, n + 1, linspace s e (n + 1)⟩, ?_, rfl, rfl, rfl, ?_, ?_, ?_⟩
  · simp only [mkRegular, hsz, if_false, hs1, e1, e2]
  · simp only [e1]; exact linspace_prog s e n hn
  · obtain ⟨m, rfl⟩ : ∃ m, n = m + 1 := ⟨n - 1, by omega⟩
    simp [linspace]
  · simp only; field_simp; ring

/-- Without steps the end that is reported is not a value. -/
theorem regular_no_steps (s e : Rat) : mkRegular s e 0 = some ⟨s, e, 0, 1, [s]⟩ := rfl

/-- **C24.**  A regular axis given by its step: as above, for every number of steps. -/
theorem regularInc_consistent (s h : Rat) (n : Nat) :
    (mkRegularInc s h n).start = s ∧ (mkRegularInc s h n).step = h ∧ (mkRegularInc s h n).size = n + 1 ∧
      (mkRegularInc s h n).values = prog s h (n + 1) ∧
      (mkRegularInc s h n).values.getLast? = some (mkRegularInc s h n).stop := by
  have e1 : ((n : Int) + 1).toNat = n + 1 := by omega
  refine ⟨rfl, rfl, rfl, ?_, ?_⟩
  · simp only [mkRegularInc, e1, prog]
    apply List.map_congr_left
    intro i _; ring
  · simp only [mkRegularInc, e1, List.range_succ, List.map_append, List.map_cons, List.map_nil,
      List.getLast?_append, List.getLast?_singleton, Option.some_or]
    push_cast; congr 1; ring

/-- **C24.**  The two ways of giving a regular axis agree. -/
theorem regular_inc_agree (s e : Rat) (n : Nat) (hn : 0 < n) :
    mkRegular s e n = some (mkRegularInc s ((e - s) / n) n) := by
  obtain ⟨a, ha, h1, h2, h3, h4, _, h6⟩ := regular_consistent s e n hn
  obtain ⟨_, _, _, g4, _⟩ := regularInc_consistent s ((e - s) / n) n
  have hn' : (n : Rat) ≠ 0 := by positivity
  have hst : a.step = (e - s) / n := by
    rw [h1, h2] at h6
    rw [h6]; field_simp; ring
  rw [ha]
  congr 1
  obtain ⟨st, sp, sg, sz, vs⟩ := a
  simp only at h1 h2 h3 h4 h6 hst
  subst h1 h2 h3 hst
  have e1 : ((n : Int) + 1).toNat = n + 1 := by omega
  rw [e1, ← g4] at h4
  rw [h4]
  simp only [mkRegularInc, Reg.mk.injEq, true_and, and_true]
  push_cast; field_simp; ring

theorem number_consistent (s : Rat) :
    (mkNumber s).values = prog (mkNumber s).start (mkNumber s).step (mkNumber s).size.toNat ∧
      (mkNumber s).values.getLast? = some (mkNumber s).stop := by
  simp [mkNumber, prog]

/-- **C24.**  Setting the size or the number of steps keeps start and end (start and step), and sets
it. -/
theorem setSize_spec (s e : Rat) (n v : Nat) (hn : 0 < n) :
    ∃ a b, mkRegular s e n = some a ∧ a.setSize (v + 2) = some b ∧ b.start = a.start ∧ b.stop = a.stop ∧
      b.size = v + 2 ∧ b.values.length = v + 2 ∧ b.values.getLast? = some b.stop ∧
      a.setNsteps (v + 1) = some b := by
  obtain ⟨a, ha, h1, h2, _⟩ := regular_consistent s e n hn
  obtain ⟨b, hb, g1, g2, g3, g4, g5, _⟩ := regular_consistent s e (v + 1) (by omega)
  refine ⟨a, b, ha, ?_, by rw [g1, h1], by rw [g2, h2], by rw [g3]; push_cast; ring, ?_, g5, ?_⟩
  · rw [Reg.setSize, h1, h2, ← hb]; congr 1; push_cast; ring
  · rw [g4, prog_length, g3]; omega
  · rw [Reg.setNsteps, h1, h2, ← hb]; congr 1

theorem incSize_spec (s h : Rat) (n v : Nat) :
    let b := (mkRegularInc s h n).incSize (v + 1)
    b.start = s ∧ b.step = h ∧ b.size = v + 1 ∧ b.values = prog s h (v + 1) ∧
      (mkRegularInc s h n).incNsteps v = b := by
  have e : ((v : Int) + 1 - 1) = (v : Int) := by ring
  simp only [Reg.incSize, Reg.incNsteps, e]
  obtain ⟨_, _, _, g4, _⟩ := regularInc_consistent s h v
  exact ⟨rfl, rfl, rfl, g4, trivial⟩

/-- Where the code departs: setting the start or the end (the start or the step) of any regular axis
gives it one point more, since the size is passed as number of steps. -/
theorem setStart_grows (s e v : Rat) (n : Nat) :
    ∃ a b c, mkRegular s e n = some a ∧ a.setStart v = some b ∧ a.setStop v = some c ∧
      b.size = a.size + 1 ∧ c.size = a.size + 1 ∧ b.values.length = a.values.length + 1 := by
  have hsz : ¬ ((n : Int) + 1 < 0) := by omega
  have hsz' : ¬ ((n : Int) + 1 + 1 < 0) := by omega
  have e1 : ((n : Int) + 1).toNat = n + 1 := by omega
  have e2 : ((n : Int) + 1 + 1).toNat = n + 2 := by omega
  refine ⟨_, _, _, by rw [mkRegular, if_neg hsz], by rw [Reg.setStart, mkRegular, if_neg hsz'],
    by rw [Reg.setStop, mkRegular, if_neg hsz'], rfl, rfl, ?_⟩
  simp [linspace_length, e1, e2]

theorem incStart_grows (s h v : Rat) (n : Nat) :
    ((mkRegularInc s h n).incStart v).size = (mkRegularInc s h n).size + 1 ∧
      ((mkRegularInc s h n).incStep v).size = (mkRegularInc s h n).size + 1 := ⟨rfl, rfl⟩

/-- **C24.**  Pixel centres: `npixels` pixels of equal size that fill the range exactly. -/
theorem zapscan_spec (s e : Rat) (n : Nat) (hn : 0 < n) :
    ∃ a, zapscan s e n = some a ∧ a.size = n ∧ a.step = (e - s) / n ∧
      a.values = prog (s + a.step / 2) a.step n ∧ a.start - a.step / 2 = s ∧ a.stop + a.step / 2 = e := by
  obtain ⟨m, rfl⟩ : ∃ m, n = m + 1 := ⟨n - 1, by omega⟩
  have h0 : ¬ (((m + 1 : Nat) : Int) = 0) := by omega
  have e1 : ((m + 1 : Nat) : Int) - 1 = (m : Int) := by push_cast; ring
  have hne : ((m : Rat) + 1) ≠ 0 := by positivity
  refine ⟨mkRegularInc (s + (e - s) / ((m + 1 : Nat) : Rat) / 2) ((e - s) / ((m + 1 : Nat) : Rat)) m, ?_, ?_, rfl, ?_, ?_, ?_⟩
  · simp only [zapscan, h0, if_false, e1, Int.cast_natCast]
  · simp [mkRegularInc]
  · exact (regularInc_consistent _ _ m).2.2.2.1
  · simp [mkRegularInc]
  · simp only [mkRegularInc]; push_cast; field_simp; ring

theorem ascan_spec (s e : Rat) (n : Nat) (hn : 0 < n) :
    ∃ a, ascan s e n = some a ∧ a.size = n + 1 ∧ a.values = prog s ((e - s) / n) (n + 1) ∧
      a.values.getLast? = some e := by
  refine ⟨mkRegularInc s ((e - s) / n) n, regular_inc_agree s e n hn, rfl, (regularInc_consistent _ _ n).2.2.2.1, ?_⟩
  rw [(regularInc_consistent _ _ n).2.2.2.2]
  have hne : (n : Rat) ≠ 0 := by positivity
  simp only [mkRegularInc]; push_cast; congr 1; field_simp; ring

/-! ## segmented axes -/

theorem segLoop_spec : ∀ (ns : List Nat) (ls : List Rat), ls.length = ns.length + 1 → (∀ n ∈ ns, 0 < n) →
    ∃ v s, segLoop ls (ns.map Int.ofNat) = some (v, s) ∧ v.length = ns.sum + 1 ∧ s.length = ns.length ∧
      (∀ k, k ≤ ns.length → v.getD (ns.take k).sum 0 = ls.getD k 0) ∧
      (∀ k, k < ns.length → s.getD k 0 = (ls.getD (k + 1) 0 - ls.getD k 0) / ns.getD k 0 ∧
        ∀ j, j < ns.getD k 0 → v.getD ((ns.take k).sum + j + 1) 0 - v.getD ((ns.take k).sum + j) 0 = s.getD k 0) := by
  intro ns
  induction ns with
  | nil =>
    intro ls hl _
    match ls, hl with
    | [e], _ => exact ⟨[e], [], rfl, rfl, rfl, by simp, by simp⟩
  | cons n ns ih =>
    intro ls hl hp
    match ls, hl with
    | a :: b :: ls, hl =>
      obtain ⟨v, s, h1, h2, h3, h4, h5⟩ := ih (b :: ls) (by simpa using hl) (fun n hn => hp n (by simp [hn]))
      have hn : 0 < n := hp n (by simp)
      have hn' : (n : Rat) ≠ 0 := by positivity
      have hz : ¬ (Int.ofNat n = 0) := by simp; omega
      have hv0 : v.getD 0 0 = b := by simpa using h4 0 (by omega)
      refine ⟨((List.range n).map fun (j : Nat) => a + ((b - a) / n) * j) ++ v, ((b - a) / n) :: s, ?_, ?_, ?_, ?_, ?_⟩
      · simp only [List.map_cons, segLoop, hz, if_false, h1]
        simp
      · simp [h2]; omega
      · simp [h3]
      · intro k hk
        cases k with
        | zero => simp [List.getD, List.getElem?_append, hn]
        | succ k =>
          have := h4 k (by simpa using hk)
          simp only [List.take_succ_cons, List.sum_cons, List.getD_cons_succ, ← this]
          simp [List.getD, List.getElem?_append]
      · intro k hk
        have hlow : ∀ j, j < n → (((List.range n).map fun (j : Nat) => a + ((b - a) / n) * j) ++ v).getD j 0 =
            a + ((b - a) / n) * j := by
          intro j hj; simp [List.getD, List.getElem?_append, hj]
        have hhigh : ∀ j, (((List.range n).map fun (j : Nat) => a + ((b - a) / n) * j) ++ v).getD (n + j) 0 =
            v.getD j 0 := by
          intro j; simp [List.getD, List.getElem?_append]
        cases k with
        | zero =>
          refine ⟨by simp, ?_⟩
          intro j hj
          simp only [List.getD_cons_zero] at hj
          simp only [List.take_zero, List.sum_nil, Nat.zero_add, List.getD_cons_zero]
          rw [hlow j hj]
          by_cases hj1 : j + 1 < n
          · rw [hlow _ hj1]; push_cast; ring
          · have e : j + 1 = n + 0 := by omega
            rw [e, hhigh, hv0]
            have : (j : Rat) = n - 1 := by
              have : (n : Rat) = j + 1 := by exact_mod_cast (by omega : n = j + 1)
              rw [this]; ring
            rw [this]; field_simp; ring
        | succ k =>
          obtain ⟨g1, g2⟩ := h5 k (by simpa using hk)
          refine ⟨by simpa using g1, ?_⟩
          intro j hj
          simp only [List.getD_cons_succ] at hj ⊢
          simp only [List.take_succ_cons, List.sum_cons]
          have e1 : n + (ns.take k).sum + j + 1 = n + ((ns.take k).sum + j + 1) := by omega
          have e2 : n + (ns.take k).sum + j = n + ((ns.take k).sum + j) := by omega
          rw [e1, e2, hhigh, hhigh]
          exact g2 j hj

/-- **C24.**  A segmented axis with positive numbers of steps: the limits are the values at the joints,
inside of a segment the values are equally spaced by the reported step, and the size is the number of
steps plus one. -/
theorem segments_consistent (ns : List Nat) (ls : List Rat) (hne : ns ≠ []) (hl : ls.length = ns.length + 1)
    (hp : ∀ n ∈ ns, 0 < n) :
    ∃ a, mkSegments ls (ns.map Int.ofNat) = some a ∧ a.limits = ls ∧ a.nsteps = ns.map Int.ofNat ∧
      a.values.length = ns.sum + 1 ∧ a.steps.length = ns.length ∧
      (∀ k, k ≤ ns.length → a.values.getD (ns.take k).sum 0 = ls.getD k 0) ∧
      (∀ k, k < ns.length → ∀ j, j < ns.getD k 0 →
        a.values.getD ((ns.take k).sum + j + 1) 0 - a.values.getD ((ns.take k).sum + j) 0 = a.steps.getD k 0) ∧
      (Ax.segments a).startStep = some (a.values.getD 1 0 - a.values.getD 0 0) := by
  obtain ⟨v, s, h1, h2, h3, h4, h5⟩ := segLoop_spec ns ls hl hp
  refine ⟨⟨ls, ns.map Int.ofNat, s, v⟩, ?_, rfl, rfl, h2, h3, h4, fun k hk => (h5 k hk).2, ?_⟩
  · simp [mkSegments, hne, h1]
  · have hlen : 0 < ns.length := List.length_pos_iff.2 hne
    obtain ⟨n, ns', rfl⟩ := List.exists_cons_of_ne_nil hne
    have := (h5 0 hlen).2 0 (by simpa using hp n (by simp))
    simp only [List.take_zero, List.sum_nil, Nat.zero_add] at this
    rw [this]
    match s, h3 with
    | x :: s, _ => simp [Ax.startStep]

/-- The end step is right for two segments ... -/
theorem segments_endStep_two (n m : Nat) (a b c : Rat) (hn : 0 < n) (hm : 0 < m) :
    ∃ s, mkSegments [a, b, c] [Int.ofNat n, Int.ofNat m] = some s ∧
      (Ax.segments s).endStep = lastStep s.values := by
  obtain ⟨s, h1, h2, h3, h4, h5, h6, h7, _⟩ := segments_consistent [n, m] [a, b, c] (by simp) (by simp)
    (by intro k hk; simp at hk; omega)
  refine ⟨s, by simpa using h1, ?_⟩
  have h := h7 1 (by simp) (m - 1) (by simp; omega)
  simp only [List.take_succ_cons, List.take_zero, List.sum_cons, List.sum_nil, Nat.add_zero] at h
  simp only [List.sum_cons, List.sum_nil, Nat.add_zero] at h4
  have e1 : n + (m - 1) + 1 = n + m := by omega
  rw [e1] at h
  have hs1 : (Ax.segments s).endStep = some (s.steps.getD 1 0) := by
    simp [Ax.endStep, List.getD, h5]
  rw [hs1, ← h]
  have hl : ∀ v : List Rat, ∀ k, v.length = k + 2 → lastStep v = some (v.getD (k + 1) 0 - v.getD k 0) := by
    intro v k hv
    have hr : v.reverse.length = k + 2 := by simpa using hv
    match hvr : v.reverse, hr with
    | x :: y :: r, hr =>
      have : v = r.reverse ++ [y, x] := by
        rw [← List.reverse_reverse v, hvr]; simp
      have hrl : r.reverse.length = k := by simp at hr ⊢; omega
      rw [lastStep, hvr, this]
      have ha : (r.reverse ++ [y, x]).getD (k + 1) 0 = x := by
        rw [← hrl]; simp [List.getD, List.getElem?_append]
      have hb : (r.reverse ++ [y, x]).getD k 0 = y := by
        rw [← hrl]; simp [List.getD, List.getElem?_append]
      rw [ha, hb]
  rw [hl s.values (n + m - 1) (by omega)]
  congr 2
  · congr 1; omega
  · congr 1; omega

/-- ... but not for three, and for one it raises. -/
theorem segments_endStep_wrong :
    (∃ s, mkSegments [0, 1, 3, 6] [1, 1, 1] = some s ∧ (Ax.segments s).endStep = some 2 ∧
      lastStep s.values = some 3) ∧
    (∃ s, mkSegments [0, 1] [1] = some s ∧ (Ax.segments s).endStep = none) := by
  refine ⟨⟨_, rfl, ?_, ?_⟩, ⟨_, rfl, ?_⟩⟩
  · norm_num [Ax.endStep]
  · norm_num [lastStep]
  · norm_num [Ax.endStep]

theorem roundEven_int (n : Int) : roundEven (n : Rat) = n := by
  simp [roundEven]

/-- **C24.**  Python's round is within one half. -/
theorem roundEven_near (q : Rat) : |(roundEven q : Rat) - q| ≤ 1 / 2 := by
  have h1 := Int.floor_le q
  have h2 := Int.lt_floor_add_one q
  unfold roundEven
  simp only
  rw [abs_le]
  split
  · constructor <;> linarith
  · split
    · push_cast; constructor <;> linarith
    · split
      · constructor <;> linarith
      · push_cast; constructor <;> linarith

/-- **C24.**  Setting step sizes that divide the segments keeps the limits and gives these step
sizes. -/
theorem setSteps_exact (ns : List Nat) (ls : List Rat) (s0 : Seg) (hs0 : s0.limits = ls) (hne : ns ≠ [])
    (hl : ls.length = ns.length + 1) (hp : ∀ n ∈ ns, 0 < n)
    (hd : ∀ k, k < ns.length → ls.getD (k + 1) 0 ≠ ls.getD k 0) (hs : List Rat) (hhl : hs.length = ns.length)
    (hh : ∀ k, k < ns.length → hs.getD k 0 = (ls.getD (k + 1) 0 - ls.getD k 0) / ns.getD k 0) :
    ∃ a, s0.setSteps hs = some a ∧ a.limits = ls ∧ a.nsteps = ns.map Int.ofNat ∧ a.steps = hs := by
  have key : ∀ (ns : List Nat) (ls hs : List Rat), ls.length = ns.length + 1 → (∀ n ∈ ns, 0 < n) →
      (∀ k, k < ns.length → ls.getD (k + 1) 0 ≠ ls.getD k 0) → hs.length = ns.length →
      (∀ k, k < ns.length → hs.getD k 0 = (ls.getD (k + 1) 0 - ls.getD k 0) / ns.getD k 0) →
      stepCounts ls hs = some (ns.map Int.ofNat) := by
    intro ns
    induction ns with
    | nil => intro ls hs _ _ _ h _; rw [List.length_eq_zero_iff.1 h]; cases ls <;> rfl
    | cons n ns ih =>
      intro ls hs hl hp hd hhl hh
      match ls, hl, hs, hhl with
      | a :: b :: ls, hl, h :: hs, hhl =>
        have hn : 0 < n := hp n (by simp)
        have hn' : (n : Rat) ≠ 0 := by positivity
        have hab : b - a ≠ 0 := sub_ne_zero.2 (by simpa using hd 0 (by simp))
        have hh0 : h = (b - a) / n := by simpa using hh 0 (by simp)
        have hz : ¬ h = 0 := by rw [hh0]; exact div_ne_zero hab hn'
        have hq : (b - a) / h = ((n : Int) : Rat) := by rw [hh0]; push_cast; field_simp
        have := ih (b :: ls) hs (by simpa using hl) (fun n hn => hp n (by simp [hn]))
          (fun k hk => by simpa using hd (k + 1) (by simpa using hk)) (by simpa using hhl)
          (fun k hk => by simpa using hh (k + 1) (by simpa using hk))
        simp only [stepCounts, hz, if_false, this, hq, roundEven_int]; simp
  obtain ⟨v, s, h1, h2, h3, h4, h5⟩ := segLoop_spec ns ls hl hp
  refine ⟨⟨ls, ns.map Int.ofNat, s, v⟩, ?_, rfl, rfl, ?_⟩
  · rw [Seg.setSteps, hs0, key ns ls hs hl hp hd hhl hh]
    simp [mkSegments, hne, h1]
  · apply ext_getD (by simp only; omega)
    intro i hi
    simp only at hi ⊢
    rw [(h5 i (by omega)).1, hh i (by omega)]

/-! ## simplification -/

theorem mkRegular_values (s e : Rat) (n : Nat) (hn : 0 < n) :
    ∃ a, mkRegular s e n = some a ∧ a.values.length = n + 1 ∧ a.stop = e ∧ a.start = s ∧
      ∀ i, i < n + 1 → a.values.getD i 0 = s + i * ((e - s) / n) := by
  refine ⟨mkRegularInc s ((e - s) / n) n, regular_inc_agree s e n hn, ?_, ?_, rfl, ?_⟩
  · rw [(regularInc_consistent _ _ n).2.2.2.1, prog_length]
  · have hn' : (n : Rat) ≠ 0 := by positivity
    simp only [mkRegularInc]; push_cast; field_simp; ring
  · intro i hi
    rw [(regularInc_consistent _ _ n).2.2.2.1, prog_get _ _ _ _ hi]

theorem getLastD_getD (xs : List Rat) : xs.getLastD 0 = xs.getD (xs.length - 1) 0 := by
  rw [List.getLastD_eq_getLast?, List.getLast?_eq_getElem?]; rfl

/-- **C24.**  Simplifying never fails on a non-empty axis, keeps the number of values, and no value
moves by more than `precision * (n - 1)^2 / 8`. -/
theorem simplify_close (p : Rat) (hp : 0 ≤ p) (xs : List Rat) (hx : xs ≠ []) :
    ∃ a, simplify p xs = some a ∧ a.values.length = xs.length ∧
      ∀ i, i < xs.length → |a.values.getD i 0 - xs.getD i 0| ≤ p * ((xs.length - 1 : Nat) : Rat) ^ 2 / 8 := by
  match xs, hx with
  | [x], _ =>
    refine ⟨_, rfl, rfl, ?_⟩
    intro i hi
    simp only [List.length_singleton, Nat.lt_one_iff] at hi
    subst hi
    simp [Ax.values, mkNumber]
  | [x, y], _ =>
    obtain ⟨a, h1, h2, _, _, h3⟩ := mkRegular_values x y 1 (by omega)
    refine ⟨.regular a, ?_, h2, ?_⟩
    · have h1' : mkRegular x y 1 = some a := h1
      simp [simplify, h1']
    · intro i hi
      have h3 := h3 i hi
      have : i = 0 ∨ i = 1 := by simp at hi; omega
      simp only [Ax.values, h3]
      rcases this with rfl | rfl
      · simp; positivity
      · simp; positivity
  | x :: y :: z :: xs, _ =>
    generalize hl : x :: y :: z :: xs = l
    have hlen : 3 ≤ l.length := by rw [← hl]; simp
    have hx0 : l.getD 0 0 = x := by rw [← hl]; rfl
    have hsimp : simplify p l = if (secondDiff l).all (fun d => decide (d ≤ p)) then
        (mkRegular x (l.getLastD 0) (l.length - 1)).map .regular
      else if 3 * ((cuts p l).length - 1) < l.length then
        (mkSegments ((cuts p l).map fun (i : Nat) => l.getD i 0) (diff ((cuts p l).map Int.ofNat))).map .segments
      else some (.plain l) := by rw [← hl]; rfl
    rw [hsimp]
    split
    · rename_i hall
      obtain ⟨a, h1, h2, _, _, h3⟩ := mkRegular_values x (l.getLastD 0) (l.length - 1) (by omega)
      refine ⟨.regular a, ?_, by simp only [Ax.values, h2]; omega, ?_⟩
      · have e : ((l.length : Int) - 1) = ((l.length - 1 : Nat) : Int) := by omega
        rw [e, h1]; rfl
      · intro i hi
        simp only [Ax.values]
        rw [h3 i (by omega), getLastD_getD, ← hx0]
        have := lin_bound (fun i => l.getD i 0) (l.length - 1) (by omega) p (by
          intro i hi0 hi1
          have hs := secondDiff_get l (i - 1) (by omega)
          rw [show i - 1 + 2 = i + 1 by omega, show i - 1 + 1 = i by omega] at hs
          rw [← hs]
          rw [List.all_eq_true] at hall
          have hm : (secondDiff l).getD (i - 1) 0 ∈ secondDiff l := by
            have : i - 1 < (secondDiff l).length := by rw [secondDiff_length]; omega
            simp [List.getD, this]
          simpa using hall _ hm) i (by omega)
        exact le_trans this (parabola hp)
    · split
      · have hcs := cuts_sorted p l (by omega)
        obtain ⟨rest, hrest⟩ : ∃ rest, cuts p l = 0 :: rest := ⟨bends p l ++ [l.length - 1], by simp [cuts]⟩
        have hmem : ∀ i, i ∉ rest → 0 < i → i + 1 < l.length → i ∉ bends p l := by
          intro i hi _ _ hb
          apply hi
          have : rest = bends p l ++ [l.length - 1] := by
            have : cuts p l = 0 :: (bends p l ++ [l.length - 1]) := by simp [cuts]
            rw [hrest] at this
            exact (List.cons.inj this).2
          rw [this]; simp [hb]
        have hlast : (0 :: rest).getLastD 0 = l.length - 1 := by
          rw [← hrest, cuts, List.getLastD_eq_getLast?, List.getLast?_append]; simp
        have hrne : rest ≠ [] := by
          intro h0
          rw [h0] at hlast
          have : ([0] : List Nat).getLastD 0 = 0 := rfl
          omega
        rw [hrest]
        rw [hrest] at hcs
        obtain ⟨v, s, h1, h2, h3, h4⟩ := seg_bound (fun i => l.getD i 0) p hp (l.length - 1) rest 0 hcs
          (by rw [hlast]; omega) (by
            intro i hi0 hi1 hn
            rw [hlast] at hi1
            have hb := hmem i hn hi0 (by omega)
            rw [mem_bends] at hb
            by_contra hc
            exact hb ⟨hi0, by omega, not_le.1 hc⟩)
        rw [hlast] at h3
        have hdne : diff ((0 :: rest).map Int.ofNat) ≠ [] := by
          obtain ⟨b, r, rfl⟩ := List.exists_cons_of_ne_nil hrne
          simp [diff]
        refine ⟨.segments ⟨(0 :: rest).map (fun i => l.getD i 0), diff ((0 :: rest).map Int.ofNat), s, v⟩, ?_, ?_, ?_⟩
        · rw [mkSegments, if_neg hdne, h1]; rfl
        · simp only [Ax.values]; omega
        · intro i hi
          have := h4 i (by omega)
          simpa [Ax.values] using this
      · refine ⟨_, rfl, rfl, ?_⟩
        intro i hi
        simp only [Ax.values, sub_self, abs_zero]
        positivity

/-- **C24.**  With the default precision (zero) simplifying keeps every value. -/
theorem simplify_exact (xs : List Rat) (hx : xs ≠ []) :
    ∃ a, simplify 0 xs = some a ∧ a.values = xs := by
  obtain ⟨a, h1, h2, h3⟩ := simplify_close 0 (le_refl 0) xs hx
  refine ⟨a, h1, ext_getD h2 ?_⟩
  intro i hi
  have := h3 i (by omega)
  simp only [zero_mul, zero_div, abs_nonpos_iff, sub_eq_zero] at this
  exact this

/-- Where the code departs: with a precision the values may move by more than the precision (here by
four times it). -/
theorem simplify_moves :
    simplify 1 [0, 0, 1, 3, 6, 10, 15] = (mkRegular 0 15 6).map .regular ∧
      |(0 : Rat) + 3 * ((15 - 0) / 6) - 3| = 9 / 2 := by
  constructor
  · norm_num [simplify, secondDiff, diff]
  · norm_num

theorem simplify_empty (p : Rat) : simplify p [] = none := rfl

/-! ## nearest index -/

theorem argmin_spec : ∀ (xs : List Rat), xs ≠ [] → ∃ i, argmin xs = some i ∧ i < xs.length ∧
    (∀ j, j < xs.length → xs.getD i 0 ≤ xs.getD j 0) ∧ (∀ j, j < i → xs.getD i 0 < xs.getD j 0) := by
  intro xs
  induction xs with
  | nil => intro h; exact absurd rfl h
  | cons x xs ih =>
    intro _
    by_cases hxs : xs = []
    · subst hxs
      refine ⟨0, rfl, by simp, ?_, by simp⟩
      intro j hj
      simp at hj; subst hj; exact le_refl _
    · obtain ⟨i, h1, h2, h3, h4⟩ := ih hxs
      simp only [argmin, h1]
      split
      · rename_i hle
        refine ⟨0, rfl, by simp, ?_, by simp⟩
        intro j hj
        cases j with
        | zero => exact le_refl _
        | succ j =>
          have := h3 j (by simpa using hj)
          simp only [List.getD_cons_zero, List.getD_cons_succ]
          exact le_trans hle this
      · rename_i hlt
        rw [not_le] at hlt
        refine ⟨i + 1, rfl, by simpa using h2, ?_, ?_⟩
        · intro j hj
          cases j with
          | zero => simpa using le_of_lt hlt
          | succ j => simpa using h3 j (by simpa using hj)
        · intro j hj
          cases j with
          | zero => simpa using hlt
          | succ j => simpa using h4 j (by omega)

/-- **C24.**  The nearest-index lookup gives a valid index of a value at the smallest distance, the
first of them. -/
theorem closest_spec (xs : List Rat) (v : Rat) (hx : xs ≠ []) :
    ∃ i, closest xs v = some i ∧ i < xs.length ∧
      (∀ j, j < xs.length → |xs.getD i 0 - v| ≤ |xs.getD j 0 - v|) ∧
      (∀ j, j < i → |xs.getD i 0 - v| < |xs.getD j 0 - v|) := by
  obtain ⟨i, h1, h2, h3, h4⟩ := argmin_spec (xs.map fun x => |x - v|) (by simpa using hx)
  rw [List.length_map] at h2 h3
  have hg : ∀ j, j < xs.length → (xs.map fun x => |x - v|).getD j 0 = |xs.getD j 0 - v| := by
    intro j hj; simp [List.getD, hj]
  refine ⟨i, h1, h2, ?_, ?_⟩
  · intro j hj; have := h3 j hj; rwa [hg i h2, hg j hj] at this
  · intro j hj; have := h4 j hj; rwa [hg i h2, hg j (by omega)] at this

/-- **C24.**  A value of the axis is found where it is (at its first position). -/
theorem closest_self (xs : List Rat) (k : Nat) (hk : k < xs.length) :
    ∃ i, closest xs (xs.getD k 0) = some i ∧ i ≤ k ∧ xs.getD i 0 = xs.getD k 0 := by
  obtain ⟨i, h1, h2, h3, h4⟩ := closest_spec xs (xs.getD k 0) (by rintro rfl; simp at hk)
  refine ⟨i, h1, ?_, ?_⟩
  · by_contra hc
    have := h4 k (by omega)
    simp only [sub_self, abs_zero] at this
    exact absurd this (not_lt.2 (abs_nonneg _))
  · have := h3 k hk
    simp only [sub_self, abs_zero, abs_nonpos_iff] at this
    linarith [sub_eq_zero.1 this]

theorem closest_empty (v : Rat) : closest [] v = none := rfl

/-- **C24.**  The lookup of strings gives the first position of the largest ratio, whatever the ratio
function (0 when no ratio is positive). -/
theorem closestString_spec {α : Type} (ratio : α → Rat) (xs : List α) (hr : ∀ x ∈ xs, 0 ≤ ratio x)
    (hx : xs ≠ []) :
    closestString ratio xs < xs.length ∧
      ∀ (i j : Nat) x y, closestString ratio xs = i → xs[i]? = some x → xs[j]? = some y →
        ratio y ≤ ratio x ∧ (j < i → ratio y < ratio x) := by
  have key : ∀ (xs : List α) (i j : Nat) (r : Rat), (∀ x ∈ xs, 0 ≤ ratio x) →
      (closestStringLoop ratio i j r xs = j ∧ ∀ x ∈ xs, ratio x ≤ r) ∨
      ∃ k x, closestStringLoop ratio i j r xs = i + k ∧ xs[k]? = some x ∧ r < ratio x ∧
        ∀ (l : Nat) y, xs[l]? = some y → ratio y ≤ ratio x ∧ (l < k → ratio y < ratio x) := by
    intro xs
    induction xs with
    | nil => intro i j r _; exact Or.inl ⟨rfl, by simp⟩
    | cons x xs ih =>
      intro i j r hr
      simp only [closestStringLoop]
      split
      · rename_i hlt
        rcases ih (i + 1) i (ratio x) (fun y hy => hr y (by simp [hy])) with ⟨h1, h2⟩ | ⟨k, z, h1, h2, h3, h4⟩
        · right
          refine ⟨0, x, by rw [h1]; rfl, by simp, hlt, ?_⟩
          intro l y hl
          cases l with
          | zero => simp at hl; subst hl; exact ⟨le_refl _, by omega⟩
          | succ l => exact ⟨h2 y (List.mem_of_getElem? (by simpa using hl)), by omega⟩
        · right
          refine ⟨k + 1, z, by rw [h1]; omega, by simpa using h2, lt_trans hlt h3, ?_⟩
          intro l y hl
          cases l with
          | zero => simp at hl; subst hl; exact ⟨le_of_lt h3, fun _ => h3⟩
          | succ l =>
            obtain ⟨g1, g2⟩ := h4 l y (by simpa using hl)
            exact ⟨g1, fun h => g2 (by omega)⟩
      · rename_i hge
        rw [not_lt] at hge
        rcases ih (i + 1) j r (fun y hy => hr y (by simp [hy])) with ⟨h1, h2⟩ | ⟨k, z, h1, h2, h3, h4⟩
        · left
          refine ⟨h1, ?_⟩
          intro y hy
          rcases List.mem_cons.1 hy with rfl | hy
          · exact hge
          · exact h2 y hy
        · right
          refine ⟨k + 1, z, by rw [h1]; omega, by simpa using h2, h3, ?_⟩
          intro l y hl
          cases l with
          | zero => simp at hl; subst hl; exact ⟨le_trans hge (le_of_lt h3), fun _ => lt_of_le_of_lt hge h3⟩
          | succ l =>
            obtain ⟨g1, g2⟩ := h4 l y (by simpa using hl)
            exact ⟨g1, fun h => g2 (by omega)⟩
  rcases key xs 0 0 0 hr with ⟨h1, h2⟩ | ⟨k, z, h1, h2, h3, h4⟩
  · refine ⟨by rw [closestString, h1]; exact List.length_pos_iff.2 hx, ?_⟩
    intro i j x y hi hxi hyj
    rw [closestString, h1] at hi
    refine ⟨le_trans (h2 y (List.mem_of_getElem? hyj)) (hr x (List.mem_of_getElem? hxi)), by omega⟩
  · rw [closestString, h1, Nat.zero_add]
    refine ⟨(List.getElem?_eq_some_iff.1 h2).1, ?_⟩
    intro i j x y hi hxi hyj
    subst hi
    rw [h2, Option.some.injEq] at hxi
    subst hxi
    exact h4 j y hyj

/-- **C24.**  The lookup of categories gives the first position of the value and fails exactly when it
is missing. -/
theorem argIndex_spec {α : Type} [DecidableEq α] (xs : List α) (v : α) :
    (argIndex xs v = none ↔ v ∉ xs) ∧
      ∀ i, argIndex xs v = some i → xs[i]? = some v ∧ ∀ (j : Nat), j < i → xs[j]? ≠ some v := by
  induction xs with
  | nil => simp [argIndex]
  | cons x xs ih =>
    by_cases hx : x = v
    · subst hx; simp [argIndex]
    · simp only [argIndex, hx, if_false]
      constructor
      · rw [Option.map_eq_none_iff, ih.1]; simp [Ne.symm hx]
      · intro i hi
        rw [Option.map_eq_some_iff] at hi
        obtain ⟨k, hk, rfl⟩ := hi
        obtain ⟨g1, g2⟩ := ih.2 k hk
        refine ⟨by simpa using g1, ?_⟩
        intro j hj
        cases j with
        | zero => simpa using hx
        | succ j => simpa using g2 j (by omega)

end SC.Axis
