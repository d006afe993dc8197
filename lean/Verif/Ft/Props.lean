import Verif.Ft.Lemmas
/-! # C32: Fourier index conventions -/
namespace SC.Ft
open SC.Numpy

/-- The frequencies of `n` points: one of the two of largest size is left out when `n` is even. -/
def InRange (n : Nat) : Conv → Int → Prop
  | .numpy, m => -(n : Int) ≤ 2 * m ∧ 2 * m < n
  | .idl, m => -(n : Int) < 2 * m ∧ 2 * m ≤ n

/-- C32: `fft_freqind` gives the first and last of these frequencies. -/
theorem freqind_spec (n : Nat) (c : Conv) (m : Int) :
    InRange n c m ↔ (freqind n c).1 ≤ m ∧ m ≤ (freqind n c).2 := by
  cases c <;> simp only [InRange, freqind] <;> omega

/-- C32: in the order with zero first, frequency `m` is at index `k` exactly when it is congruent to `k`:
index and frequency determine each other. -/
theorem freqs_spec (n : Nat) (c : Conv) :
    ∃ l, freqs n false c = some l ∧ l.length = n ∧
      ∀ (k : Nat) (m : Int), l[k]? = some m ↔ k < n ∧ m % n = k ∧ InRange n c m := by
  rcases Nat.eq_zero_or_pos n with h | h
  · subst h
    refine ⟨[], by cases c <;> decide, rfl, ?_⟩
    intro k m; simp
  · have hb := freqind_bounds n h c
    have hs := freqind_sum n c
    obtain ⟨q, hq⟩ := Int.eq_ofNat_of_zero_le hb.2
    have e : (freqind n c).2 + 1 = ((q + 1 : Nat) : Int) := by omega
    have hl : (freqs n false c) = some (arange 0 ((freqind n c).2 + 1) ++ arange (freqind n c).1 0) := by
      unfold freqs
      simp only [Bool.false_eq_true, if_false, e]
      exact fill_exact (by omega) (by rw [arange_length]; omega) (by rw [arange_length]; omega)
    refine ⟨_, hl, by rw [List.length_append, arange_length, arange_length]; omega, ?_⟩
    intro k m
    rw [freqind_spec]
    by_cases hk : k < q + 1
    · rw [List.getElem?_append_left (by rw [arange_length]; omega), arange_zero_left _ (by omega)]
      constructor
      · intro hm
        have hm : (k : Int) = m := by simpa using hm
        subst hm
        exact ⟨by omega, Int.emod_eq_of_lt (by omega) (by omega), by omega, by omega⟩
      · rintro ⟨h1, h2, h3, h4⟩
        congr 1
        rcases lt_or_ge m 0 with hm | hm
        · have : m % n = m + n := by
            rw [← Int.add_emod_right, Int.emod_eq_of_lt (by omega) (by omega)]
          omega
        · rw [Int.emod_eq_of_lt hm (by omega)] at h2; omega
    · rw [List.getElem?_append_right (by rw [arange_length]; omega), arange_length]
      by_cases hkn : k < n
      · rw [arange_get _ _ (by omega)]
        constructor
        · intro hm
          have hm : m = k - n := by simp at hm; omega
          subst hm
          refine ⟨hkn, ?_, by omega, by omega⟩
          rw [Int.sub_emod_right, Int.emod_eq_of_lt (by omega) (by omega)]
        · rintro ⟨h1, h2, h3, h4⟩
          congr 1
          rcases lt_or_ge m 0 with hm | hm
          · have : m % n = m + n := by
              rw [← Int.add_emod_right, Int.emod_eq_of_lt (by omega) (by omega)]
            omega
          · rw [Int.emod_eq_of_lt hm (by omega)] at h2; omega
      · rw [List.getElem?_eq_none (by rw [arange_length]; omega)]
        constructor
        · intro h; cases h
        · rintro ⟨h1, _⟩; omega

/-- C32: every residue is the frequency of exactly one index, and no frequency occurs twice. -/
theorem freqs_cover (n : Nat) (h : 0 < n) (c : Conv) :
    ∃ l, freqs n false c = some l ∧ l.Nodup ∧ (∀ m, m ∈ l ↔ InRange n c m) ∧
      ∀ m : Int, ∃! x, x ∈ l ∧ x % n = m % n := by
  obtain ⟨l, hl, hlen, hspec⟩ := freqs_spec n c
  refine ⟨l, hl, ?_, ?_, ?_⟩
  · rw [List.nodup_iff_getElem?_ne_getElem?]
    intro i j hij hj he
    rcases hm : l[i]? with _ | m
    · rw [List.getElem?_eq_none_iff] at hm; omega
    · have h1 := (hspec i m).1 hm
      have h2 := (hspec j m).1 (by rw [← he, hm])
      omega
  · intro m
    rw [List.mem_iff_getElem?]
    constructor
    · rintro ⟨k, hk⟩; exact ((hspec k m).1 hk).2.2
    · intro hm
      have h1 := Int.emod_nonneg m (b := (n : Int)) (by omega)
      have h2 := Int.emod_lt_of_pos m (b := (n : Int)) (by omega)
      exact ⟨(m % n).toNat, (hspec _ m).2 ⟨by omega, by omega, hm⟩⟩
  · intro m
    have h1 := Int.emod_nonneg m (b := (n : Int)) (by omega)
    have h2 := Int.emod_lt_of_pos m (b := (n : Int)) (by omega)
    have hlt : (m % n).toNat < l.length := by omega
    have hget : l[(m % n).toNat]? = some l[(m % n).toNat] := List.getElem?_eq_getElem hlt
    refine ⟨l[(m % n).toNat], ⟨List.getElem_mem hlt, ?_⟩, ?_⟩
    · have := ((hspec _ _).1 hget).2.1
      rw [this]; omega
    · rintro x ⟨hx, hxm⟩
      obtain ⟨k, hk⟩ := List.mem_iff_getElem?.1 hx
      have := (hspec k x).1 hk
      have hkk : k = (m % n).toNat := by omega
      rw [hkk, hget] at hk
      exact (Option.some.inj hk).symm

/-- C32: the centred order is ascending, with the same frequencies. -/
theorem freqs_centered (n : Nat) (c : Conv) :
    ∃ l, freqs n true c = some l ∧ l.length = n ∧ l.Pairwise (· < ·) ∧ ∀ m, m ∈ l ↔ InRange n c m := by
  have hs := freqind_sum n c
  refine ⟨_, freqs_true n c, ?_, ?_, ?_⟩
  · rw [arange_length]; omega
  · unfold arange
    rw [List.pairwise_map]
    exact List.pairwise_lt_range.imp (by intro a b h; simpa using h)
  · intro m
    rw [freqind_spec]
    simp only [arange, List.mem_map, List.mem_range]
    constructor
    · rintro ⟨k, hk, rfl⟩; omega
    · rintro ⟨h1, h2⟩; exact ⟨(m - (freqind n c).1).toNat, by omega, by omega⟩

/-- C32: the two conventions differ only in the sign of the frequency of half the sampling rate. -/
theorem conventions_differ (n : Nat) (m : Int) :
    (InRange n .numpy m ∧ ¬ InRange n .idl m ↔ 0 < n ∧ 2 * m = -n) ∧
    (InRange n .idl m ∧ ¬ InRange n .numpy m ↔ 0 < n ∧ 2 * m = n) := by
  simp only [InRange]
  constructor <;> constructor <;> intro h <;> omega

/-! ## Shifting -/

/-- What shifting is to do: element `r` comes from `r` moved by `f n` along each axis of length `n`. -/
def Moved {α : Type} (f : Nat → Int) (a b : Arr α) : Prop :=
  b.shape = a.shape ∧ ∀ r, InB r a.shape → ∃ r', InB r' a.shape ∧ b.get r = a.get r' ∧
    ∀ (k i i' n : Nat), r[k]? = some i → r'[k]? = some i' → a.shape[k]? = some n → (i' : Int) = (i + f n) % n

theorem loop_moved {α : Type} (f : Nat → Int) (hf : ∀ n : Nat, shiftInd n (f n) = some ((List.range n).map fun (j : Nat) => ((j : Int) + f n) % n)) (a : Arr α) :
    ∃ b, shiftLoop (a.shape.map f) a.shape (List.range a.shape.length) a = some b ∧ Moved f a b := by
  obtain ⟨b, hb, hs, hg⟩ := shiftLoop_spec f a.shape hf (List.range a.shape.length) (fun k hk => by simpa using hk) a rfl
  refine ⟨b, hb, hs, ?_⟩
  intro r hr
  obtain ⟨g1, g2⟩ := hg r hr
  refine ⟨_, g2, g1, ?_⟩
  intro k i i' n hi hi' hn
  rw [rotFrom_get _ _ _ _ _ List.nodup_range, if_pos (by simpa using (List.getElem?_eq_some_iff.1 hn).1), hi] at hi'
  have hin : i < n := by obtain ⟨j, h1, h2⟩ := hr.getElem? hn; rw [hi] at h1; cases h1; exact h2
  simp only [Option.map_some, Option.some.injEq, List.getD_eq_getElem?_getD, hn, Option.getD_some] at hi'
  have h1 := Int.emod_nonneg ((i : Int) + f n) (b := (n : Int)) (by omega)
  omega

/-- C32: shifting moves the frequencies to ascending order: index `i` of the result is where frequency
`imin + i` was, in every axis. -/
theorem fftshift_spec {α : Type} (c : Conv) (a : Arr α) :
    ∃ b, fftshift c a = some b ∧ Moved (fun n => (freqind n c).1) a b := by
  obtain ⟨b, hb, hs, hg⟩ := loop_moved (fun n => (freqind n c).2 + 1) (fun n => shiftInd_fft n c) a
  refine ⟨b, hb, hs, ?_⟩
  intro r hr
  obtain ⟨r', h1, h2, h3⟩ := hg r hr
  refine ⟨r', h1, h2, ?_⟩
  intro k i i' n hi hi' hn
  rw [h3 k i i' n hi hi' hn]
  have := freqind_sum n c
  have e : (i : Int) + ((freqind n c).2 + 1) = (i + (freqind n c).1) + n := by omega
  rw [e, Int.add_emod_right]

/-- C32: and the inverse shift moves them back. -/
theorem ifftshift_spec {α : Type} (c : Conv) (a : Arr α) :
    ∃ b, ifftshift c a = some b ∧ Moved (fun n => -(freqind n c).1) a b :=
  loop_moved (fun n => -(freqind n c).1) (fun n => shiftInd_ifft n c) a

theorem inB_ext {r s : List Nat} {dim : List Nat} (hr : InB r dim) (hs : InB s dim)
    (h : ∀ (k i j n : Nat), r[k]? = some i → s[k]? = some j → dim[k]? = some n → i = j) : r = s := by
  apply List.ext_getElem?
  intro k
  rcases hn : dim[k]? with _ | n
  · have := List.getElem?_eq_none_iff.1 hn
    rw [List.getElem?_eq_none (by rw [hr.length]; exact this), List.getElem?_eq_none (by rw [hs.length]; exact this)]
  · obtain ⟨i, hi, _⟩ := hr.getElem? hn
    obtain ⟨j, hj, _⟩ := hs.getElem? hn
    rw [hi, hj, h k i j n hi hj hn]

theorem moved_comp {α : Type} {f g : Nat → Int} {a b c : Arr α} (h : Moved f a b) (h' : Moved g b c) (hfg : ∀ n, f n + g n = 0) :
    c.Equiv a := by
  refine ⟨by rw [h'.1, h.1], ?_⟩
  intro r hr
  rw [h'.1] at hr
  obtain ⟨r1, q1, q2, q3⟩ := h'.2 r hr
  rw [h.1] at q1 q3 hr
  obtain ⟨r2, p1, p2, p3⟩ := h.2 r1 q1
  rw [q2, p2]
  congr 1
  apply inB_ext p1 hr
  intro k i j n hi hj hn
  obtain ⟨l, hl, hln⟩ := q1.getElem? hn
  have e1 := q3 k j l n hj hl hn
  have e2 := p3 k l i n hl hi hn
  have hjn : j < n := by obtain ⟨j', h1, h2⟩ := hr.getElem? hn; rw [hj] at h1; cases h1; exact h2
  rw [e1, Int.emod_add_emod, show (j : Int) + g n + f n = j by have := hfg n; omega, Int.emod_eq_of_lt (by omega) (by omega)] at e2
  omega

/-- C32: the shifts are inverse to each other, for every number of axes, every length and both
conventions. -/
theorem shift_inverse {α : Type} (c : Conv) (a : Arr α) :
    ∃ b, fftshift c a = some b ∧ ∃ a', ifftshift c b = some a' ∧ a'.Equiv a := by
  obtain ⟨b, hb, h⟩ := fftshift_spec c a
  obtain ⟨a', ha', h'⟩ := ifftshift_spec c b
  exact ⟨b, hb, a', ha', moved_comp h h' (fun n => by omega)⟩

theorem ishift_inverse {α : Type} (c : Conv) (a : Arr α) :
    ∃ b, ifftshift c a = some b ∧ ∃ a', fftshift c b = some a' ∧ a'.Equiv a := by
  obtain ⟨b, hb, h⟩ := ifftshift_spec c a
  obtain ⟨a', ha', h'⟩ := fftshift_spec c b
  exact ⟨b, hb, a', ha', moved_comp h h' (fun n => by omega)⟩

/-- The one-dimensional array of a list -/
def ofList (l : List Int) : Arr Int := { shape := [l.length], get := fun r => l.getD (r.getD 0 0) 0 }

/-- C32: shifting the frequencies gives the centred frequencies. -/
theorem fftshift_freqs (n : Nat) (c : Conv) :
    ∃ l l', freqs n false c = some l ∧ freqs n true c = some l' ∧
      ∃ b, fftshift c (ofList l) = some b ∧ b.Equiv (ofList l') := by
  obtain ⟨l, hl, hlen, hspec⟩ := freqs_spec n c
  have hs := freqind_sum n c
  obtain ⟨b, hb, hbs, hm⟩ := fftshift_spec c (ofList l)
  have hlen' : (arange (freqind n c).1 ((freqind n c).2 + 1)).length = n := by rw [arange_length]; omega
  refine ⟨l, _, hl, freqs_true n c, b, hb, by rw [hbs]; simp [ofList, hlen, hlen'], ?_⟩
  intro r hr
  rw [hbs] at hr
  obtain ⟨r', h1, h2, h3⟩ := hm r hr
  obtain ⟨i, hi, hin⟩ := hr.getElem? (k := 0) (n := n) (by simp [ofList, hlen])
  obtain ⟨i', hi', hin'⟩ := h1.getElem? (k := 0) (n := n) (by simp [ofList, hlen])
  have h4 := h3 0 i i' n hi hi' (by simp [ofList, hlen])
  rw [h2]
  have e1 : (ofList l).get r' = l.getD i' 0 := by simp [ofList, List.getD_eq_getElem?_getD, hi']
  have e2 : (ofList (arange (freqind n c).1 ((freqind n c).2 + 1))).get r = (freqind n c).1 + i := by
    simp only [ofList, List.getD_eq_getElem?_getD, hi, Option.getD_some]
    rw [arange_get _ _ (by omega)]; rfl
  have e3 : l[i']? = some ((freqind n c).1 + i) := by
    refine (hspec i' _).2 ⟨hin', ?_, ?_⟩
    · rw [h4, add_comm]
    · rw [freqind_spec]; omega
  rw [e1, e2, List.getD_eq_getElem?_getD, e3]; rfl

/-- C32: mixing the conventions is an error exactly for even lengths. -/
theorem mixed_conventions (n : Nat) :
    (∀ l : List Int, l.length = n → ∃ b, fftshift .numpy (ofList l) = some b ∧ ∃ a', ifftshift .idl b = some a' ∧ a'.Equiv (ofList l)) ↔
      n = 0 ∨ n % 2 = 1 := by
  constructor
  · intro h
    by_contra hn
    have hn0 : 0 < n := by omega
    have hne : n % 2 = 0 := by omega
    obtain ⟨b, hb, a', ha', he⟩ := h ((List.range n).map fun (k : Nat) => (k : Int)) (by simp)
    obtain ⟨b2, hb2, hm⟩ := fftshift_spec .numpy (ofList ((List.range n).map fun (k : Nat) => (k : Int)))
    obtain ⟨a2, ha2, hm2⟩ := ifftshift_spec .idl b
    rw [hb] at hb2; cases hb2
    rw [ha'] at ha2; cases ha2
    have hsh : (ofList ((List.range n).map fun (k : Nat) => (k : Int))).shape = [n] := by simp [ofList]
    have hr : InB [0] [n] := ⟨hn0, trivial⟩
    have he0 := he.2 [0] (by rw [he.1, hsh]; exact hr)
    obtain ⟨r1, q1, q2, q3⟩ := hm2.2 [0] (by rw [hm.1, hsh]; exact hr)
    rw [hm.1, hsh] at q1 q3
    obtain ⟨r2, p1, p2, p3⟩ := hm.2 r1 (by rw [hsh]; exact q1)
    rw [hsh] at p1 p3
    obtain ⟨i1, hi1, hi1n⟩ := q1.getElem? (k := 0) (n := n) rfl
    obtain ⟨i2, hi2, hi2n⟩ := p1.getElem? (k := 0) (n := n) rfl
    have e1 := q3 0 0 i1 n rfl hi1 rfl
    have e2 := p3 0 i1 i2 n hi1 hi2 rfl
    have v : ∀ (r : List Nat) (i : Nat), r[0]? = some i → i < n → (ofList ((List.range n).map fun (k : Nat) => (k : Int))).get r = i := by
      intro r i hi hin
      simp [ofList, List.getD_eq_getElem?_getD, hi, hin]
    rw [q2, p2, v r2 i2 hi2 hi2n, v [0] 0 rfl hn0] at he0
    simp only [freqind] at e1 e2
    rw [e1, Int.emod_add_emod] at e2
    have e3 : ((0 : Nat) : Int) + -(-((n : Int) / 2) + (1 - (n : Int) % 2)) + -((n : Int) / 2) = n - 1 - n := by omega
    rw [e3, Int.sub_emod_right, Int.emod_eq_of_lt (by omega) (by omega)] at e2
    omega
  · intro hn l hl
    obtain ⟨b, hb, hm⟩ := fftshift_spec .numpy (ofList l)
    obtain ⟨a', ha', hm'⟩ := ifftshift_spec .idl b
    refine ⟨b, hb, a', ha', ?_⟩
    have hs : (ofList l).shape = [n] := by simp [ofList, hl]
    rcases hn with hn | hn
    · subst hn
      refine ⟨by rw [hm'.1, hm.1], ?_⟩
      intro r hr
      rw [hm'.1, hm.1, hs] at hr
      exact absurd hr (not_inB_of_zero (by simp))
    · have hm2 : Moved (fun n => (freqind n .idl).1) (ofList l) b := by
        refine ⟨hm.1, ?_⟩
        intro r hr
        obtain ⟨r', h1, h2, h3⟩ := hm.2 r hr
        refine ⟨r', h1, h2, ?_⟩
        intro k i i' m hi hi' hm3
        rw [h3 k i i' m hi hi' hm3]
        have : m = n := by
          rw [hs] at hm3
          rcases k with _ | k
          · simpa using hm3.symm
          · simp at hm3
        subst this
        congr 2
        simp only [freqind]; omega
      exact moved_comp hm2 hm' (fun n => by omega)

/-- A 2 by 3 array: zero frequency in the corner goes to row 1, column 1. -/
example : ∃ b, fftshift .numpy { shape := [2, 3], get := fun r => (r.getD 0 0, r.getD 1 0) } = some b ∧ b.get [1, 1] = (0, 0) ∧ b.get [0, 0] = (1, 2) :=
  ⟨_, rfl, by decide, by decide⟩
example : freqs 6 false .idl = some [0, 1, 2, 3, -2, -1] ∧ freqs 6 false .numpy = some [0, 1, 2, -3, -2, -1] := by decide
example : freqs 5 true .numpy = some [-2, -1, 0, 1, 2] := by decide

end SC.Ft
