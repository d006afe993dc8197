import Verif.Merge.Model
import Verif.Numpy.Lemmas
import Mathlib.Algebra.GCDMonoid.Nat
import Mathlib.Algebra.BigOperators.Group.List.Lemmas
import Mathlib.Tactic.Ring
import Mathlib.Tactic.ByContra
import Mathlib.Algebra.Order.BigOperators.Group.List
/-! # Helper lemmas about least common multiples, raveling and blocks -/
namespace SC.Merge
open SC.Numpy

/-! ## least common multiple -/

theorem lcmLoop_dvd : ∀ (l : List Nat) (acc : Nat), acc ∣ l.foldl (fun acc i => acc * i / Nat.gcd acc i) acc ∧
    ∀ x ∈ l, x ∣ l.foldl (fun acc i => acc * i / Nat.gcd acc i) acc
  | [], acc => ⟨dvd_refl _, by simp⟩
  | y :: l, acc => by
    have h := lcmLoop_dvd l (acc * y / Nat.gcd acc y)
    have e : acc * y / Nat.gcd acc y = Nat.lcm acc y := rfl
    simp only [List.foldl_cons]
    refine ⟨dvd_trans (e ▸ Nat.dvd_lcm_left acc y) h.1, ?_⟩
    intro x hx
    rcases List.mem_cons.1 hx with rfl | hx
    · exact dvd_trans (e ▸ Nat.dvd_lcm_right acc x) h.1
    · exact h.2 x hx

theorem lcmLoop_min : ∀ (l : List Nat) (acc k : Nat), acc ∣ k → (∀ x ∈ l, x ∣ k) →
    l.foldl (fun acc i => acc * i / Nat.gcd acc i) acc ∣ k
  | [], _, _, h, _ => h
  | y :: l, acc, k, h, hl => by
    simp only [List.foldl_cons]
    apply lcmLoop_min l _ k _ (fun x hx => hl x (by simp [hx]))
    have e : acc * y / Nat.gcd acc y = Nat.lcm acc y := rfl
    rw [e]
    exact Nat.lcm_dvd h (hl y (by simp))

theorem dvd_lcmList {l : List Nat} {x : Nat} (h : x ∈ l) : x ∣ lcmList l := (lcmLoop_dvd l 1).2 x h

theorem lcmList_dvd {l : List Nat} {k : Nat} (h : ∀ x ∈ l, x ∣ k) : lcmList l ∣ k := lcmLoop_min l 1 k (one_dvd _) h

theorem lcmList_pair (a b : Nat) : lcmList [a, b] = Nat.lcm a b := by
  apply Nat.dvd_antisymm
  · apply lcmList_dvd
    intro x hx
    rcases List.mem_cons.1 hx with rfl | hx
    · exact Nat.dvd_lcm_left _ _
    · simp at hx; subst hx; exact Nat.dvd_lcm_right _ _
  · exact Nat.lcm_dvd (dvd_lcmList (by simp)) (dvd_lcmList (by simp))

theorem minList_le : ∀ (l : List Nat), ∀ x ∈ l, minList l ≤ x
  | [x], y, h => by simp at h; simp [minList, h]
  | x :: z :: l, y, h => by
    rcases List.mem_cons.1 h with rfl | h
    · exact min_le_left _ _
    · exact le_trans (min_le_right _ _) (minList_le (z :: l) y h)

theorem minList_mem : ∀ (l : List Nat), l ≠ [] → minList l ∈ l
  | [x], _ => by simp [minList]
  | x :: z :: l, _ => by
    simp only [minList]
    rcases le_total x (minList (z :: l)) with h | h
    · rw [min_eq_left h]; simp
    · rw [min_eq_right h]; exact List.mem_cons_of_mem _ (minList_mem (z :: l) (by simp))

theorem prod_dropLast (s : List Nat) (h : s ≠ []) : s.prod = s.dropLast.prod * s.getLastD 0 := by
  conv_lhs => rw [← List.dropLast_append_getLast h]
  rw [List.prod_append]
  simp [List.getLastD_eq_getLast?, List.getLast?_eq_some_getLast h]

/-! ## raveling -/

/-- The position in F-order. -/
def ravelF : Shape → List Nat → Nat
  | n :: s, i :: is => i + n * ravelF s is
  | _, _ => 0

theorem unravelF_inB : ∀ (s : Shape) (i : Nat), i < s.prod → InB (unravelF s i) s
  | [], _, _ => trivial
  | n :: s, i, h => by
    rw [List.prod_cons] at h
    have hn : 0 < n := by
      rcases Nat.eq_zero_or_pos n with h0 | h0
      · rw [h0] at h; simp at h
      · exact h0
    exact ⟨Nat.mod_lt _ hn, unravelF_inB s (i / n) (Nat.div_lt_of_lt_mul h)⟩

theorem ravelF_unravelF : ∀ (s : Shape) (i : Nat), i < s.prod → ravelF s (unravelF s i) = i
  | [], i, h => by simp at h; simp [ravelF, h]
  | n :: s, i, h => by
    rw [List.prod_cons] at h
    simp only [unravelF, ravelF]
    rw [ravelF_unravelF s (i / n) (Nat.div_lt_of_lt_mul h)]
    exact Nat.mod_add_div i n

theorem ravelF_lt : ∀ (s : Shape) (p : List Nat), InB p s → ravelF s p < s.prod
  | [], [], _ => by simp [ravelF]
  | n :: s, i :: p, h => by
    have ih := ravelF_lt s p h.2
    have h1 : i < n := h.1
    simp only [ravelF, List.prod_cons]
    calc i + n * ravelF s p < n + n * ravelF s p := by omega
      _ = n * (ravelF s p + 1) := by ring
      _ ≤ n * s.prod := Nat.mul_le_mul_left _ ih

theorem unravelF_ravelF : ∀ (s : Shape) (p : List Nat), InB p s → unravelF s (ravelF s p) = p
  | [], [], _ => rfl
  | n :: s, i :: p, h => by
    have ih := unravelF_ravelF s p h.2
    have h1 : i < n := h.1
    simp only [ravelF, unravelF]
    rw [Nat.add_mul_mod_self_left, Nat.mod_eq_of_lt h1, Nat.add_mul_div_left _ _ (by omega), Nat.div_eq_of_lt h1, Nat.zero_add, ih]

theorem ravelF_append : ∀ (s : Shape) (p : List Nat) (n i : Nat), p.length = s.length →
    ravelF (s ++ [n]) (p ++ [i]) = ravelF s p + s.prod * i
  | [], [], n, i, _ => by simp [ravelF]
  | m :: s, j :: p, n, i, h => by
    have ih := ravelF_append s p n i (by simpa using h)
    simp only [List.cons_append, ravelF, ih, List.prod_cons]
    ring

theorem ravelC_eq : ∀ (s : Shape) (p : List Nat), p.length = s.length → ravelC s p = ravelF s.reverse p.reverse
  | [], [], _ => rfl
  | n :: s, i :: p, h => by
    have hl : p.length = s.length := by simpa using h
    have ih := ravelC_eq s p hl
    rw [List.reverse_cons, List.reverse_cons, ravelF_append _ _ _ _ (by simp [hl]), ravelC, ih, List.prod_reverse]
    ring

theorem inB_reverse {p s : List Nat} (h : InB p s) : InB p.reverse s.reverse := by
  induction s generalizing p with
  | nil => cases p with
    | nil => trivial
    | cons => exact h.elim
  | cons n s ih => cases p with
    | nil => exact h.elim
    | cons i p =>
      rw [List.reverse_cons, List.reverse_cons]
      exact (ih h.2).append ⟨h.1, trivial⟩

theorem unravelC_inB (s : Shape) (i : Nat) (h : i < s.prod) : InB (unravelC s i) s := by
  unfold unravelC unravel
  simp only [Bool.false_eq_true, if_false]
  have := inB_reverse (unravelF_inB s.reverse i (by rwa [List.prod_reverse]))
  rwa [List.reverse_reverse] at this

theorem ravelC_unravelC (s : Shape) (i : Nat) (h : i < s.prod) : ravelC s (unravelC s i) = i := by
  rw [ravelC_eq _ _ (unravelC_inB s i h).length]
  unfold unravelC unravel
  simp only [Bool.false_eq_true, if_false, List.reverse_reverse]
  exact ravelF_unravelF _ _ (by rwa [List.prod_reverse])

theorem unravelC_ravelC (s : Shape) (p : List Nat) (h : InB p s) : unravelC s (ravelC s p) = p := by
  rw [ravelC_eq _ _ h.length]
  unfold unravelC unravel
  simp only [Bool.false_eq_true, if_false]
  rw [unravelF_ravelF _ _ (inB_reverse h), List.reverse_reverse]

theorem unravel_inB (f : Bool) (s : Shape) (i : Nat) (h : i < s.prod) : InB (unravel f s i) s := by
  cases f with
  | true => exact unravelF_inB s i h
  | false => exact unravelC_inB s i h

theorem unravel_inj (f : Bool) (s : Shape) (i j : Nat) (hi : i < s.prod) (hj : j < s.prod)
    (h : unravel f s i = unravel f s j) : i = j := by
  cases f with
  | true =>
    have := congrArg (ravelF s) h
    simp only [unravel, if_true] at this
    rwa [ravelF_unravelF s i hi, ravelF_unravelF s j hj] at this
  | false =>
    have := congrArg (ravelC s) h
    rwa [show unravel false s i = unravelC s i from rfl, show unravel false s j = unravelC s j from rfl,
      ravelC_unravelC s i hi, ravelC_unravelC s j hj] at this

/-! ## largest shape -/

theorem maxShape_some : ∀ (l : List Shape) (n : Nat), l ≠ [] → (∀ s ∈ l, s.length = n) → ∃ m, maxShape l = some m ∧ m.length = n
  | [s], n, _, h => ⟨s, rfl, h s (by simp)⟩
  | s :: t :: l, n, _, h => by
    obtain ⟨m, hm, hl⟩ := maxShape_some (t :: l) n (by simp) (fun x hx => h x (List.mem_cons_of_mem _ hx))
    have hs : s.length = n := h s (by simp)
    exact ⟨List.zipWith max s m, by simp [maxShape, hm, hs, hl], by simp [hs, hl]⟩

theorem getD_zipWith_max (a b : List Nat) (h : a.length = b.length) (d : Nat) :
    (List.zipWith max a b).getD d 0 = max (a.getD d 0) (b.getD d 0) := by
  simp only [List.getD_eq_getElem?_getD, List.getElem?_zipWith]
  by_cases hd : d < a.length
  · simp [List.getElem?_eq_getElem hd, List.getElem?_eq_getElem (show d < b.length by omega)]
  · simp [List.getElem?_eq_none (show a.length ≤ d by omega), List.getElem?_eq_none (show b.length ≤ d by omega)]

theorem maxShape_spec : ∀ (l : List Shape) (m : Shape), maxShape l = some m →
    ∀ s ∈ l, s.length = m.length ∧ ∀ d, s.getD d 0 ≤ m.getD d 0
  | [s], m, h, t, ht => by
    simp at ht; subst ht
    simp [maxShape] at h; subst h
    exact ⟨rfl, fun _ => le_refl _⟩
  | s :: t :: l, m, h, x, hx => by
    simp only [maxShape] at h
    generalize hm' : maxShape (t :: l) = o at h
    cases o with
    | none => simp at h
    | some m' =>
      simp only at h
      by_cases hl : s.length = m'.length
      · rw [if_pos hl] at h
        have hmm := (Option.some.inj h).symm
        rcases List.mem_cons.1 hx with rfl | hx
        · subst hmm
          refine ⟨by simp [hl], fun d => ?_⟩
          rw [getD_zipWith_max _ _ hl]; exact le_max_left _ _
        · obtain ⟨h1, h2⟩ := maxShape_spec (t :: l) m' hm' x hx
          subst hmm
          refine ⟨by simp [hl, h1], fun d => ?_⟩
          rw [getD_zipWith_max _ _ hl]; exact le_trans (h2 d) (le_max_right _ _)
      · rw [if_neg hl] at h; simp at h

theorem maxShape_attained : ∀ (l : List Shape) (m : Shape), maxShape l = some m → ∀ d, ∃ s ∈ l, s.getD d 0 = m.getD d 0
  | [s], m, h, d => by
    simp [maxShape] at h; subst h
    exact ⟨s, by simp, rfl⟩
  | s :: t :: l, m, h, d => by
    simp only [maxShape] at h
    generalize hm' : maxShape (t :: l) = o at h
    cases o with
    | none => simp at h
    | some m' =>
      simp only at h
      by_cases hl : s.length = m'.length
      · rw [if_pos hl] at h
        have hmm := (Option.some.inj h).symm
        subst hmm
        rw [getD_zipWith_max _ _ hl]
        rcases le_total (s.getD d 0) (m'.getD d 0) with h1 | h1
        · obtain ⟨x, hx, he⟩ := maxShape_attained (t :: l) m' hm' d
          exact ⟨x, List.mem_cons_of_mem _ hx, by rw [max_eq_right h1, he]⟩
        · exact ⟨s, by simp, by rw [max_eq_left h1]⟩
      · rw [if_neg hl] at h; simp at h

/-! ## blocks -/

theorem tileBlock_shape : ∀ (t m s : List Nat), t.length = s.length → m.length = s.length →
    blockShape (tileBlock t m s) = s
  | [], [], [], _, _ => rfl
  | [], _ :: _, s, h1, h2 => absurd (h1.trans h2.symm) (by simp)
  | _ :: _, [], s, h1, h2 => absurd (h1.trans h2.symm) (by simp)
  | i :: t, n :: m, k :: s, h1, h2 => by
    have := tileBlock_shape t m s (by simpa using h1) (by simpa using h2)
    simp only [blockShape, tileBlock, List.map_cons] at this ⊢
    rw [this]; simp

theorem tileBlock_length : ∀ (t m s : List Nat), t.length = s.length → m.length = s.length →
    (tileBlock t m s).length = s.length
  | [], [], [], _, _ => rfl
  | [], _ :: _, s, h1, h2 => absurd (h1.trans h2.symm) (by simp)
  | _ :: _, [], s, h1, h2 => absurd (h1.trans h2.symm) (by simp)
  | i :: t, n :: m, k :: s, h1, h2 => by
    simp [tileBlock, tileBlock_length t m s (by simpa using h1) (by simpa using h2)]

theorem tileBlock_get : ∀ (t m s : List Nat), t.length = s.length → m.length = s.length → ∀ d, d < s.length →
    (tileBlock t m s).getD d (0, 0) = (t.getD d 0 * m.getD d 0, t.getD d 0 * m.getD d 0 + s.getD d 0)
  | [], [], [], _, _, d, h => by simp at h
  | [], _ :: _, s, h1, h2, _, _ => absurd (h1.trans h2.symm) (by simp)
  | _ :: _, [], s, h1, h2, _, _ => absurd (h1.trans h2.symm) (by simp)
  | i :: t, n :: m, k :: s, h1, h2, 0, _ => by simp [tileBlock]
  | i :: t, n :: m, k :: s, h1, h2, d + 1, h => by
    simpa [tileBlock] using tileBlock_get t m s (by simpa using h1) (by simpa using h2) d (by simpa using h)

theorem inBlock_iff : ∀ (b : Block) (p : List Nat), inBlock b p = true ↔
    p.length = b.length ∧ ∀ d, d < b.length → (b.getD d (0, 0)).1 ≤ p.getD d 0 ∧ p.getD d 0 < (b.getD d (0, 0)).2
  | [], [] => by simp [inBlock]
  | [], _ :: _ => by simp [inBlock]
  | _ :: _, [] => by simp [inBlock]
  | (a, c) :: b, x :: p => by
    have ih := inBlock_iff b p
    simp only [inBlock, Bool.and_eq_true, decide_eq_true_eq, ih, List.length_cons, Nat.add_right_cancel_iff]
    constructor
    · rintro ⟨⟨h1, h2⟩, h3, h4⟩
      refine ⟨h3, fun d hd => ?_⟩
      cases d with
      | zero => simpa using ⟨h1, h2⟩
      | succ d => simpa using h4 d (by omega)
    · rintro ⟨h3, h4⟩
      refine ⟨by simpa using h4 0 (by omega), h3, fun d hd => by simpa using h4 (d + 1) (by omega)⟩

/-- A quotient determined by an interval. -/
theorem tile_unique {a b m x : Nat} (h1 : a * m ≤ x) (h2 : x < a * m + m) (h3 : b * m ≤ x) (h4 : x < b * m + m) : a = b := by
  rcases Nat.lt_trichotomy a b with h | h | h
  · have : (a + 1) * m ≤ b * m := Nat.mul_le_mul_right _ h
    rw [Nat.add_mul] at this; omega
  · exact h
  · have : (b + 1) * m ≤ a * m := Nat.mul_le_mul_right _ h
    rw [Nat.add_mul] at this; omega

/-! ## exceptions -/

theorem allSome_eq {α β : Type} (f : α → Option β) (g : α → β) : ∀ (l : List α), (∀ x ∈ l, f x = some (g x)) → allSome f l = some (l.map g)
  | [], _ => rfl
  | x :: l, h => by
    simp [allSome, h x (by simp), allSome_eq f g l (fun y hy => h y (by simp [hy]))]

theorem allSome_none {α β : Type} (f : α → Option β) : ∀ (l : List α), (∃ x ∈ l, f x = none) → allSome f l = none
  | [], h => by simp at h
  | y :: l, h => by
    obtain ⟨x, hx, hf⟩ := h
    rcases List.mem_cons.1 hx with rfl | hx
    · simp [allSome, hf]
    · simp only [allSome, allSome_none f l ⟨x, hx, hf⟩]
      cases f y <;> rfl

theorem readAt_some : ∀ (ms : List Mapping) (k i : Nat) (p : List Nat) (m : Mapping), ms[i]? = some m → inBlock m.block p = true →
    (∀ (j : Nat) (m' : Mapping), j < i → ms[j]? = some m' → inBlock m'.block p = false) →
    readAt ms k p = some (k + i, unravelC m.sel (ravelC (blockShape m.block) (relative m.block p)))
  | [], _, _, _, _, h, _, _ => by simp at h
  | m0 :: ms, k, 0, p, m, h, hb, _ => by
    simp at h; subst h
    simp [readAt, hb]
  | m0 :: ms, k, i + 1, p, m, h, hb, hj => by
    have h0 := hj 0 m0 (by omega) (by simp)
    have ih := readAt_some ms (k + 1) i p m (by simpa using h) hb (fun j m' hji hm => hj (j + 1) m' (by omega) (by simpa using hm))
    simp only [readAt, h0, Bool.false_eq_true, if_false, ih]
    congr 2
    omega

theorem readAt_inv : ∀ (ms : List Mapping) (k : Nat) (p : List Nat) (i : Nat) (e : List Nat), readAt ms k p = some (i, e) →
    ∃ m, k ≤ i ∧ ms[i - k]? = some m ∧ inBlock m.block p = true ∧ e = unravelC m.sel (ravelC (blockShape m.block) (relative m.block p))
  | [], _, _, _, _, h => by simp [readAt] at h
  | m0 :: ms, k, p, i, e, h => by
    simp only [readAt] at h
    by_cases hb : inBlock m0.block p = true
    · rw [if_pos hb] at h
      obtain ⟨rfl, rfl⟩ := Prod.mk.inj (Option.some.inj h)
      exact ⟨m0, le_refl _, by simp, hb, rfl⟩
    · rw [if_neg hb] at h
      obtain ⟨m, h1, h2, h3⟩ := readAt_inv ms (k + 1) p i e h
      refine ⟨m, by omega, ?_, h3⟩
      rw [show i - k = (i - (k + 1)) + 1 by omega]
      simpa using h2

theorem readAt_none : ∀ (ms : List Mapping) (k : Nat) (p : List Nat), (∀ m ∈ ms, inBlock m.block p = false) → readAt ms k p = none
  | [], _, _, _ => rfl
  | m0 :: ms, k, p, h => by
    simp [readAt, h m0 (by simp), readAt_none ms (k + 1) p (fun m hm => h m (by simp [hm]))]

end SC.Merge
