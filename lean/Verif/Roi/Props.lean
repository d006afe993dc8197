import Verif.Roi.Model
import Mathlib.Data.Prod.Lex
import Mathlib.Data.Int.Order.Basic
import Mathlib.Tactic.Common
import Mathlib.Order.MinMax
import Mathlib.Data.List.Basic
/-! # C05 (ROI clipping) and C06 (interval merging), utils/roi.py -/
namespace SC.Roi
open SC.Py

/-! ## C05 -/

/-- Specification: the half-open integer range `[a, b)` as a list of positions. -/
def span (a b : Int) : List Nat := (List.range (b - a).toNat).map (fun (k : Nat) => (a + k).toNat)

/-- **C05 (in bounds).** One clipped dimension always lies inside the array. -/
theorem clip_inBounds (n : Nat) (a b : Option Int) :
    0 ≤ clipLow n a ∧ (0 < n → clipLow n a ≤ (n : Int) - 1) ∧
    0 ≤ clipHigh n b ∧ clipHigh n b ≤ n := by
  unfold clipLow clipHigh
  cases a <;> cases b <;> simp only <;> (try split) <;> (try split) <;> omega

/-- **C05 (Python slice).** Unless the lower bound lies beyond the end, the clipped bounds select
exactly the elements of the Python slice `a:b`. -/
theorem clip_slice (n : Nat) (a b : Option Int) (ha : ∀ v, a = some v → v < n ∨ n = 0) :
    (Slice.mk a b none).positions n = some (span (clipLow n a) (clipHigh n b)) := by
  unfold Slice.positions Slice.indices
  simp only [Option.getD_none, if_neg (by decide : ¬ (1 : Int) = 0), if_neg (by decide : ¬ (1 : Int) < 0),
    Option.map_some, Option.some.injEq, rangeList, rangeLen, span,
    if_pos (by decide : (0 : Int) < 1), Int.mul_one, List.map_map, Function.comp_def]
  have h1 : ∀ s t : Int, ((t - s + 1 - 1) / 1).toNat = (t - s).toNat := by intro s t; simp
  simp only [h1]
  have hl : n ≠ 0 → boundOr n 0 n 0 a = clipLow n a := by
    intro hn
    cases a with
    | none => rfl
    | some v =>
      have hv : v < n := by rcases ha v rfl with h | h <;> omega
      simp only [boundOr, clampBound, clipLow]
      split <;> split <;> (try split) <;> omega
  have hh : boundOr n 0 n n b = clipHigh n b := by
    cases b with
    | none => rfl
    | some v =>
      simp only [boundOr, clampBound, clipHigh]
      split <;> split <;> (try split) <;> omega
  by_cases hn : n = 0
  · have e1 : clipHigh n b = 0 := by have := clip_inBounds n a b; omega
    have e2 : 0 ≤ clipLow n a := (clip_inBounds n a b).1
    have e3 : 0 ≤ boundOr n 0 n 0 a := by
      cases a with
      | none => simp [boundOr]
      | some v => simp only [boundOr, clampBound]; split <;> split <;> (try split) <;> omega
    rw [hh, e1, show ((0 : Int) - boundOr n 0 n 0 a).toNat = 0 by omega,
      show ((0 : Int) - clipLow n a).toNat = 0 by omega]
    rfl
  · rw [hl hn, hh]

/-- **C05 (finding).** A lower bound beyond the end is pulled back to the last element, so a ROI
outside the image selects one row where the Python slice selects none. -/
theorem clip_beyond_end (n : Nat) (hn : 0 < n) (v : Int) (hv : (n : Int) ≤ v) :
    span (clipLow n (some v)) (clipHigh n none) = [n - 1] ∧
    (Slice.mk (some v) none none).positions n = some [] := by
  constructor
  · have : clipLow n (some v) = (n : Int) - 1 := by unfold clipLow; simp only; split <;> omega
    simp only [this, clipHigh, span]
    rw [show ((n : Int) - ((n : Int) - 1)).toNat = 1 by omega]
    simp
  · unfold Slice.positions Slice.indices
    simp only [Option.getD_none, if_neg (by decide : ¬ (1 : Int) = 0),
      if_neg (by decide : ¬ (1 : Int) < 0), Option.map_some, Option.some.injEq, rangeList, rangeLen,
      if_pos (by decide : (0 : Int) < 1)]
    have : boundOr n 0 n 0 (some v) = n := by
      simp only [boundOr, clampBound]; split <;> split <;> (try split) <;> omega
    rw [this]; simp [boundOr]

/-- **C05 (idempotent).** Clipping its own output changes nothing. -/
theorem clip_idempotent (n : Nat) (a b : Option Int) :
    clipLow n (some (clipLow n a)) = clipLow n a ∧
    clipHigh n (some (clipHigh n b)) = clipHigh n b := by
  have h := clip_inBounds n a b
  have h0 : n = 0 → clipLow n a = 0 := by
    rintro rfl
    unfold clipLow; cases a <;> simp only
    split <;> omega
  generalize clipLow n a = u at *
  generalize clipHigh n b = v at *
  unfold clipLow clipHigh
  simp only
  constructor <;> split <;> omega

/-- **C05 (in-range ROIs are kept, negative bounds count from the end).** -/
theorem clip_inRange (n : Nat) (a b : Int) :
    (0 ≤ a → a < n → clipLow n (some a) = a) ∧ (0 ≤ b → b ≤ n → clipHigh n (some b) = b) ∧
    (-(n : Int) ≤ a → a < 0 → clipLow n (some a) = n + a) ∧
    (-(n : Int) ≤ b → b < 0 → clipHigh n (some b) = n + b) := by
  unfold clipLow clipHigh
  refine ⟨?_, ?_, ?_, ?_⟩ <;> intro h1 h2 <;> simp only <;> split <;> omega

/-- **C05 (all dimensions).** `cliproi` clips dimension by dimension and raises `ValueError` iff
the number of dimensions differs. -/
theorem cliproi_spec (shape : List Nat) (roi : List (Option Int × Option Int)) :
    (cliproi shape roi = .error .valueError ↔ shape.length ≠ roi.length) ∧
    (∀ r, cliproi shape roi = .ok r → r.length = shape.length ∧
      ∀ (i n : Nat) (ab : Option Int × Option Int), shape[i]? = some n → roi[i]? = some ab →
        r[i]? = some (clipLow n ab.1, clipHigh n ab.2)) := by
  unfold cliproi
  have key : ∀ (shape : List Nat) (roi : List (Option Int × Option Int)), shape.length = roi.length →
      (clipAll shape roi).length = shape.length ∧
      ∀ (i n : Nat) (ab : Option Int × Option Int), shape[i]? = some n → roi[i]? = some ab →
        (clipAll shape roi)[i]? = some (clipLow n ab.1, clipHigh n ab.2) := by
    intro shape
    induction shape with
    | nil => intro roi h; simp [clipAll]
    | cons m shape ih =>
      intro roi h
      cases roi with
      | nil => simp at h
      | cons ab roi =>
        obtain ⟨a, b⟩ := ab
        obtain ⟨h1, h2⟩ := ih roi (by simpa using h)
        refine ⟨by simp [clipAll, h1], fun i n ab hn hab => ?_⟩
        cases i with
        | zero => simp at hn hab; subst hn; subst hab; simp [clipAll]
        | succ i => simp at hn hab; simpa [clipAll] using h2 i n ab hn hab
  split
  · next h => exact ⟨by simp [h], fun r hr => by simp at hr⟩
  · next h =>
    have h' : shape.length = roi.length := by simpa using h
    refine ⟨by simp [h'], fun r hr => ?_⟩
    simp at hr; subst hr
    exact key shape roi h'

example : cliproi [10, 5] [(some (-3), none), (some 1, some 99)] = .ok [(7, 10), (1, 5)] := by decide
example : cliproi [10] [(some 12, some 20)] = .ok [(9, 10)] := by decide

/-! ## C06 -/

section merge
variable {κ : Type} [LinearOrder κ]

/-- Specification: `x` is covered by one of the half-open intervals. -/
def coversHO (l : List (κ × κ)) (x : κ) : Prop := ∃ p ∈ l, p.1 ≤ x ∧ x < p.2
/-- Specification: `x` is covered by one of the closed intervals. -/
def coversCl (l : List (κ × κ)) (x : κ) : Prop := ∃ p ∈ l, p.1 ≤ x ∧ x ≤ p.2

/-- Specification: consecutive intervals are separated by a strict gap. -/
def Separated : List (κ × κ) → Prop
  | [] => True
  | [_] => True
  | p :: q :: l => p.2 < q.1 ∧ Separated (q :: l)

theorem mergeLoop_covers (l : List (κ × κ)) : ∀ (low high : κ), (∀ p ∈ l, low ≤ p.1) →
    l.Pairwise (fun a b => a.1 ≤ b.1) → ∀ x,
    (coversHO (mergeLoop low high l) x ↔ coversHO ((low, high) :: l) x) ∧
    (coversCl (mergeLoop low high l) x ↔ coversCl ((low, high) :: l) x) := by
  induction l with
  | nil => intro low high _ _ x; simp [mergeLoop]
  | cons iv l ih =>
    intro low high hlow hs x
    rw [List.pairwise_cons] at hs
    simp only [mergeLoop]
    split
    · next h =>
      have ih' := ih low (max high iv.2) (fun p hp => hlow p (by simp [hp])) hs.2 x
      have hl := hlow iv (by simp)
      rw [ih'.1, ih'.2]
      constructor
      · simp only [coversHO, List.mem_cons, exists_eq_or_imp, lt_max_iff]
        constructor
        · rintro (⟨h1, h2 | h2⟩ | h3)
          · exact Or.inl ⟨h1, h2⟩
          · by_cases hx : x < iv.1
            · exact Or.inl ⟨h1, lt_of_lt_of_le hx h⟩
            · exact Or.inr (Or.inl ⟨not_lt.mp hx, h2⟩)
          · exact Or.inr (Or.inr h3)
        · rintro (⟨h1, h2⟩ | ⟨h1, h2⟩ | h3)
          · exact Or.inl ⟨h1, Or.inl h2⟩
          · exact Or.inl ⟨le_trans hl h1, Or.inr h2⟩
          · exact Or.inr h3
      · simp only [coversCl, List.mem_cons, exists_eq_or_imp, le_max_iff]
        constructor
        · rintro (⟨h1, h2 | h2⟩ | h3)
          · exact Or.inl ⟨h1, h2⟩
          · by_cases hx : x < iv.1
            · exact Or.inl ⟨h1, le_trans (le_of_lt hx) h⟩
            · exact Or.inr (Or.inl ⟨not_lt.mp hx, h2⟩)
          · exact Or.inr (Or.inr h3)
        · rintro (⟨h1, h2⟩ | ⟨h1, h2⟩ | h3)
          · exact Or.inl ⟨h1, Or.inl h2⟩
          · exact Or.inl ⟨le_trans hl h1, Or.inr h2⟩
          · exact Or.inr h3
    · have ih' := ih iv.1 iv.2 (fun p hp => hs.1 p hp) hs.2 x
      simp only [coversHO, coversCl, List.mem_cons, exists_eq_or_imp] at ih' ⊢
      rw [ih'.1, ih'.2]
      exact ⟨Iff.rfl, Iff.rfl⟩

/-- **C06 (union).** Merging never changes which points are covered, whether the pairs are read as
half-open or as closed intervals – for every list, also with degenerate or reversed pairs. -/
theorem mergeroi1d_union (l : List (κ × κ)) (x : κ) :
    (coversHO (mergeroi1d l) x ↔ coversHO l x) ∧ (coversCl (mergeroi1d l) x ↔ coversCl l x) := by
  have hp := Common.stableSort_perm (Prod.fst : κ × κ → κ) l
  have hs := Common.stableSort_sorted (Prod.fst : κ × κ → κ) l
  unfold mergeroi1d
  have e1 : coversHO l x ↔ coversHO (Common.stableSort Prod.fst l) x := by
    simp only [coversHO, hp.mem_iff]
  have e2 : coversCl l x ↔ coversCl (Common.stableSort Prod.fst l) x := by
    simp only [coversCl, hp.mem_iff]
  rw [e1, e2]
  generalize Common.stableSort (Prod.fst : κ × κ → κ) l = s at hs
  cases s with
  | nil => simp
  | cons iv s =>
    rw [List.pairwise_cons] at hs
    exact mergeLoop_covers s iv.1 iv.2 hs.1 hs.2 x

theorem mergeLoop_separated (l : List (κ × κ)) : ∀ (low high : κ),
    (∃ h t, mergeLoop low high l = (low, h) :: t) ∧ Separated (mergeLoop low high l) := by
  induction l with
  | nil => intro low high; exact ⟨⟨high, [], rfl⟩, trivial⟩
  | cons iv l ih =>
    intro low high
    simp only [mergeLoop]
    split
    · exact ih low _
    · next h =>
      obtain ⟨⟨h', t, e⟩, hsep⟩ := ih iv.1 iv.2
      refine ⟨⟨high, _, rfl⟩, ?_⟩
      rw [e] at hsep ⊢
      exact ⟨not_le.mp h, hsep⟩

/-- **C06 (separated).** The merged intervals are sorted and separated by strict gaps, for every
input. -/
theorem mergeroi1d_separated (l : List (κ × κ)) : Separated (mergeroi1d l) := by
  unfold mergeroi1d
  cases Common.stableSort (Prod.fst : κ × κ → κ) l with
  | nil => trivial
  | cons iv s => exact (mergeLoop_separated s iv.1 iv.2).2

theorem mergeLoop_valid (r : κ → κ → Prop) (hr : ∀ a b c : κ, r a b → b ≤ c → r a c)
    (l : List (κ × κ)) : ∀ (low high : κ), r low high → (∀ p ∈ l, r p.1 p.2) →
    ∀ p ∈ mergeLoop low high l, r p.1 p.2 := by
  induction l with
  | nil => intro low high h _ p hp; simp [mergeLoop] at hp; subst hp; exact h
  | cons iv l ih =>
    intro low high h hl p hp
    simp only [mergeLoop] at hp
    split at hp
    · exact ih low _ (hr _ _ _ h (le_max_left _ _)) (fun q hq => hl q (by simp [hq])) p hp
    · rcases List.mem_cons.mp hp with rfl | hp
      · exact h
      · exact ih _ _ (hl iv (by simp)) (fun q hq => hl q (by simp [hq])) p hp

/-- **C06 (validity).** Non-empty (resp. ordered) intervals stay non-empty (resp. ordered). -/
theorem mergeroi1d_valid (l : List (κ × κ)) :
    ((∀ p ∈ l, p.1 < p.2) → ∀ p ∈ mergeroi1d l, p.1 < p.2) ∧
    ((∀ p ∈ l, p.1 ≤ p.2) → ∀ p ∈ mergeroi1d l, p.1 ≤ p.2) := by
  have hp := Common.stableSort_perm (Prod.fst : κ × κ → κ) l
  unfold mergeroi1d
  constructor
  · intro h
    have h' : ∀ p ∈ Common.stableSort (Prod.fst : κ × κ → κ) l, p.1 < p.2 :=
      fun p hp' => h p (hp.mem_iff.mp hp')
    cases hg : Common.stableSort (Prod.fst : κ × κ → κ) l with
    | nil => simp
    | cons iv s =>
      rw [hg] at h'
      exact mergeLoop_valid (· < ·) (fun a b c => lt_of_lt_of_le) s _ _ (h' iv (by simp))
        (fun p hp => h' p (by simp [hp]))
  · intro h
    have h' : ∀ p ∈ Common.stableSort (Prod.fst : κ × κ → κ) l, p.1 ≤ p.2 :=
      fun p hp' => h p (hp.mem_iff.mp hp')
    cases hg : Common.stableSort (Prod.fst : κ × κ → κ) l with
    | nil => simp
    | cons iv s =>
      rw [hg] at h'
      exact mergeLoop_valid (· ≤ ·) (fun a b c => le_trans) s _ _ (h' iv (by simp))
        (fun p hp => h' p (by simp [hp]))

theorem Separated.tail {p : κ × κ} {l : List (κ × κ)} (h : Separated (p :: l)) : Separated l := by
  cases l with
  | nil => trivial
  | cons q l => exact h.2

theorem Separated.lt_all {p : κ × κ} {l : List (κ × κ)} (h : Separated (p :: l))
    (hv : ∀ q ∈ l, q.1 < q.2) : ∀ q ∈ l, p.2 < q.1 := by
  induction l generalizing p with
  | nil => simp
  | cons a l ih =>
    intro q hq
    rcases List.mem_cons.mp hq with rfl | hq
    · exact h.1
    · exact lt_trans h.1 (lt_trans (hv a (by simp))
        (ih h.2 (fun q hq => hv q (by simp [hq])) q hq))

/-- Separated lists of non-empty half-open intervals are determined by the covered points. -/
theorem separated_unique : ∀ (l₁ l₂ : List (κ × κ)), Separated l₁ → Separated l₂ →
    (∀ p ∈ l₁, p.1 < p.2) → (∀ p ∈ l₂, p.1 < p.2) → (∀ x, coversHO l₁ x ↔ coversHO l₂ x) → l₁ = l₂
  | [], [], _, _, _, _, _ => rfl
  | [], q :: l, _, _, _, hv, h => by
    have := (h q.1).mpr ⟨q, by simp, le_refl _, hv q (by simp)⟩
    obtain ⟨p, hp, -⟩ := this; simp at hp
  | p :: l, [], _, _, hv, _, h => by
    have := (h p.1).mp ⟨p, by simp, le_refl _, hv p (by simp)⟩
    obtain ⟨p, hp, -⟩ := this; simp at hp
  | p :: l, q :: m, s1, s2, v1, v2, h => by
    have g1 := s1.lt_all (fun x hx => v1 x (by simp [hx]))
    have g2 := s2.lt_all (fun x hx => v2 x (by simp [hx]))
    have lowle : ∀ (p q : κ × κ) (l m : List (κ × κ)), p.1 < p.2 → q.1 < q.2 →
        (∀ x ∈ m, q.2 < x.1) →
        coversHO (q :: m) p.1 → q.1 ≤ p.1 := by
      intro p q l m hp hq g hc
      obtain ⟨r, hr, hr1, -⟩ := hc
      rcases List.mem_cons.mp hr with rfl | hr
      · exact hr1
      · exact le_of_lt (lt_of_lt_of_le (lt_trans hq (g r hr)) hr1)
    have e1 : p.1 = q.1 := le_antisymm
      (lowle q p m l (v2 q (by simp)) (v1 p (by simp)) g1 ((h q.1).mpr ⟨q, by simp, le_refl _, v2 q (by simp)⟩))
      (lowle p q l m (v1 p (by simp)) (v2 q (by simp)) g2 ((h p.1).mp ⟨p, by simp, le_refl _, v1 p (by simp)⟩))
    have highle : ∀ (p q : κ × κ) (l m : List (κ × κ)), p.1 < p.2 → q.1 < q.2 → p.1 = q.1 →
        (∀ x ∈ l, p.2 < x.1) → (∀ x, coversHO (q :: m) x → coversHO (p :: l) x) → q.2 ≤ p.2 := by
      intro p q l m hp hq e g hc
      by_contra hlt
      have hlt := not_le.mp hlt
      have : coversHO (q :: m) p.2 := ⟨q, by simp, by rw [← e]; exact le_of_lt hp, hlt⟩
      obtain ⟨r, hr, hr1, hr2⟩ := hc _ this
      rcases List.mem_cons.mp hr with rfl | hr
      · exact lt_irrefl _ hr2
      · exact lt_irrefl _ (lt_of_lt_of_le (g r hr) hr1)
    have e2 : p.2 = q.2 := le_antisymm
      (highle q p m l (v2 q (by simp)) (v1 p (by simp)) e1.symm g2 (fun x => (h x).mp))
      (highle p q l m (v1 p (by simp)) (v2 q (by simp)) e1 g1 (fun x => (h x).mpr))
    have e : p = q := Prod.ext e1 e2
    subst e
    congr 1
    apply separated_unique l m s1.tail s2.tail (fun x hx => v1 x (by simp [hx]))
      (fun x hx => v2 x (by simp [hx]))
    intro x
    have key : ∀ (l : List (κ × κ)), (∀ r ∈ l, p.2 < r.1) →
        (coversHO l x ↔ (coversHO (p :: l) x ∧ p.2 ≤ x)) := by
      intro l g
      constructor
      · rintro ⟨r, hr, hr1, hr2⟩
        exact ⟨⟨r, by simp [hr], hr1, hr2⟩, le_trans (le_of_lt (g r hr)) hr1⟩
      · rintro ⟨⟨r, hr, hr1, hr2⟩, hx⟩
        rcases List.mem_cons.mp hr with rfl | hr
        · exact absurd hr2 (not_lt.mpr hx)
        · exact ⟨r, hr, hr1, hr2⟩
    rw [key l g1, key m g2, h x]

/-- Order independence for strictly ordered pairs. -/
theorem mergeroi1d_perm_strict (l₁ l₂ : List (κ × κ)) (hp : l₁.Perm l₂) (hv : ∀ p ∈ l₁, p.1 < p.2) :
    mergeroi1d l₁ = mergeroi1d l₂ := by
  apply separated_unique _ _ (mergeroi1d_separated l₁) (mergeroi1d_separated l₂)
    ((mergeroi1d_valid l₁).1 hv) ((mergeroi1d_valid l₂).1 (fun p h => hv p (hp.mem_iff.mpr h)))
  intro x
  rw [(mergeroi1d_union l₁ x).1, (mergeroi1d_union l₂ x).1]
  simp only [coversHO, hp.mem_iff]

/-- Embedding of a closed interval as a half-open interval of cuts. -/
def cut (p : κ × κ) : (κ ×ₗ Bool) × (κ ×ₗ Bool) := (toLex (p.1, false), toLex (p.2, true))

theorem cut_le (x y : κ) : (toLex (x, false) : κ ×ₗ Bool) ≤ toLex (y, true) ↔ x ≤ y := by
  rw [Prod.Lex.toLex_le_toLex]
  constructor
  · rintro (h | ⟨h, -⟩)
    · exact le_of_lt h
    · exact le_of_eq h
  · intro h
    rcases lt_or_eq_of_le h with h | h
    · exact Or.inl h
    · exact Or.inr ⟨h, by simp⟩

theorem cut_lt (x y : κ) : (toLex (x, false) : κ ×ₗ Bool) < toLex (y, true) ↔ x ≤ y := by
  rw [Prod.Lex.toLex_lt_toLex]
  constructor
  · rintro (h | ⟨h, -⟩)
    · exact le_of_lt h
    · exact le_of_eq h
  · intro h
    rcases lt_or_eq_of_le h with h | h
    · exact Or.inl h
    · exact Or.inr ⟨h, by simp⟩

theorem cut_le_same (x y : κ) (b : Bool) : (toLex (x, b) : κ ×ₗ Bool) ≤ toLex (y, b) ↔ x ≤ y := by
  rw [Prod.Lex.toLex_le_toLex]
  constructor
  · rintro (h | ⟨h, -⟩)
    · exact le_of_lt h
    · exact le_of_eq h
  · intro h
    rcases lt_or_eq_of_le h with h | h
    · exact Or.inl h
    · exact Or.inr ⟨h, le_refl _⟩

theorem cut_max (x y : κ) : max (toLex (x, true) : κ ×ₗ Bool) (toLex (y, true)) = toLex (max x y, true) := by
  rcases le_total x y with h | h
  · rw [max_eq_right h, max_eq_right ((cut_le_same x y true).mpr h)]
  · rw [max_eq_left h, max_eq_left ((cut_le_same y x true).mpr h)]

theorem mergeLoop_cut (l : List (κ × κ)) : ∀ low high : κ,
    (mergeLoop low high l).map cut = mergeLoop (toLex (low, false)) (toLex (high, true)) (l.map cut) := by
  induction l with
  | nil => intro low high; rfl
  | cons iv l ih =>
    intro low high
    rw [List.map_cons, mergeLoop, mergeLoop]
    have e1 : (cut iv).1 = toLex (iv.1, false) := rfl
    have e2 : (cut iv).2 = toLex (iv.2, true) := rfl
    rw [e1, e2]
    by_cases h : iv.1 ≤ high
    · rw [if_pos h, if_pos ((cut_le _ _).mpr h), ih, cut_max]
    · rw [if_neg h, if_neg (fun h' => h ((cut_le _ _).mp h')), List.map_cons, ih]; rfl

omit [LinearOrder κ] in
theorem cut_injective : Function.Injective (cut (κ := κ)) := by
  intro p q h
  have h1 := congrArg (fun r => (ofLex r.1).1) h
  have h2 := congrArg (fun r => (ofLex r.2).1) h
  exact Prod.ext h1 h2

theorem mergeroi1d_cut (l : List (κ × κ)) : (mergeroi1d l).map cut = mergeroi1d (l.map cut) := by
  have hsort : (Common.stableSort Prod.fst l).map cut = Common.stableSort Prod.fst (l.map cut) := by
    apply Common.stableSort_map
    intro a b
    simp only [cut, cut_le_same]
  unfold mergeroi1d
  rw [← hsort]
  cases Common.stableSort (Prod.fst : κ × κ → κ) l with
  | nil => rfl
  | cons iv s => exact mergeLoop_cut s iv.1 iv.2

/-- **C06 (order independence).** For intervals with `low ≤ high` the merged list does not depend
on the order in which they are given. -/
theorem mergeroi1d_perm (l₁ l₂ : List (κ × κ)) (hp : l₁.Perm l₂) (hv : ∀ p ∈ l₁, p.1 ≤ p.2) :
    mergeroi1d l₁ = mergeroi1d l₂ := by
  have h := mergeroi1d_perm_strict (l₁.map cut) (l₂.map cut) (hp.map cut) (by
    intro p hp
    obtain ⟨q, hq, rfl⟩ := List.mem_map.mp hp
    exact (cut_lt _ _).mpr (hv q hq))
  rw [← mergeroi1d_cut, ← mergeroi1d_cut] at h
  exact List.map_injective_iff.mpr cut_injective h

/-- **C06 (idempotent).** Merging an already merged list changes nothing. -/
theorem mergeroi1d_idempotent (l : List (κ × κ)) (hv : ∀ p ∈ l, p.1 ≤ p.2) :
    mergeroi1d (mergeroi1d l) = mergeroi1d l := by
  have strict : ∀ {κ : Type} [LinearOrder κ] (l : List (κ × κ)), (∀ p ∈ l, p.1 < p.2) →
      mergeroi1d (mergeroi1d l) = mergeroi1d l := by
    intro κ _ l hv
    have hv' := (mergeroi1d_valid l).1 hv
    apply separated_unique _ _ (mergeroi1d_separated _) (mergeroi1d_separated l)
      ((mergeroi1d_valid _).1 hv') hv'
    intro x
    rw [(mergeroi1d_union _ x).1]
  have h := strict (l.map cut) (by
    intro p hp
    obtain ⟨q, hq, rfl⟩ := List.mem_map.mp hp
    exact (cut_lt _ _).mpr (hv q hq))
  rw [← mergeroi1d_cut, ← mergeroi1d_cut] at h
  exact List.map_injective_iff.mpr cut_injective h

end merge

/-- The hypothesis `low ≤ high` is needed: with a reversed pair the order of equal starts matters. -/
theorem mergeroi1d_reversed_order_dependent :
    mergeroi1d [((5 : Int), (3 : Int)), (5, 8)] ≠ mergeroi1d [(5, 8), (5, 3)] := by
  decide +kernel

example : mergeroi1d [((7 : Int), (9 : Int)), (0, 3), (2, 5), (5, 6)] = [(0, 6), (7, 9)] := by
  decide +kernel

end SC.Roi
