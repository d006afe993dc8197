import Verif.AlignSimple.Model
import Mathlib.Data.Rat.Floor
import Mathlib.Tactic.Linarith
import Mathlib.Tactic.Ring
import Mathlib.Tactic.Push
/-! # C79: alignment on a marker -/
namespace SC.AlignSimple
open SC.Align

/-- A pixel has a number that counts: NaN does not, nor does `cval`. -/
def Counts (cval : CVal) (p : Px) (v : Rat) : Prop := p = some v ∧ cval ≠ .num v

/-- In reading order. -/
def Before (y x y' x' : Nat) : Prop := y < y' ∨ y = y' ∧ x < x'

/-- `a` is more extreme than `b`. -/
def Better (k : Kind) (a b : Rat) : Prop := match k with
  | .min => a < b
  | _ => b < a

/-- The first extreme pixel. -/
structure IsMarker (cval : CVal) (k : Kind) (img : Img) (y x : Nat) (v : Rat) : Prop where
  hy : y < img.h
  hx : x < img.w
  val : Counts cval (img.get y x) v
  best : ∀ y' < img.h, ∀ x' < img.w, ∀ v', Counts cval (img.get y' x') v' → ¬ Better k v' v
  first : ∀ y' < img.h, ∀ x' < img.w, ∀ v', Counts cval (img.get y' x') v' → Before y' x' y x → Better k v v'

theorem beats_iff (k : Kind) (a b : Rat) : beats k a b = true ↔ Better k a b := by
  cases k <;> simp [beats, Better]

theorem better_total (k : Kind) {a b : Rat} (h : ¬ Better k a b) (h2 : ¬ Better k b a) : a = b := by
  cases k <;> simp only [Better, not_lt] at h h2 <;> linarith

theorem better_asymm (k : Kind) {a b : Rat} (h : Better k a b) : ¬ Better k b a := by
  cases k <;> simp only [Better, not_lt] at h ⊢ <;> linarith

theorem better_trans (k : Kind) {a b c : Rat} (h : Better k a b) (h2 : ¬ Better k c b) : Better k a c := by
  cases k <;> simp only [Better, not_lt] at h h2 ⊢ <;> linarith

theorem notBetter_trans (k : Kind) {a b c : Rat} (h : ¬ Better k a b) (h2 : ¬ Better k b c) : ¬ Better k a c := by
  cases k <;> simp only [Better, not_lt] at h h2 ⊢ <;> linarith

/-- The first extreme number of a list. -/
structure IsBest (k : Kind) (l : List Px) (i : Nat) (v : Rat) : Prop where
  val : l[i]? = some (some v)
  best : ∀ (j : Nat) (w : Rat), l[j]? = some (some w) → ¬ Better k w v
  first : ∀ (j : Nat), j < i → ∀ (w : Rat), l[j]? = some (some w) → Better k v w

theorem argbest_none (k : Kind) : ∀ l : List Px, argbest k l = none ↔ ∀ p ∈ l, p = none
  | [] => by simp [argbest]
  | none :: xs => by simp [argbest, argbest_none k xs]
  | some a :: xs => by
    simp only [argbest]
    cases argbest k xs with
    | none => simp
    | some r => simp only; split <;> simp

theorem argbest_best (k : Kind) : ∀ (l : List Px) (i : Nat) (v : Rat), argbest k l = some (i, v) → IsBest k l i v
  | [], i, v, h => by simp [argbest] at h
  | none :: xs, i, v, h => by
    simp only [argbest, Option.map_eq_some_iff, Prod.mk.injEq] at h
    obtain ⟨⟨j, w⟩, hj, h1, h2⟩ := h
    subst h1; subst h2
    have := argbest_best k xs j w hj
    refine ⟨by simpa using this.val, ?_, ?_⟩
    · rintro (_ | j') w' hw
      · simp at hw
      · exact this.best j' w' (by simpa using hw)
    · rintro (_ | j') hj' w' hw
      · simp at hw
      · exact this.first j' (by simp only at hj'; omega) w' (by simpa using hw)
  | some a :: xs, i, v, h => by
    simp only [argbest] at h
    cases hr : argbest k xs with
    | none =>
      rw [hr] at h
      simp only [Option.some.injEq, Prod.mk.injEq] at h
      obtain ⟨h1, h2⟩ := h
      subst h1; subst h2
      have hn := (argbest_none k xs).1 hr
      refine ⟨rfl, ?_, by intro j hj; omega⟩
      rintro (_ | j') w' hw
      · simp only [List.getElem?_cons_zero, Option.some.injEq] at hw
        subst hw
        exact fun hh => better_asymm k hh hh
      · have := hn _ (List.mem_of_getElem? (by simpa using hw))
        simp at this
    | some r =>
      obtain ⟨j, w⟩ := r
      have ih := argbest_best k xs j w hr
      rw [hr] at h
      simp only at h
      split at h
      · rename_i hb
        rw [beats_iff] at hb
        simp only [Option.some.injEq, Prod.mk.injEq] at h
        obtain ⟨h1, h2⟩ := h
        subst h1; subst h2
        refine ⟨by simpa using ih.val, ?_, ?_⟩
        · rintro (_ | j') w' hw
          · simp only [List.getElem?_cons_zero, Option.some.injEq] at hw
            subst hw
            exact better_asymm k hb
          · exact ih.best j' w' (by simpa using hw)
        · rintro (_ | j') hj' w' hw
          · simp only [List.getElem?_cons_zero, Option.some.injEq] at hw
            subst hw
            exact hb
          · exact ih.first j' (by omega) w' (by simpa using hw)
      · rename_i hb
        rw [beats_iff] at hb
        simp only [Option.some.injEq, Prod.mk.injEq] at h
        obtain ⟨h1, h2⟩ := h
        subst h1; subst h2
        refine ⟨rfl, ?_, by intro j hj; omega⟩
        rintro (_ | j') w' hw
        · simp only [List.getElem?_cons_zero, Option.some.injEq] at hw
          subst hw
          exact fun hh => better_asymm k hh hh
        · exact notBetter_trans k (ih.best j' w' (by simpa using hw)) hb

theorem isBest_unique (k : Kind) (l : List Px) {i j : Nat} {v w : Rat} (h : IsBest k l i v) (h2 : IsBest k l j w) : i = j ∧ v = w := by
  have hij : i = j := by
    rcases lt_trichotomy i j with hlt | heq | hlt
    · exact absurd (h2.first i hlt v h.val) (h.best j w h2.val)
    · exact heq
    · exact absurd (h.first j hlt w h2.val) (h2.best i v h.val)
  subst hij
  have := h.val.symm.trans h2.val
  simpa using this

theorem argbest_iff (k : Kind) (l : List Px) (i : Nat) (v : Rat) : argbest k l = some (i, v) ↔ IsBest k l i v := by
  constructor
  · exact argbest_best k l i v
  · intro h
    cases hr : argbest k l with
    | none =>
      have := (argbest_none k l).1 hr _ (List.mem_of_getElem? h.val)
      simp at this
    | some r =>
      obtain ⟨j, w⟩ := r
      obtain ⟨h1, h2⟩ := isBest_unique k l h (argbest_best k l j w hr)
      rw [h1, h2]

theorem flat_get (img : Img) {y x : Nat} (hy : y < img.h) (hx : x < img.w) :
    (flat img)[y * img.w + x]? = some (img.get y x) := by
  have hlt : y * img.w + x < img.h * img.w := by
    have := Nat.mul_le_mul_right img.w (Nat.succ_le_of_lt hy)
    rw [Nat.succ_mul] at this
    omega
  have h1 : (y * img.w + x) / img.w = y := by
    rw [Nat.mul_comm, Nat.mul_add_div (by omega), Nat.div_eq_of_lt hx, Nat.add_zero]
  have h2 : (y * img.w + x) % img.w = x := by
    rw [Nat.mul_comm, Nat.mul_add_mod, Nat.mod_eq_of_lt hx]
  unfold flat
  rw [List.getElem?_map, List.getElem?_range hlt]
  simp only [Option.map_some]
  rw [h1, h2]

theorem flat_inv (img : Img) {k : Nat} {p : Px} (h : (flat img)[k]? = some p) :
    k / img.w < img.h ∧ k % img.w < img.w ∧ k = (k / img.w) * img.w + k % img.w ∧ img.get (k / img.w : Nat) (k % img.w : Nat) = p := by
  unfold flat at h
  rw [List.getElem?_map] at h
  obtain ⟨k', hk', hp⟩ := Option.map_eq_some_iff.1 h
  have hlt : k < img.h * img.w := by
    have := (List.getElem?_eq_some_iff.1 hk').1
    simpa using this
  rw [List.getElem?_range hlt] at hk'
  simp only [Option.some.injEq] at hk'
  subst hk'
  have hw : 0 < img.w := by
    rcases Nat.eq_zero_or_pos img.w with h0 | h0
    · rw [h0] at hlt; omega
    · exact h0
  refine ⟨?_, Nat.mod_lt _ hw, ?_, hp⟩
  · exact (Nat.div_lt_iff_lt_mul hw).2 hlt
  · rw [Nat.mul_comm]; exact (Nat.div_add_mod k img.w).symm

theorem before_iff {w y x y' x' : Nat} (hx : x < w) (hx' : x' < w) : y' * w + x' < y * w + x ↔ Before y' x' y x := by
  unfold Before
  rcases lt_trichotomy y' y with h | h | h
  · have := Nat.mul_le_mul_right w (Nat.succ_le_of_lt h)
    rw [Nat.succ_mul] at this
    constructor
    · intro _; exact Or.inl h
    · intro _; omega
  · subst h
    constructor
    · intro h; exact Or.inr ⟨rfl, by omega⟩
    · rintro (h | ⟨_, h⟩) <;> omega
  · have := Nat.mul_le_mul_right w (Nat.succ_le_of_lt h)
    rw [Nat.succ_mul] at this
    constructor
    · intro _; omega
    · rintro (h' | ⟨h', _⟩) <;> omega

/-- The first extreme of the flattened pixels. -/
theorem isBest_iff (k : Kind) (img : Img) {y x : Nat} (hy : y < img.h) (hx : x < img.w) (v : Rat) :
    IsBest k (flat img) (y * img.w + x) v ↔ IsMarker .nan k img y x v := by
  constructor
  · intro h
    refine ⟨hy, hx, ⟨?_, by simp⟩, ?_, ?_⟩
    · have := h.val
      rw [flat_get img hy hx] at this
      simpa using this
    · intro y' hy' x' hx' v' hv'
      exact h.best _ v' (by rw [flat_get img hy' hx', hv'.1])
    · intro y' hy' x' hx' v' hv' hb
      exact h.first _ ((before_iff hx hx').2 hb) v' (by rw [flat_get img hy' hx', hv'.1])
  · intro h
    refine ⟨by rw [flat_get img hy hx, h.val.1], ?_, ?_⟩
    · intro j w hw
      obtain ⟨h1, h2, h3, h4⟩ := flat_inv img hw
      exact h.best _ h1 _ h2 w ⟨h4, by simp⟩
    · intro j hj w hw
      obtain ⟨h1, h2, h3, h4⟩ := flat_inv img hw
      refine h.first _ h1 _ h2 w ⟨h4, by simp⟩ ?_
      rw [h3] at hj
      exact (before_iff hx h2).1 hj

/-- Row and column for lines and images alike. -/
theorem extreme_iff (k : Kind) (img : Img) (p : Rat × Rat) :
    extreme k img = some p ↔ ∃ y x v, IsMarker .nan k img y x v ∧ p = ((y : Rat), (x : Rat)) := by
  have line : ∀ {y x : Nat}, y < img.h → x < img.w →
      (if isLine img then if img.h = 1 then ((0 : Rat), ((y * img.w + x : Nat) : Rat)) else (((y * img.w + x : Nat) : Rat), 0)
        else ((((y * img.w + x) / img.w : Nat) : Rat), (((y * img.w + x) % img.w : Nat) : Rat))) = ((y : Rat), (x : Rat)) := by
    intro y x hy hx
    have h1 : (y * img.w + x) / img.w = y := by
      rw [Nat.mul_comm, Nat.mul_add_div (by omega), Nat.div_eq_of_lt hx, Nat.add_zero]
    have h2 : (y * img.w + x) % img.w = x := by
      rw [Nat.mul_comm, Nat.mul_add_mod, Nat.mod_eq_of_lt hx]
    split
    · rename_i hl
      simp only [isLine, decide_eq_true_eq] at hl
      split
      · rename_i h
        have : y = 0 := by omega
        subst this
        simp
      · rename_i h
        have hw : img.w = 1 := by
          rcases hl with hl | hl
          · exact Nat.eq_of_mul_eq_mul_left (by omega : 0 < img.h) (by omega)
          · exact absurd (Nat.eq_of_mul_eq_mul_right (by omega : 0 < img.w) (by omega : img.h * img.w = 1 * img.w)) h
        have : x = 0 := by omega
        subst this
        simp [hw]
    · rw [h1, h2]
  unfold extreme
  constructor
  · intro h
    obtain ⟨⟨i, v⟩, hr, hp⟩ := Option.map_eq_some_iff.1 h
    have hb := argbest_best k _ i v hr
    obtain ⟨h1, h2, h3, h4⟩ := flat_inv img hb.val
    rw [h3] at hb
    refine ⟨_, _, v, (isBest_iff k img h1 h2 v).1 hb, ?_⟩
    rw [← hp]
    simp only
    have := line h1 h2
    rw [← h3] at this
    exact this
  · rintro ⟨y, x, v, hm, rfl⟩
    rw [(argbest_iff k _ _ _).2 ((isBest_iff k img hm.hy hm.hx v).2 hm)]
    simp only [Option.map_some]
    rw [line hm.hy hm.hx]

theorem handle_shape (cval : CVal) (newval : Px) (img : Img) :
    (handleMissing cval newval img).h = img.h ∧ (handleMissing cval newval img).w = img.w := by
  unfold handleMissing
  split
  · split <;> exact ⟨rfl, rfl⟩
  · split
    · exact ⟨rfl, rfl⟩
    · split <;> exact ⟨rfl, rfl⟩

/-- What counts before and after. -/
theorem handle_counts (cval : CVal) (h0 : cval ≠ .num 0) (img : Img) (y x : Int) (v : Rat) :
    Counts .nan ((handleMissing cval none img).get y x) v ↔ Counts cval (img.get y x) v := by
  unfold Counts handleMissing
  cases cval with
  | nan => simp
  | num c =>
    have hc : c ≠ 0 := fun e => h0 (by rw [e])
    simp only [reduceCtorEq, if_false, ne_eq, hc, not_false_eq_true, if_true, replace, and_true, CVal.num.injEq, decide_eq_true_eq]
    split
    · rename_i h
      rw [h]
      simp
    · rename_i h
      constructor
      · intro hv
        exact ⟨hv, fun e => h (by rw [hv, e])⟩
      · exact fun hv => hv.1

theorem handle_marker (cval : CVal) (h0 : cval ≠ .num 0) (k : Kind) (img : Img) (y x : Nat) (v : Rat) :
    IsMarker .nan k (handleMissing cval none img) y x v ↔ IsMarker cval k img y x v := by
  obtain ⟨e1, e2⟩ := handle_shape cval none img
  constructor
  · intro h
    refine ⟨e1 ▸ h.hy, e2 ▸ h.hx, (handle_counts cval h0 img _ _ v).1 h.val, ?_, ?_⟩
    · intro y' hy' x' hx' v' hv'
      exact h.best y' (e1.symm ▸ hy') x' (e2.symm ▸ hx') v' ((handle_counts cval h0 img _ _ v').2 hv')
    · intro y' hy' x' hx' v' hv'
      exact h.first y' (e1.symm ▸ hy') x' (e2.symm ▸ hx') v' ((handle_counts cval h0 img _ _ v').2 hv')
  · intro h
    refine ⟨e1.symm ▸ h.hy, e2.symm ▸ h.hx, (handle_counts cval h0 img _ _ v).2 h.val, ?_, ?_⟩
    · intro y' hy' x' hx' v' hv'
      exact h.best y' (e1 ▸ hy') x' (e2 ▸ hx') v' ((handle_counts cval h0 img _ _ v').1 hv')
    · intro y' hy' x' hx' v' hv'
      exact h.first y' (e1 ▸ hy') x' (e2 ▸ hx') v' ((handle_counts cval h0 img _ _ v').1 hv')

/-- **C79.** The marker is column and row of the first extreme pixel that counts, for images and lines of
pixels. -/
theorem getxy_iff (cval : CVal) (h0 : cval ≠ .num 0) (k : Kind) (hk : k ≠ .centroid) (img : Img) (p : Rat × Rat) :
    getxy cval k img = some p ↔ ∃ y x v, IsMarker cval k img y x v ∧ p = ((x : Rat), (y : Rat)) := by
  have hg : getxy cval k img = (extreme k (handleMissing cval none img)).map fun yx => (yx.2, yx.1) := by
    cases k with
    | centroid => exact absurd rfl hk
    | min => rfl
    | max => rfl
  rw [hg]
  constructor
  · intro h
    obtain ⟨q, hq, hp⟩ := Option.map_eq_some_iff.1 h
    obtain ⟨y, x, v, hm, he⟩ := (extreme_iff k _ q).1 hq
    exact ⟨y, x, v, (handle_marker cval h0 k img y x v).1 hm, by rw [← hp, he]⟩
  · rintro ⟨y, x, v, hm, rfl⟩
    rw [(extreme_iff k _ ((y : Rat), (x : Rat))).2 ⟨y, x, v, (handle_marker cval h0 k img y x v).2 hm, rfl⟩]
    rfl

/-- `img` shows `ref` moved by `dy` rows and `dx` columns; other pixels are less extreme than `v`. -/
structure Moved (cval : CVal) (k : Kind) (ref img : Img) (dy dx : Int) (v : Rat) : Prop where
  same : ∀ y < img.h, ∀ x < img.w, ∀ v', Counts cval (img.get y x) v' →
    Better k v v' ∨ (0 ≤ (y : Int) - dy ∧ (y : Int) - dy < ref.h ∧ 0 ≤ (x : Int) - dx ∧ (x : Int) - dx < ref.w ∧
      ref.get (y - dy) (x - dx) = img.get y x)

/-- The marker moves with the image. -/
theorem moved_marker (cval : CVal) (k : Kind) (ref img : Img) (dy dx : Int) (y x y' x' : Nat) (v : Rat)
    (hm : IsMarker cval k ref y x v) (hmov : Moved cval k ref img dy dx v) (hy : (y' : Int) = y + dy) (hx : (x' : Int) = x + dx)
    (hy' : y' < img.h) (hx' : x' < img.w) (hv : img.get y' x' = ref.get y x) : IsMarker cval k img y' x' v := by
  refine ⟨hy', hx', by rw [hv]; exact hm.val, ?_, ?_⟩
  · intro a ha b hb w hw
    rcases hmov.same a ha b hb w hw with h | ⟨h1, h2, h3, h4, h5⟩
    · exact better_asymm k h
    · obtain ⟨c, hc⟩ := Int.eq_ofNat_of_zero_le h1
      obtain ⟨d, hd⟩ := Int.eq_ofNat_of_zero_le h3
      rw [hc, hd] at h5
      rw [hc] at h2
      rw [hd] at h4
      exact hm.best c (by omega) d (by omega) w (by rw [h5]; exact hw)
  · intro a ha b hb w hw hbef
    rcases hmov.same a ha b hb w hw with h | ⟨h1, h2, h3, h4, h5⟩
    · exact h
    · obtain ⟨c, hc⟩ := Int.eq_ofNat_of_zero_le h1
      obtain ⟨d, hd⟩ := Int.eq_ofNat_of_zero_le h3
      rw [hc, hd] at h5
      rw [hc] at h2
      rw [hd] at h4
      refine hm.first c (by omega) d (by omega) w (by rw [h5]; exact hw) ?_
      unfold Before at hbef ⊢
      omega

/-- **C79.** For an image that shows the reference moved, with the marker still inside and nothing more
extreme coming in, the translation is the movement. -/
theorem kernel_moved (cval : CVal) (h0 : cval ≠ .num 0) (k : Kind) (hk : k ≠ .centroid) (ref img : Img) (dy dx : Int)
    (y x y' x' : Nat) (v : Rat) (hm : IsMarker cval k ref y x v) (hmov : Moved cval k ref img dy dx v)
    (hy : (y' : Int) = y + dy) (hx : (x' : Int) = x + dx) (hy' : y' < img.h) (hx' : x' < img.w)
    (hv : img.get y' x' = ref.get y x) : kernel cval k ref img = some ((dx : Rat), (dy : Rat)) := by
  have hm' := moved_marker cval k ref img dy dx y x y' x' v hm hmov hy hx hy' hx' hv
  unfold kernel
  rw [(getxy_iff cval h0 k hk ref _).2 ⟨y, x, v, hm, rfl⟩, (getxy_iff cval h0 k hk img _).2 ⟨y', x', v, hm', rfl⟩]
  simp only [Option.bind_some, Option.map_some, Option.some.injEq, Prod.mk.injEq]
  have e1 : ((x' : Int) : Rat) = ((x + dx : Int) : Rat) := by rw [hx]
  have e2 : ((y' : Int) : Rat) = ((y + dy : Int) : Rat) := by rw [hy]
  push_cast at e1 e2
  constructor
  · rw [e1]; ring
  · rw [e2]; ring

/-- **C79.** Whatever the images, the pixel of the aligned image at the marker of the reference is the marker of
the image. -/
theorem aligned_marker (interp : Img → Rat → Rat → Px) (cval : CVal) (h0 : cval ≠ .num 0) (k : Kind) (hk : k ≠ .centroid) (ref img : Img)
    (y x y' x' : Nat) (v v' : Rat) (hm : IsMarker cval k ref y x v) (hm' : IsMarker cval k img y' x' v') :
    ∃ out, aligned interp cval k ref img = some out ∧ out.get y x = some v' ∧ out.h = img.h ∧ out.w = img.w := by
  unfold aligned kernel
  rw [(getxy_iff cval h0 k hk ref _).2 ⟨y, x, v, hm, rfl⟩, (getxy_iff cval h0 k hk img _).2 ⟨y', x', v', hm', rfl⟩]
  simp only [Option.bind_some, Option.map_some]
  by_cases ht : ((x' : Rat) - x, (y' : Rat) - y) = (0, 0)
  · rw [if_pos ht]
    refine ⟨img, rfl, ?_, rfl, rfl⟩
    simp only [Prod.mk.injEq] at ht
    have e1 : x' = x := by
      have : (x' : Rat) = x := by linarith [ht.1]
      exact_mod_cast this
    have e2 : y' = y := by
      have : (y' : Rat) = y := by linarith [ht.2]
      exact_mod_cast this
    rw [← e1, ← e2]
    exact hm'.val.1
  · rw [if_neg ht]
    refine ⟨_, rfl, ?_, rfl, rfl⟩
    unfold shift
    simp only
    have e1 : ((y : Int) : Rat) - -((y' : Rat) - y) = ((y' : Int) : Rat) := by push_cast; ring
    have e2 : ((x : Int) : Rat) - -((x' : Rat) - x) = ((x' : Int) : Rat) := by push_cast; ring
    rw [e1, e2]
    have b1 : ((y' : Int) : Rat) + 1 ≤ (img.h : Rat) := by
      have := hm'.hy
      exact_mod_cast this
    have b2 : ((x' : Int) : Rat) + 1 ≤ (img.w : Rat) := by
      have := hm'.hx
      exact_mod_cast this
    have c1 : (0 : Rat) ≤ ((y' : Int) : Rat) := by exact_mod_cast Nat.zero_le y'
    have c2 : (0 : Rat) ≤ ((x' : Int) : Rat) := by exact_mod_cast Nat.zero_le x'
    rw [if_neg (by push Not; exact ⟨c1, by linarith, c2, by linarith⟩)]
    have i1 : isInt ((y' : Int) : Rat) = true := by simp [isInt]
    have i2 : isInt ((x' : Int) : Rat) = true := by simp [isInt]
    rw [i1, i2]
    simp only [Bool.and_self, if_true]
    rw [Rat.floor_intCast, Rat.floor_intCast]
    exact hm'.val.1

/-- **C79.** Of a moved image the aligned one shows the reference again, wherever the pixel was seen. -/
theorem aligned_moved (interp : Img → Rat → Rat → Px) (cval : CVal) (h0 : cval ≠ .num 0) (k : Kind) (hk : k ≠ .centroid) (ref img : Img) (dy dx : Int)
    (y x y' x' : Nat) (v : Rat) (hm : IsMarker cval k ref y x v) (hmov : Moved cval k ref img dy dx v)
    (hy : (y' : Int) = y + dy) (hx : (x' : Int) = x + dx) (hy' : y' < img.h) (hx' : x' < img.w)
    (hv : img.get y' x' = ref.get y x) :
    ∃ out, aligned interp cval k ref img = some out ∧ ∀ a b : Int, 0 ≤ a + dy → a + dy < img.h → 0 ≤ b + dx → b + dx < img.w →
      out.get a b = img.get (a + dy) (b + dx) := by
  unfold aligned
  rw [kernel_moved cval h0 k hk ref img dy dx y x y' x' v hm hmov hy hx hy' hx' hv]
  simp only [Option.map_some]
  by_cases ht : ((dx : Rat), (dy : Rat)) = (0, 0)
  · rw [if_pos ht]
    refine ⟨img, rfl, ?_⟩
    simp only [Prod.mk.injEq] at ht
    have e1 : dx = 0 := by exact_mod_cast ht.1
    have e2 : dy = 0 := by exact_mod_cast ht.2
    intro a b _ _ _ _
    rw [e1, e2]
    simp
  · rw [if_neg ht]
    refine ⟨_, rfl, ?_⟩
    intro a b h1 h2 h3 h4
    unfold shift
    simp only
    have e1 : (a : Rat) - -(dy : Rat) = ((a + dy : Int) : Rat) := by push_cast; ring
    have e2 : (b : Rat) - -(dx : Rat) = ((b + dx : Int) : Rat) := by push_cast; ring
    rw [e1, e2]
    have b1 : ((a + dy : Int) : Rat) + 1 ≤ (img.h : Rat) := by exact_mod_cast h2
    have b2 : ((b + dx : Int) : Rat) + 1 ≤ (img.w : Rat) := by exact_mod_cast h4
    have c1 : (0 : Rat) ≤ ((a + dy : Int) : Rat) := by exact_mod_cast h1
    have c2 : (0 : Rat) ≤ ((b + dx : Int) : Rat) := by exact_mod_cast h3
    rw [if_neg (by push Not; exact ⟨c1, by linarith, c2, by linarith⟩)]
    have i1 : isInt ((a + dy : Int) : Rat) = true := by simp [isInt]
    have i2 : isInt ((b + dx : Int) : Rat) = true := by simp [isInt]
    rw [i1, i2]
    simp only [Bool.and_self, if_true]
    rw [Rat.floor_intCast, Rat.floor_intCast]

/-- **C79.** An image without any pixel that counts cannot be aligned. -/
theorem getxy_none (cval : CVal) (h0 : cval ≠ .num 0) (k : Kind) (hk : k ≠ .centroid) (img : Img)
    (h : ∀ y < img.h, ∀ x < img.w, ∀ v, ¬ Counts cval (img.get (y : Nat) (x : Nat)) v) : getxy cval k img = none := by
  cases hg : getxy cval k img with
  | none => rfl
  | some p =>
    obtain ⟨y, x, v, hm, _⟩ := (getxy_iff cval h0 k hk img p).1 hg
    exact absurd hm.val (h y hm.hy x hm.hx v)

/-- **C79**, not so: with `cval = 0` the missing pixels are taken for pixels with the number zero. -/
theorem zero_counts (k : Kind) (hk : k ≠ .centroid) (img : Img) : getxy (.num 0) k img = getxy .nan k img := by
  cases k with
  | centroid => exact absurd rfl hk
  | min => rfl
  | max => rfl

end SC.AlignSimple
