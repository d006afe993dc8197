import Verif.AlignSimple.Props
import Verif.Center.Props
import Mathlib.Algebra.Order.Field.Rat
/-! # C79: alignment on the centroid -/
namespace SC.AlignSimple
open SC.Align SC.Center

/-- The pixels with zero for NaN. -/
def filled (img : Img) : Grid Rat := { ny := img.h, nx := img.w, v := fun i j => (img.get i j).getD 0 }

theorem numbers_filled (img : Img) : numbers (handleMissing .nan (some 0) img) = some (filled img) := by
  unfold numbers handleMissing replace
  simp only
  rw [if_pos]
  · unfold filled
    congr 2
    funext i j
    cases h : img.get (i : Int) (j : Int) <;> simp
  · simp only [List.all_eq_true]
    intro y _ x _
    cases h : img.get (y : Int) (x : Int) <;> simp

/-- The square of half width `o` around a pixel is the first one with a pixel below the threshold. -/
structure FirstBelow (g : Grid Rat) (thres : Rat) (i0 i1 o : Nat) : Prop where
  inside : o ≤ i0 ∧ o ≤ i1 ∧ i0 + o < g.ny ∧ i1 + o < g.nx
  above : ∀ off < o, ∀ i < 2 * off + 1, ∀ j < 2 * off + 1, thres ≤ g.v (i0 - off + i) (i1 - off + j)
  below : ∃ i < 2 * o + 1, ∃ j < 2 * o + 1, g.v (i0 - o + i) (i1 - o + j) < thres

theorem grow2_first (g : Grid Rat) (thres : Rat) (i0 i1 o : Nat) (h : FirstBelow g thres i0 i1 o) :
    ∀ (fuel off : Nat), off ≤ o → o < fuel + off → grow2 g thres i0 i1 fuel off = o
  | 0, off, h1, h2 => by omega
  | fuel + 1, off, h1, h2 => by
    unfold grow2
    rcases Nat.lt_or_eq_of_le h1 with hlt | heq
    · have ha : ∀ i < 2 * off + 1, ∀ j < 2 * off + 1, ¬ (window g i0 i1 off).v i j < thres := by
        intro i hi j hj
        exact not_lt.2 (h.above off hlt i hi j hj)
      rw [if_pos ha]
      obtain ⟨a, b, c, d⟩ := h.inside
      rw [if_neg (by omega)]
      exact grow2_first g thres i0 i1 o h fuel (off + 1) hlt (by omega)
    · subst heq
      rw [if_neg]
      intro ha
      obtain ⟨i, hi, j, hj, hb⟩ := h.below
      exact ha i hi j hj hb

theorem centroid2_congr (a b : Grid Rat) (h1 : a.ny = b.ny) (h2 : a.nx = b.nx) (h : ∀ i < a.ny, ∀ j < a.nx, a.v i j = b.v i j) :
    centroid2 a = centroid2 b := by
  have key : ∀ f : Nat → Nat → Rat, ∑ i ∈ Finset.range a.ny, ∑ j ∈ Finset.range a.nx, f i j * a.v i j =
      ∑ i ∈ Finset.range b.ny, ∑ j ∈ Finset.range b.nx, f i j * b.v i j := by
    intro f
    rw [← h1, ← h2]
    apply Finset.sum_congr rfl; intro i hi
    apply Finset.sum_congr rfl; intro j hj
    rw [h i (Finset.mem_range.1 hi) j (Finset.mem_range.1 hj)]
  have k1 := key (fun _ _ => 1)
  simp only [one_mul] at k1
  unfold centroid2
  simp only
  rw [k1, key (fun i j => (j : Rat)), key (fun i j => (i : Rat))]

/-- **C79.** On the centroid as well the translation is the movement, when the two images show the same square
around their maxima: the exchange of rows and columns in the centroid cancels. -/
theorem kernel_centroid (ref img : Img) (p p' : Nat × Nat) (o : Nat) (hl : isLine ref = false) (hl' : isLine img = false)
    (hp : IsFirstMax2 (filled ref) p) (hp' : IsFirstMax2 (filled img) p')
    (hb : FirstBelow (filled ref) (9 / 10 * (filled ref).v p.1 p.2) p.1 p.2 o)
    (hin : o ≤ p'.1 ∧ o ≤ p'.2 ∧ p'.1 + o < img.h ∧ p'.2 + o < img.w)
    (hsame : ∀ i < 2 * o + 1, ∀ j < 2 * o + 1, (filled img).v (p'.1 - o + i) (p'.2 - o + j) = (filled ref).v (p.1 - o + i) (p.2 - o + j)) :
    kernel .nan .centroid ref img = some ((p'.2 : Rat) - p.2, (p'.1 : Rat) - p.1) := by
  obtain ⟨a, b, c, d⟩ := hb.inside
  have hsq : ∀ off ≤ o, ∀ i < 2 * off + 1, ∀ j < 2 * off + 1,
      (filled img).v (p'.1 - off + i) (p'.2 - off + j) = (filled ref).v (p.1 - off + i) (p.2 - off + j) := by
    intro off ho i hi j hj
    have := hsame (o - off + i) (by omega) (o - off + j) (by omega)
    have e1 : p'.1 - o + (o - off + i) = p'.1 - off + i := by omega
    have e2 : p'.2 - o + (o - off + j) = p'.2 - off + j := by omega
    have e3 : p.1 - o + (o - off + i) = p.1 - off + i := by omega
    have e4 : p.2 - o + (o - off + j) = p.2 - off + j := by omega
    rw [e1, e2, e3, e4] at this
    exact this
  have hmax : (filled img).v p'.1 p'.2 = (filled ref).v p.1 p.2 := by
    simpa using hsq 0 (Nat.zero_le _) 0 (by omega) 0 (by omega)
  have hb' : FirstBelow (filled img) (9 / 10 * (filled ref).v p.1 p.2) p'.1 p'.2 o := by
    refine ⟨hin, ?_, ?_⟩
    · intro off ho i hi j hj
      rw [hsq off (Nat.le_of_lt ho) i hi j hj]
      exact hb.above off ho i hi j hj
    · obtain ⟨i, hi, j, hj, h⟩ := hb.below
      exact ⟨i, hi, j, hj, by rw [hsq o (Nat.le_refl _) i hi j hj]; exact h⟩
  have g1 := grow2_first _ _ _ _ o hb ((filled ref).ny + (filled ref).nx) 0 (Nat.zero_le _) (by omega)
  have g2 := grow2_first _ _ _ _ o hb' ((filled img).ny + (filled img).nx) 0 (Nat.zero_le _) (by
    have h1 : (filled img).ny = img.h := rfl
    omega)
  have hc : centroid2 (window (filled img) p'.1 p'.2 o) = centroid2 (window (filled ref) p.1 p.2 o) :=
    centroid2_congr _ _ rfl rfl (fun i hi j hj => hsame i hi j hj)
  have hline : ∀ im : Img, isLine (handleMissing .nan (some 0) im) = isLine im := fun _ => rfl
  have hxy : ∀ (im : Img) (q : Nat × Nat), isLine im = false → IsFirstMax2 (filled im) q →
      grow2 (filled im) (9 / 10 * (filled im).v q.1 q.2) q.1 q.2 ((filled im).ny + (filled im).nx) 0 = o →
      getxy .nan .centroid im = some (if o = 0 then ((q.2 : Rat), (q.1 : Rat)) else
        ((q.2 : Rat) + (centroid2 (window (filled im) q.1 q.2 o)).2 - o, (q.1 : Rat) + (centroid2 (window (filled im) q.1 q.2 o)).1 - o)) := by
    intro im q hli hq hg
    unfold getxy centroid
    simp only
    rw [numbers_filled, hline, hli]
    simp only [Option.bind_some, Bool.false_eq_true, if_false]
    unfold fcentroid2 foptimize2
    rw [(fmax2_spec _ q).2 hq]
    simp only [Option.map_some]
    rw [hg]
    split <;> rfl
  unfold kernel
  rw [hxy ref p hl hp g1, hxy img p' hl' hp' (by rw [hmax]; exact g2), hc]
  simp only [Option.bind_some, Option.map_some, Option.some.injEq]
  split
  · rfl
  · simp only [Prod.mk.injEq]
    constructor <;> ring

end SC.AlignSimple
