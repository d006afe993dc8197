import Verif.Align.Lemmas
/-! # Lemmas for the axes after alignment -/
namespace SC.Align
open SC.Py

theorem setSlice_spec (v : List (Option Rat)) (a b : Int) (vals : List Rat) (h0 : 0 ≤ a) (h1 : a ≤ b)
    (h2 : b ≤ v.length) (hl : (vals.length : Int) = b - a) :
    ∃ r, setSlice v a b vals = some r ∧ r.length = v.length ∧
      ∀ k : Nat, k < v.length → r.getD k none =
        if a ≤ (k : Int) ∧ (k : Int) < b then vals[k - a.toNat]? else v.getD k none := by
  have hs := sl_eq h0 h1 h2
  have hv : vals.length = (b - a).toNat := by omega
  refine ⟨_, by simp only [setSlice, hs, hv, true_or, if_true]; rfl, by simp, fun k hk => ?_⟩
  rw [List.getD_eq_getElem?_getD, List.getElem?_map, List.getElem?_range hk]
  simp only [Option.map_some, Option.getD_some]
  by_cases hc : a ≤ (k : Int) ∧ (k : Int) < b
  · rw [if_pos hc, if_pos (by omega)]
  · rw [if_neg hc, if_neg (by omega)]

theorem getSlice_spec (v : List Rat) (a b : Int) (h0 : 0 ≤ a) (h1 : a ≤ b) (h2 : b ≤ v.length) :
    ((getSlice v a b).length : Int) = b - a ∧
    ∀ k : Nat, (k : Int) < b - a → (getSlice v a b)[k]? = some (v.getD (k + a.toNat) 0) := by
  have hs := sl_eq h0 h1 h2
  simp only [getSlice, hs]
  refine ⟨by rw [List.length_take, List.length_drop]; omega, fun k hk => ?_⟩
  rw [List.getElem?_take_of_lt (by omega), List.getElem?_drop, List.getD_eq_getElem?_getD]
  rw [show a.toNat + k = k + a.toNat by omega]
  rw [List.getElem?_eq_getElem (by omega)]; rfl

theorem arange_get (s d : Rat) (n k : Nat) (h : k < n) : (arange s d n)[k]? = some (s + d * k) := by
  rw [arange, List.getElem?_map, List.getElem?_range h]; rfl

theorem arange_length (s d : Rat) (n : Nat) : (arange s d n).length = n := by simp [arange]

/-- One axis: every entry is assigned and lies on the axis or its straight continuation. -/
theorem newAxis_spec (ax : List Rat) (nl nr : Int) (hN : 0 ≤ (ax.length : Int) + nl + nr)
    (hl : 0 ≤ (ax.length : Int) + nl) (hr : 0 ≤ (ax.length : Int) + nr)
    (h2 : 0 < nl ∨ 0 < nr → 2 ≤ ax.length) :
    ∃ r, newAxis ax nl nr = some r ∧ (r.length : Int) = ax.length + nl + nr ∧
      ∀ k : Nat, k < r.length → r.getD k none = some (axisAt ax ((k : Int) - nl)) := by
  set n : Int := (ax.length : Int) with hn
  -- the left part
  set N : Nat := (n + nl + nr).toNat with hNdef
  have hNn : (N : Int) = n + nl + nr := by omega
  obtain ⟨v1, e1, l1, g1⟩ : ∃ v1,
      leftPart ax nl (List.replicate N none) = some v1 ∧ v1.length = N ∧
      ∀ k : Nat, k < N → (k : Int) < nl → v1.getD k none = some (axisAt ax ((k : Int) - nl)) := by
    simp only [leftPart]
    by_cases hp : 0 < nl
    · have hlen := h2 (Or.inl hp)
      rw [if_pos hp]
      have a1 : ax[1]? = some (ax.getD 1 0) := by
        rw [List.getD_eq_getElem?_getD, List.getElem?_eq_getElem (by omega)]; rfl
      have a0 : ax[0]? = some (ax.getD 0 0) := by
        rw [List.getD_eq_getElem?_getD, List.getElem?_eq_getElem (by omega)]; rfl
      rw [a1, a0]
      simp only []
      obtain ⟨r, h3, h4, h5⟩ := setSlice_spec (List.replicate N none) 0 nl
        (arange (ax.getD 0 0 - (ax.getD 1 0 - ax.getD 0 0) * nl) (ax.getD 1 0 - ax.getD 0 0) nl.toNat)
        (le_refl _) (by omega) (by rw [List.length_replicate]; omega) (by rw [arange_length]; omega)
      refine ⟨r, h3, by rw [h4, List.length_replicate], fun k hk hkl => ?_⟩
      rw [h5 k (by rw [List.length_replicate]; exact hk), if_pos ⟨by omega, hkl⟩]
      simp only [Int.toNat_zero, Nat.sub_zero]
      rw [arange_get _ _ _ _ (by omega)]
      congr 1
      simp only [axisAt]
      rw [if_pos (by omega)]
      push_cast
      ring
    · rw [if_neg hp]
      exact ⟨_, rfl, by rw [List.length_replicate], fun k _ h => absurd h (by omega)⟩
  -- the middle part
  set axis0 : Int := if nl < 0 then 0 - nl else 0 with ha0
  set off0 : Int := if nl < 0 then 0 else 0 + nl with ho0
  set axisn : Int := if nr < 0 then n + nr else n with han
  have b1 : 0 ≤ axis0 ∧ axis0 ≤ axisn ∧ axisn ≤ n ∧ 0 ≤ off0 ∧ off0 - axis0 = nl ∧ off0 + axisn - axis0 ≤ N := by
    rw [ha0, ho0, han]
    refine ⟨?_, ?_, ?_, ?_, ?_, ?_⟩ <;> (repeat' split) <;> omega
  obtain ⟨b1, b2, b3, b4, b5, b6⟩ := b1
  obtain ⟨s1, s2⟩ := getSlice_spec ax axis0 axisn b1 b2 b3
  obtain ⟨v2, e2, l2, g2⟩ := setSlice_spec v1 off0 (off0 + axisn - axis0) (getSlice ax axis0 axisn) b4
    (by omega) (by rw [l1]; exact b6) (by rw [s1]; omega)
  have g2' : ∀ k : Nat, k < N → (k : Int) < off0 + axisn - axis0 →
      v2.getD k none = some (axisAt ax ((k : Int) - nl)) := by
    intro k hk hk2
    rw [g2 k (by omega)]
    by_cases hc : off0 ≤ (k : Int)
    · rw [if_pos ⟨hc, hk2⟩, s2 _ (by omega)]
      congr 1
      simp only [axisAt]
      rw [if_neg (by omega), if_pos (by omega)]
      congr 1
      omega
    · rw [if_neg (by omega)]
      refine g1 k hk ?_
      rw [ho0] at hc
      split at hc <;> omega
  have hcond : ¬ n + nl + nr < 0 := by omega
  -- the right part
  by_cases hp : 0 < nr
  · have hlen := h2 (Or.inr hp)
    have i1 : normIdx ax.length (-1) = some (ax.length - 1) := by
      simp only [normIdx]; rw [if_neg (by omega), if_pos (by omega)]; congr 1; omega
    have i2 : normIdx ax.length (-2) = some (ax.length - 2) := by
      simp only [normIdx]; rw [if_neg (by omega), if_pos (by omega)]; congr 1; omega
    have a1 : ax[ax.length - 1]? = some (ax.getD (ax.length - 1) 0) := by
      rw [List.getD_eq_getElem?_getD, List.getElem?_eq_getElem (by omega)]; rfl
    have a2 : ax[ax.length - 2]? = some (ax.getD (ax.length - 2) 0) := by
      rw [List.getD_eq_getElem?_getD, List.getElem?_eq_getElem (by omega)]; rfl
    have hoff : off0 + axisn - axis0 = n + nl := by
      rw [han]; split <;> omega
    obtain ⟨v3, e3, l3, g3⟩ := setSlice_spec v2 (off0 + axisn - axis0) v2.length
      (arange (ax.getD (ax.length - 1) 0 + (ax.getD (ax.length - 1) 0 - ax.getD (ax.length - 2) 0))
        (ax.getD (ax.length - 1) 0 - ax.getD (ax.length - 2) 0) nr.toNat)
      (by omega) (by omega) (le_refl _) (by rw [arange_length]; omega)
    refine ⟨v3, ?_, by omega, fun k hk => ?_⟩
    · simp only [newAxis]
      rw [if_neg hcond]
      simp only [← ha0, ← ho0, ← han, ← hn, ← hNdef, e1, e2, Option.bind_some, if_pos hp, i1, i2, a1, a2]
      exact e3
    · rw [g3 k (by omega)]
      by_cases hc : (k : Int) < off0 + axisn - axis0
      · rw [if_neg (by omega)]
        exact g2' k (by omega) hc
      · rw [if_pos (by omega), arange_get _ _ _ _ (by omega)]
        congr 1
        simp only [axisAt]
        rw [if_neg (by omega), if_neg (by omega)]
        have hq : ((k - (off0 + axisn - axis0).toNat : Nat) : Rat) = (k : Rat) - ((ax.length : Rat) + nl) := by
          have : ((k - (off0 + axisn - axis0).toNat : Nat) : Int) = (k : Int) - ((ax.length : Int) + nl) := by omega
          have h' : (((k - (off0 + axisn - axis0).toNat : Nat) : Int) : Rat) = (((k : Int) - ((ax.length : Int) + nl) : Int) : Rat) := by
            rw [this]
          push_cast at h' ⊢
          exact_mod_cast h'
        rw [hq]
        push_cast
        ring
  · refine ⟨v2, ?_, by omega, fun k hk => ?_⟩
    · simp only [newAxis]
      rw [if_neg hcond]
      simp only [← ha0, ← ho0, ← han, ← hn, ← hNdef, e1, e2, Option.bind_some, if_neg hp]
    · refine g2' k (by omega) ?_
      rw [han]; split <;> omega

end SC.Align
