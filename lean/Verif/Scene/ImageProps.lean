import Verif.Scene.Props
import Verif.Axis.Props
import Mathlib.Tactic.NormNum
/-! # Images, intensities and registration of items -/
namespace SC.Scene

/-! ## Channels -/

/-- There are one or three channels, and asking again gives the same ones. -/
theorem channels_count (depth : Nat) (c c' : Chan) (l : List (Option Int)) (h : channels depth c = .ok (l, c')) :
    (l.length = 1 ∨ l.length = 3) ∧ channels depth c' = .ok (l, c') := by
  cases c with
  | unset =>
    simp only [channels] at h ⊢
    split at h
    · next h1 => cases h; exact ⟨Or.inl (by simp [h1]), by simp [channels, h1]⟩
    · next h1 =>
      split at h
      · cases h
      · next h2 =>
        cases h
        refine ⟨Or.inr ?_, by simp only [channels]; rw [if_neg h1, if_neg h2]⟩
        simp only [List.length_map, List.length_range] at h2
        simp
        omega
  | one i => cases h; exact ⟨Or.inl rfl, rfl⟩
  | list l0 =>
    simp only [channels] at h
    split at h
    · next h1 => cases h; exact ⟨Or.inl h1, by simp [channels, h1]⟩
    · next h1 =>
      split at h
      · next h2 =>
        cases h
        have hlen : (l0 ++ List.replicate (3 - l0.length) (none : Option Int)).length = 3 := by simp; omega
        refine ⟨Or.inr hlen, ?_⟩
        simp only [channels, hlen]
        rw [if_neg (by omega), if_neg (by omega), List.take_of_length_le (by omega)]
      · next h2 =>
        cases h
        refine ⟨Or.inr (by simp; omega), ?_⟩
        simp only [channels]
        rw [if_neg h1, if_neg h2]
  | fixed l0 =>
    simp only [channels] at h
    split at h
    · next h1 => cases h; exact ⟨Or.inl h1, by simp [channels, h1]⟩
    · next h1 =>
      split at h
      · cases h
      · next h2 =>
        cases h
        refine ⟨Or.inr (by simp; omega), ?_⟩
        simp only [channels]
        rw [if_neg h1, if_neg h2]

/-- The channels that are asked for come first and in their order, the others are empty. -/
theorem channels_given (depth : Nat) (l0 l : List (Option Int)) (c' : Chan)
    (h : channels depth (.list l0) = .ok (l, c') ∨ channels depth (.fixed l0) = .ok (l, c')) (k : Nat) :
    l[k]? = if k < l0.length ∧ k < 3 then l0[k]? else if k < l.length then some none else none := by
  have key : ∀ n, (l0 ++ List.replicate n (none : Option Int))[k]? =
      if k < l0.length then l0[k]? else if k < l0.length + n then some none else none := by
    intro n
    split
    · next h1 => rw [List.getElem?_append_left h1]
    · next h1 =>
      rw [List.getElem?_append_right (by omega), List.getElem?_replicate]
      by_cases h2 : k < l0.length + n
      · rw [if_pos (by omega), if_pos h2]
      · rw [if_neg (by omega), if_neg h2]
  have htake : (l0.take 3)[k]? = if k < l0.length ∧ k < 3 then l0[k]? else if k < (l0.take 3).length then some none else none := by
    rw [List.getElem?_take]
    by_cases h : k < l0.length ∧ k < 3
    · rw [if_pos h.2, if_pos h]
    · have hlen : ¬ k < (l0.take 3).length := by rw [List.length_take]; omega
      rw [if_neg h, if_neg hlen]
      split
      · rw [List.getElem?_eq_none_iff]; omega
      · rfl
  have hone : l0.length = 1 → l0[k]? = if k < l0.length ∧ k < 3 then l0[k]? else if k < l0.length then some none else none := by
    intro h1
    by_cases h2 : k < l0.length ∧ k < 3
    · rw [if_pos h2]
    · rw [if_neg h2, if_neg (show ¬ k < l0.length by omega), List.getElem?_eq_none_iff]; omega
  rcases h with h | h
  · simp only [channels] at h
    split at h
    · next h1 => cases h; exact hone h1
    · split at h
      · next h1 h2 =>
        cases h
        rw [key]
        have hlen : (l0 ++ List.replicate (3 - l0.length) (none : Option Int)).length = 3 := by simp; omega
        rw [hlen]
        by_cases h3 : k < l0.length
        · rw [if_pos h3, if_pos ⟨h3, by omega⟩]
        · rw [if_neg h3, if_neg (show ¬ (k < l0.length ∧ k < 3) from fun h => h3 h.1), show l0.length + (3 - l0.length) = 3 by omega]
      · cases h; exact htake
  · simp only [channels] at h
    split at h
    · next h1 => cases h; exact hone h1
    · split at h
      · cases h
      · cases h; exact htake

example : channels 5 (.list [some 2, none]) = .ok ([some 2, none, none], .list [some 2, none, none]) := rfl

/-- Data with one, or with three or more channels: the first ones are shown when none are asked for. -/
theorem channels_default (depth : Nat) (h : depth = 1 ∨ 3 ≤ depth) :
    channels depth .unset = .ok ((List.range (min depth 3)).map fun (i : Nat) => some (i : Int), .unset) := by
  rcases h with rfl | h
  · rfl
  · have : min depth 3 = 3 := by omega
    simp only [channels, this]
    rfl

/-- Data with two channels cannot be shown unless channels are asked for. -/
theorem channels_two : channels 2 .unset = .error .attributeError := rfl

/-- A pixel shows the value of its channel, and nothing for a channel that is not used. -/
theorem pixel_spec (pix : List ℚ) (i : Nat) (h : i < pix.length) :
    pixel false pix (some i) = .ok pix[i] ∧ pixel false pix none = .ok 0 ∧
    (pix.length = 1 → pixel true pix (some i) = .ok pix[i]) ∧ ∀ flat, 0 < i → flat = true → pixel flat pix (some i) = .error .indexError := by
  refine ⟨by simp [pixel, pyget, h], rfl, fun h1 => ?_, fun flat hi hf => ?_⟩
  · have : i = 0 := by omega
    subst this
    simp [pixel, h]
  · subst hf
    have hne : (i : Int) ≠ 0 := by omega
    simp only [pixel]
    rw [if_pos trivial, if_pos hne]

/-- Labels are those of the channels. -/
theorem labels_spec (labels : List Str) (l : List (Option Int)) (k i : Nat) (hk : l[k]? = some (some (i : Int)))
    (hi : i < labels.length) : (chanLabels labels l)[k]? = some (some labels[i]) ∧ (chanLabels labels l).length = l.length := by
  simp [chanLabels, hk, pyget, hi]

/-! ## Intensities -/

theorem sorted_le (l : List ℚ) (i j : Nat) (hij : i ≤ j) (a b : ℚ) (ha : (SC.Common.stableSort id l)[i]? = some a)
    (hb : (SC.Common.stableSort id l)[j]? = some b) : a ≤ b := by
  have hs := SC.Common.stableSort_sorted (key := (id : ℚ → ℚ)) l
  obtain ⟨hi, rfl⟩ := List.getElem?_eq_some_iff.1 ha
  obtain ⟨hj, rfl⟩ := List.getElem?_eq_some_iff.1 hb
  rcases Nat.lt_or_eq_of_le hij with h | h
  · exact List.pairwise_iff_getElem.1 hs i j hi hj h
  · subst h; exact le_refl _

theorem sort_length (l : List ℚ) : (SC.Common.stableSort id l).length = l.length :=
  (SC.Common.stableSort_perm (key := (id : ℚ → ℚ)) l).length_eq

theorem round_bounds (n : Nat) (hn : 0 < n) (p : ℚ) (h0 : 0 ≤ p) (h1 : p ≤ 1) :
    0 ≤ SC.Axis.roundEven (p * ((n : ℚ) - 1)) ∧ SC.Axis.roundEven (p * ((n : ℚ) - 1)) ≤ (n : Int) - 1 := by
  have hn1 : (0 : ℚ) ≤ (n : ℚ) - 1 := by have : (1 : ℚ) ≤ n := by exact_mod_cast hn
                                         linarith
  have hq0 : 0 ≤ p * ((n : ℚ) - 1) := mul_nonneg h0 hn1
  have hq1 : p * ((n : ℚ) - 1) ≤ (n : ℚ) - 1 := by nlinarith
  have hr := abs_le.1 (SC.Axis.roundEven_near (p * ((n : ℚ) - 1)))
  constructor
  · have : (-1 : ℚ) < (SC.Axis.roundEven (p * ((n : ℚ) - 1)) : ℚ) := by linarith [hr.1]
    have : (-1 : Int) < SC.Axis.roundEven (p * ((n : ℚ) - 1)) := by exact_mod_cast this
    omega
  · have : (SC.Axis.roundEven (p * ((n : ℚ) - 1)) : ℚ) < (n : ℚ) := by linarith [hr.2]
    have : SC.Axis.roundEven (p * ((n : ℚ) - 1)) < (n : Int) := by exact_mod_cast this
    omega

/-- A percentile is one of the pixels; about that part of the pixels is below it, within half a pixel. -/
theorem percentile_spec (l : List ℚ) (hl : l ≠ []) (p : ℚ) (h0 : 0 ≤ p) (h1 : p ≤ 1) :
    ∃ v, percentile l p = some v ∧ v ∈ l ∧ ((l.countP (· < v) : Nat) : ℚ) ≤ p * ((l.length : ℚ) - 1) + 1 / 2 ∧
      ((l.countP (v < ·) : Nat) : ℚ) ≤ (1 - p) * ((l.length : ℚ) - 1) + 1 / 2 := by
  have hn : 0 < l.length := List.length_pos_iff.2 hl
  obtain ⟨hb0, hb1⟩ := round_bounds l.length hn p h0 h1
  set k := SC.Axis.roundEven (p * ((l.length : ℚ) - 1)) with hk
  have hperm := SC.Common.stableSort_perm (key := (id : ℚ → ℚ)) l
  have hlt : k.toNat < (SC.Common.stableSort id l).length := by rw [sort_length]; omega
  have hr := abs_le.1 (SC.Axis.roundEven_near (p * ((l.length : ℚ) - 1)))
  rw [← hk] at hr
  have hkk : ((k.toNat : Nat) : ℚ) = (k : ℚ) := by
    have : ((k.toNat : Nat) : Int) = k := by omega
    exact_mod_cast congrArg (fun z : Int => (z : ℚ)) this
  refine ⟨(SC.Common.stableSort id l)[k.toNat], ?_, ?_, ?_, ?_⟩
  · unfold percentile; rw [← hk]; exact List.getElem?_eq_getElem hlt
  · exact hperm.mem_iff.1 (List.getElem_mem hlt)
  · rw [← hperm.countP_eq]
    have hc : (SC.Common.stableSort id l).countP (· < (SC.Common.stableSort id l)[k.toNat]) ≤ k.toNat := by
      have hv := List.getElem?_eq_getElem hlt
      generalize (SC.Common.stableSort id l)[k.toNat] = v at hv ⊢
      rw [← List.take_append_drop k.toNat (SC.Common.stableSort id l), List.countP_append]
      have hd : ((SC.Common.stableSort id l).drop k.toNat).countP (fun x => decide (x < v)) = 0 := by
        rw [List.countP_eq_zero]
        intro x hx
        obtain ⟨j, hj⟩ := List.mem_iff_getElem?.1 hx
        rw [List.getElem?_drop] at hj
        simpa using sorted_le l k.toNat (k.toNat + j) (by omega) v x hv hj
      have ht : ((SC.Common.stableSort id l).take k.toNat).countP (fun x => decide (x < v)) ≤ k.toNat :=
        (List.countP_le_length).trans (by simp)
      omega
    have : ((SC.Common.stableSort id l).countP (· < (SC.Common.stableSort id l)[k.toNat]) : ℚ) ≤ (k.toNat : ℚ) := by exact_mod_cast hc
    linarith [hr.2]
  · rw [← hperm.countP_eq]
    have hc : (SC.Common.stableSort id l).countP ((SC.Common.stableSort id l)[k.toNat] < ·) ≤ l.length - (k.toNat + 1) := by
      have hv := List.getElem?_eq_getElem hlt
      generalize (SC.Common.stableSort id l)[k.toNat] = v at hv ⊢
      rw [← List.take_append_drop (k.toNat + 1) (SC.Common.stableSort id l), List.countP_append]
      have ht : ((SC.Common.stableSort id l).take (k.toNat + 1)).countP (fun x => decide (v < x)) = 0 := by
        rw [List.countP_eq_zero]
        intro x hx
        obtain ⟨j, hj⟩ := List.mem_iff_getElem?.1 hx
        rw [List.getElem?_take] at hj
        split at hj
        · simpa using sorted_le l j k.toNat (by omega) x v hj hv
        · cases hj
      have hd : ((SC.Common.stableSort id l).drop (k.toNat + 1)).countP (fun x => decide (v < x)) ≤ l.length - (k.toNat + 1) :=
        (List.countP_le_length).trans (by simp [sort_length])
      omega
    have h2 : ((l.length - (k.toNat + 1) : Nat) : ℚ) = (l.length : ℚ) - 1 - (k.toNat : ℚ) := by
      rw [sort_length] at hlt
      rw [Nat.cast_sub (by omega)]
      push_cast
      ring
    have : ((SC.Common.stableSort id l).countP ((SC.Common.stableSort id l)[k.toNat] < ·) : ℚ) ≤ (l.length : ℚ) - 1 - (k.toNat : ℚ) := by
      rw [← h2]; exact_mod_cast hc
    linarith [hr.1]

theorem percentile_zero (l : List ℚ) (hl : l ≠ []) :
    ∃ a b, percentile l 0 = some a ∧ percentile l 1 = some b ∧ IsRange l (a, b) := by
  obtain ⟨a, ha, ha1, ha2, -⟩ := percentile_spec l hl 0 (le_refl _) (by norm_num)
  obtain ⟨b, hb, hb1, -, hb2⟩ := percentile_spec l hl 1 (by norm_num) (le_refl _)
  refine ⟨a, b, ha, hb, ha1, hb1, fun x hx => ⟨?_, ?_⟩⟩
  · by_contra hc
    have hc : x < a := not_le.1 hc
    have : 0 < l.countP (· < a) := List.countP_pos_iff.2 ⟨x, hx, by simpa using hc⟩
    have h1 : (1 : ℚ) ≤ (l.countP (· < a) : ℚ) := by exact_mod_cast this
    rw [zero_mul] at ha2
    linarith
  · by_contra hc
    have hc : b < x := not_le.1 hc
    have : 0 < l.countP (b < ·) := List.countP_pos_iff.2 ⟨x, hx, by simpa using hc⟩
    have h1 : (1 : ℚ) ≤ (l.countP (b < ·) : ℚ) := by exact_mod_cast this
    rw [sub_self, zero_mul] at hb2
    linarith

/-- Nothing is trimmed by default: the limits are the smallest and largest pixel. -/
theorem vminmax_all (img : List ℚ) (h : img ≠ []) (p : ℚ) (hp : p ≤ 0) : ∃ v, vminmax img p = some v ∧ IsRange img v := by
  obtain ⟨a, b, ha, hb, hr⟩ := percentile_zero img h
  refine ⟨(a, b), ?_, hr⟩
  unfold vminmax
  have : max (min p 1) 0 = 0 := by rw [min_eq_left (by linarith)]; exact max_eq_right hp
  simp only [this, sub_zero, ha, hb]

theorem percentile_mono (l : List ℚ) (p q : ℚ) (hpq : p ≤ q) (a b : ℚ) (hl : l ≠ [])
    (ha : percentile l p = some a) (hb : percentile l q = some b) : a ≤ b := by
  have hn : (1 : ℚ) ≤ l.length := by exact_mod_cast List.length_pos_iff.2 hl
  have hle : p * ((l.length : ℚ) - 1) ≤ q * ((l.length : ℚ) - 1) := by nlinarith
  have hmono : SC.Axis.roundEven (p * ((l.length : ℚ) - 1)) ≤ SC.Axis.roundEven (q * ((l.length : ℚ) - 1)) := by
    generalize p * ((l.length : ℚ) - 1) = x at hle
    generalize q * ((l.length : ℚ) - 1) = y at hle
    rcases lt_or_eq_of_le hle with hlt | heq
    · by_contra hc
      have hc : SC.Axis.roundEven y < SC.Axis.roundEven x := not_le.1 hc
      have h1 := abs_le.1 (SC.Axis.roundEven_near x)
      have h2 := abs_le.1 (SC.Axis.roundEven_near y)
      have h3 : ((SC.Axis.roundEven y : Int) : ℚ) + 1 ≤ (SC.Axis.roundEven x : ℚ) := by exact_mod_cast hc
      linarith [h1.2, h2.1]
    · rw [heq]
  unfold percentile at ha hb
  exact sorted_le l _ _ (by omega) a b ha hb

/-- The lower limit is not above the upper one when at most half is trimmed on each side; it is not below when at least
half is trimmed. -/
theorem vminmax_order (img : List ℚ) (h : img ≠ []) (p : ℚ) (v : ℚ × ℚ) (hv : vminmax img p = some v) :
    (p ≤ 1 / 2 → v.1 ≤ v.2) ∧ (1 / 2 ≤ p → v.2 ≤ v.1) := by
  unfold vminmax at hv
  simp only at hv
  set q := max (min p 1) 0 with hq
  have hq0 : 0 ≤ q := le_max_right _ _
  have hq1 : q ≤ 1 := max_le (min_le_right _ _) (by norm_num)
  cases ha : percentile img q with
  | none => rw [ha] at hv; cases hv
  | some a =>
    cases hb : percentile img (1 - q) with
    | none => rw [ha, hb] at hv; cases hv
    | some b =>
      rw [ha, hb] at hv
      cases hv
      refine ⟨fun hp => percentile_mono img q (1 - q) ?_ a b h ha hb,
        fun hp => percentile_mono img (1 - q) q ?_ b a h hb ha⟩
      · have : q ≤ 1 / 2 := max_le ((min_le_left _ _).trans hp) (by norm_num)
        linarith
      · have : 1 / 2 ≤ q := le_trans (le_min hp (by norm_num)) (le_max_left _ _)
        linarith

example : vminmax [5, 1, 4, 2, 3] (1 / 4) = some (2, 4) := by decide +kernel
example : vminmax [5, 1, 4, 2, 3] (3 / 4) = some (4, 2) := by decide +kernel

/-- Parts of the range of an image: all of it for 0 and 1, inside and in order for parts in order. -/
theorem selfscale_spec (v : ℚ × ℚ) (hv : v.1 ≤ v.2) (p q : ℚ) :
    selfscale v 0 1 = v ∧ (p ≤ q → (selfscale v p q).1 ≤ (selfscale v p q).2) ∧
    (0 ≤ p → v.1 ≤ (selfscale v p q).1) ∧ (q ≤ 1 → (selfscale v p q).2 ≤ v.2) := by
  unfold selfscale
  refine ⟨Prod.ext (by simp) (by simp), fun h => ?_, fun h => ?_, fun h => ?_⟩ <;> simp only <;> nlinarith

theorem pfill_get (p : List ℚ) (n k : Nat) (hk : k < n) : (pfill p n)[k]? = some (if h : k < p.length then p[k] else 0) := by
  unfold pfill
  split
  · next h =>
    by_cases hp : k < p.length
    · rw [List.getElem?_append_left hp, dif_pos hp]; exact List.getElem?_eq_getElem hp
    · rw [List.getElem?_append_right (by omega), dif_neg hp, List.getElem?_replicate, if_pos (by omega)]
  · next h =>
    have hp : k < p.length := by omega
    rw [dif_pos hp, List.getElem?_take, if_pos hk]
    exact List.getElem?_eq_getElem hp

/-- Channel by channel; a channel without upper part gets limits without size. -/
theorem selfscaleAll_spec (v : List (ℚ × ℚ)) (pmin pmax : List ℚ) (k : Nat) (hk : k < v.length) :
    (selfscaleAll v pmin pmax)[k]? = some (selfscale v[k] (if h : k < pmin.length then pmin[k] else 0)
      (if h : k < pmax.length then pmax[k] else 0)) ∧
    (pmin.length ≤ k → pmax.length ≤ k → (selfscaleAll v pmin pmax)[k]? = some (v[k].1, v[k].1)) := by
  have h1 : (selfscaleAll v pmin pmax)[k]? = some (selfscale v[k] (if h : k < pmin.length then pmin[k] else 0)
      (if h : k < pmax.length then pmax[k] else 0)) := by
    unfold selfscaleAll
    rw [List.getElem?_zipWith, List.getElem?_eq_getElem hk]
    have : ((pfill pmin v.length).zip (pfill pmax v.length))[k]? =
        some ((if h : k < pmin.length then pmin[k] else 0), (if h : k < pmax.length then pmax[k] else 0)) := by
      rw [List.getElem?_zip_eq_some]
      exact ⟨pfill_get pmin _ k hk, pfill_get pmax _ k hk⟩
    rw [this]
  refine ⟨h1, fun ha hb => ?_⟩
  rw [h1, dif_neg (by omega), dif_neg (by omega)]
  simp [selfscale]

theorem optFold_min (l : List (Option ℚ)) (m : ℚ) (h : optFold min l = some m) :
    some m ∈ l ∧ ∀ x, some x ∈ l → m ≤ x := by
  induction l generalizing m with
  | nil => cases h
  | cons a l ih =>
    cases a with
    | none => obtain ⟨h1, h2⟩ := ih m h; exact ⟨by simp [h1], fun x hx => h2 x (by simpa using hx)⟩
    | some a =>
      simp only [optFold] at h
      cases hr : optFold min l with
      | none =>
        rw [hr] at h; cases h
        refine ⟨by simp, fun x hx => ?_⟩
        rcases List.mem_cons.1 hx with hx | hx
        · cases hx; exact le_refl _
        · exfalso
          have : ∀ (l : List (Option ℚ)) (x : ℚ), some x ∈ l → optFold min l ≠ none := by
            intro l
            induction l with
            | nil => intro x hx; cases hx
            | cons b l ih =>
              intro x hx
              cases b with
              | none => exact ih x (by simpa using hx)
              | some b => simp only [optFold]; cases optFold min l <;> simp
          exact this l x hx hr
      | some y =>
        rw [hr] at h; cases h
        obtain ⟨h1, h2⟩ := ih y hr
        refine ⟨?_, fun x hx => ?_⟩
        · rcases min_choice a y with h | h <;> rw [h] <;> simp [h1]
        · rcases List.mem_cons.1 hx with hx | hx
          · cases hx; exact min_le_left _ _
          · exact (min_le_right _ _).trans (h2 x hx)

theorem optFold_max (l : List (Option ℚ)) (m : ℚ) (h : optFold max l = some m) :
    some m ∈ l ∧ ∀ x, some x ∈ l → x ≤ m := by
  induction l generalizing m with
  | nil => cases h
  | cons a l ih =>
    cases a with
    | none => obtain ⟨h1, h2⟩ := ih m h; exact ⟨by simp [h1], fun x hx => h2 x (by simpa using hx)⟩
    | some a =>
      simp only [optFold] at h
      cases hr : optFold max l with
      | none =>
        rw [hr] at h; cases h
        refine ⟨by simp, fun x hx => ?_⟩
        rcases List.mem_cons.1 hx with hx | hx
        · cases hx; exact le_refl _
        · exfalso
          have : ∀ (l : List (Option ℚ)) (x : ℚ), some x ∈ l → optFold max l ≠ none := by
            intro l
            induction l with
            | nil => intro x hx; cases hx
            | cons b l ih =>
              intro x hx
              cases b with
              | none => exact ih x (by simpa using hx)
              | some b => simp only [optFold]; cases optFold max l <;> simp
          exact this l x hx hr
      | some y =>
        rw [hr] at h; cases h
        obtain ⟨h1, h2⟩ := ih y hr
        refine ⟨?_, fun x hx => ?_⟩
        · rcases max_choice a y with h | h <;> rw [h] <;> simp [h1]
        · rcases List.mem_cons.1 hx with hx | hx
          · cases hx; exact le_max_left _ _
          · exact (h2 x hx).trans (le_max_right _ _)

theorem optFold_some (f : ℚ → ℚ → ℚ) (l : List (Option ℚ)) (x : ℚ) (h : some x ∈ l) : ∃ m, optFold f l = some m := by
  induction l with
  | nil => cases h
  | cons b l ih =>
    cases b with
    | none => exact ih (by simpa using h)
    | some b => simp only [optFold]; cases optFold f l <;> simp

/-- The limits of a scene hold those of all its images, channel by channel, and are reached. -/
theorem sceneVminmax_spec (l : List (List (ℚ × ℚ))) (v : List (ℚ × ℚ)) (hv : v ∈ l) (k : Nat) (hk : k < v.length) :
    ∃ a b, (sceneVminmax l)[k]? = some (some a, some b) ∧ a ≤ v[k].1 ∧ v[k].2 ≤ b ∧
      (∃ w ∈ l, ∃ h : k < w.length, w[k].1 = a) ∧ ∃ w ∈ l, ∃ h : k < w.length, w[k].2 = b := by
  have hn : k < (l.map List.length).foldl max 0 := by
    have : ∀ (l : List Nat) (m x : Nat), x ∈ l → x ≤ l.foldl max m := by
      intro l
      induction l with
      | nil => intro m x hx; cases hx
      | cons y l ih =>
        intro m x hx
        rw [List.foldl_cons]
        have hmono : ∀ (l : List Nat) (m : Nat), m ≤ l.foldl max m := by
          intro l
          induction l with
          | nil => intro m; exact le_refl _
          | cons z l ih => intro m; rw [List.foldl_cons]; exact (le_max_left _ _).trans (ih _)
        rcases List.mem_cons.1 hx with rfl | hx
        · exact (le_max_right _ _).trans (hmono _ _)
        · exact ih _ x hx
    exact lt_of_lt_of_le hk (this _ 0 _ (List.mem_map.2 ⟨v, hv, rfl⟩))
  have hget : (sceneVminmax l)[k]? = some (optFold min (l.map fun v => (v[k]?).map Prod.fst), optFold max (l.map fun v => (v[k]?).map Prod.snd)) := by
    unfold sceneVminmax
    simp only [List.getElem?_map, List.getElem?_range hn, Option.map_some]
  have m1 : some v[k].1 ∈ l.map fun v => (v[k]?).map Prod.fst := List.mem_map.2 ⟨v, hv, by simp [hk]⟩
  have m2 : some v[k].2 ∈ l.map fun v => (v[k]?).map Prod.snd := List.mem_map.2 ⟨v, hv, by simp [hk]⟩
  obtain ⟨a, ha⟩ := optFold_some min _ _ m1
  obtain ⟨b, hb⟩ := optFold_some max _ _ m2
  obtain ⟨a1, a2⟩ := optFold_min _ a ha
  obtain ⟨b1, b2⟩ := optFold_max _ b hb
  have hex : ∀ (f : ℚ × ℚ → ℚ) (c : ℚ), some c ∈ l.map (fun v => (v[k]?).map f) → ∃ w ∈ l, ∃ h : k < w.length, f w[k] = c := by
    intro f c hc
    obtain ⟨w, hw, hwc⟩ := List.mem_map.1 hc
    obtain ⟨x, hx, rfl⟩ := Option.map_eq_some_iff.1 hwc
    obtain ⟨hlt, rfl⟩ := List.getElem?_eq_some_iff.1 hx
    exact ⟨w, hw, hlt, rfl⟩
  exact ⟨a, b, by rw [hget, ha, hb], a2 _ m1, b2 _ m2, hex _ a a1, hex _ b b1⟩

example : sceneVminmax [[(1, 5), (0, 2)], [(-1, 3)]] = [(some (-1), some 5), (some 0, some 2)] := by decide +kernel
example : selfscaleAll [(1, 5), (0, 2)] [1 / 2] [1] = [(3, 5), (0, 0)] := by decide +kernel

/-- Limits for a whole scene: the lower one is where it is asked for, the upper one is too high by the lower part; an
upper one alone cannot be given. -/
theorem globalscaling_spec (v : ℚ × ℚ) (a b : ℚ) :
    globalscaling v (some a) (some b) = .ok (some (selfscale v a (a + b)).1, some (selfscale v a (a + b)).2) ∧
    (v.1 ≠ v.2 → (globalscaling v (some a) (some b) = .ok (some (selfscale v a b).1, some (selfscale v a b).2) ↔ a = 0)) ∧
    globalscaling v none (some b) = .error .typeError := by
  refine ⟨?_, fun hv => ?_, rfl⟩
  · simp only [globalscaling, selfscale]
    congr 2
    ring_nf
  · simp only [globalscaling, selfscale, Except.ok.injEq, Prod.mk.injEq, true_and, Option.some.injEq]
    have hd : v.2 - v.1 ≠ 0 := fun h => hv (by linarith)
    constructor
    · intro h
      have : (v.2 - v.1) * a = 0 := by linarith
      exact (mul_eq_zero.1 this).resolve_left hd
    · rintro rfl; ring

/-- The colour of a value is between 0 and 1, the value shown is the one given when it is within the limits and the
nearest limit otherwise. -/
theorem compcolor_spec (c mi ma : ℚ) (h : mi < ma) :
    0 ≤ (compcolor c (some (mi, ma))).2 ∧ (compcolor c (some (mi, ma))).2 ≤ 1 ∧
    (compcolor c (some (mi, ma))).1 = max mi (min c ma) ∧
    (compcolor c (some (mi, ma))).1 = (compcolor c (some (mi, ma))).2 * (ma - mi) + mi := by
  have hd : 0 < ma - mi := by linarith
  have hv : max (min ((c - mi) / (ma - mi)) 1) 0 * (ma - mi) + mi = max mi (min c ma) := by
    rcases le_total c mi with h1 | h1
    · have : (c - mi) / (ma - mi) ≤ 0 := div_nonpos_of_nonpos_of_nonneg (by linarith) hd.le
      rw [max_eq_right ((min_le_left _ _).trans this), min_eq_left (by linarith), max_eq_left h1]
      ring
    · have h0 : 0 ≤ (c - mi) / (ma - mi) := div_nonneg (by linarith) hd.le
      rcases le_total c ma with h2 | h2
      · have : (c - mi) / (ma - mi) ≤ 1 := (div_le_one hd).2 (by linarith)
        rw [min_eq_left this, max_eq_left h0, min_eq_left h2, max_eq_right h1]
        field_simp
        ring
      · have : 1 ≤ (c - mi) / (ma - mi) := (one_le_div hd).2 (by linarith)
        rw [min_eq_right this, max_eq_left (by norm_num), min_eq_right h2, max_eq_right h.le]
        ring
  exact ⟨le_max_right _ _, max_le (min_le_right _ _) (by norm_num), hv, rfl⟩

example : compcolor 7 (some (1, 5)) = (5, 1) ∧ compcolor 2 (some (1, 5)) = (2, 1 / 4) := by decide +kernel

/-! ## Positions of pixels -/

/-- The centre of every pixel is at its coordinate, for coordinates from the first to the last pixel in equal steps. -/
theorem pixel_position (s : Scene) (a : Fin 2) (lim : Fin 2 → ℚ × ℚ) (n : Fin 2 → Nat) (hn : 2 ≤ n a) (p : ℚ × ℚ)
    (hp : itemLim s a (.image lim n) = .ok p) (i : Nat) :
    pixelCentre p (n a) i = datatransform s a ((lim a).1 + i * (((lim a).2 - (lim a).1) / ((n a : ℚ) - 1))) := by
  simp only [itemLim, Except.ok.injEq] at hp
  subst hp
  have h2 : (2 : ℚ) ≤ n a := by exact_mod_cast hn
  have hd : (n a : ℚ) - 1 ≠ 0 := by intro h; linarith
  have hn0 : (n a : ℚ) ≠ 0 := by intro h; linarith
  simp only [pixelCentre, datatransform]
  field_simp
  ring

example : (itemLim ⟨false, fun _ => true, fun _ => 1, fun _ => 0, fun _ => 1, none, fun _ => [], []⟩ 1 (.image (fun _ => (2, 8)) fun _ => 4)).toOption = some (1, 9) := by
  decide +kernel

/-- Rows and columns of the display are the pixels along the axes that are shown. -/
theorem display_axes {α : Type} (t : Bool) (data : Nat → Nat → α) (n : Fin 2 → Nat) (i : Fin 2 → Nat) :
    displayed t data (i (dataaxis t false)) (i (dataaxis t true)) = data (i 0) (i 1) ∧
    ∀ x, displayCount t n x = n (dataaxis t x) := by
  cases t
  · exact ⟨rfl, fun x => by cases x <;> rfl⟩
  · exact ⟨rfl, fun x => by cases x <;> rfl⟩

/-- The border is the closed rectangle of the limits. -/
theorem border_spec (x y : ℚ × ℚ) : (bordercoord x y).head? = (bordercoord x y).getLast? ∧
    (∀ p ∈ bordercoord x y, (p.1 = x.1 ∨ p.1 = x.2) ∧ (p.2 = y.1 ∨ p.2 = y.2)) ∧
    (x.1, y.1) ∈ bordercoord x y ∧ (x.1, y.2) ∈ bordercoord x y ∧ (x.2, y.1) ∈ bordercoord x y ∧ (x.2, y.2) ∈ bordercoord x y := by
  rcases le_total x.1 x.2 with hx | hx <;> rcases le_total y.1 y.2 with hy | hy <;>
    simp [bordercoord, hx, hy]

/-- Along each side of the border one coordinate stays. -/
theorem border_sides (x y : ℚ × ℚ) (k : Nat) (p q : ℚ × ℚ) (hp : (bordercoord x y)[k]? = some p)
    (hq : (bordercoord x y)[k + 1]? = some q) : p.1 = q.1 ∨ p.2 = q.2 := by
  match k with
  | 0 => simp [bordercoord] at hp hq; subst hp hq; right; rfl
  | 1 => simp [bordercoord] at hp hq; subst hp hq; left; rfl
  | 2 => simp [bordercoord] at hp hq; subst hp hq; right; rfl
  | 3 => simp [bordercoord] at hp hq; subst hp hq; left; rfl
  | k + 4 => simp [bordercoord] at hq

/-! ## Items and scenes -/

open SC.Py in
/-- The selected scene is the active one; selecting works exactly for scenes the item is registered with. -/
theorem select_spec (r : Reg) (s : Nat) : (∃ r', selectscene r s = .ok r') ↔ s ∈ r.scenes.map Prod.fst := by
  unfold selectscene
  rw [List.idxOf?_eq_map_finIdxOf?_val]
  cases h : (r.scenes.map Prod.fst).finIdxOf? s with
  | none => simp only [Option.map_none]; rw [List.finIdxOf?_eq_none_iff] at h; simp [h]
  | some i =>
    simp only [Option.map_some]
    have := List.finIdxOf?_eq_some_iff.1 h
    have h2 : s ∈ r.scenes.map Prod.fst := by rw [← this.1]; exact List.getElem_mem _
    simp [h2]

theorem select_active (r r' : Reg) (s : Nat) (h : selectscene r s = .ok r') : activeScene r' = some s ∧ r'.scenes = r.scenes := by
  unfold selectscene at h
  rw [List.idxOf?_eq_map_finIdxOf?_val] at h
  cases hi : (r.scenes.map Prod.fst).finIdxOf? s with
  | none => rw [hi] at h; cases h
  | some i =>
    rw [hi] at h
    simp only [Option.map_some, Except.ok.injEq] at h
    subst h
    have := List.finIdxOf?_eq_some_iff.1 hi
    refine ⟨?_, rfl⟩
    unfold activeScene pyget
    simp only [Int.natCast_nonneg, if_true, Int.toNat_natCast]
    rw [List.getElem?_eq_getElem i.isLt]
    exact congrArg some this.1

theorem set_new_fst (d : SC.Py.Dict Nat (SC.Py.Dict Str Nat)) (k : Nat) (h : SC.Py.Dict.get? d k = none) :
    (SC.Py.Dict.set d k []).map Prod.fst = d.map Prod.fst ++ [k] := by
  induction d with
  | nil => rfl
  | cons p d ih =>
    obtain ⟨a, b⟩ := p
    simp only [SC.Py.Dict.get?] at h
    split at h
    · cases h
    · next hne =>
      simp only [SC.Py.Dict.set]
      rw [if_neg hne]
      simp [ih h]

/-- A new scene is the active one until a scene is selected; a selected scene stays active. -/
theorem add_active (r : Reg) (s : Nat) (h : SC.Py.Dict.get? r.scenes s = none) :
    (r.index = -1 → activeScene (addscene r s) = some s) ∧
    (∀ a, 0 ≤ r.index → activeScene r = some a → activeScene (addscene r s) = some a) := by
  have he : (addscene r s).scenes.map Prod.fst = r.scenes.map Prod.fst ++ [s] := by
    unfold addscene
    rw [h]
    exact set_new_fst _ _ h
  have hidx : (addscene r s).index = r.index := by unfold addscene; rw [h]
  constructor
  · intro hi
    unfold activeScene pyget
    rw [he, hidx, hi]
    simp
  · intro a hi ha
    unfold activeScene pyget at ha ⊢
    rw [he, hidx]
    rw [if_pos hi] at ha ⊢
    rw [List.getElem?_append_left (List.getElem?_eq_some_iff.1 ha).1]
    exact ha

/-- Registering again changes nothing about the plotted objects. -/
theorem add_same (r : Reg) (s : Nat) (d : SC.Py.Dict Str Nat) (h : SC.Py.Dict.get? r.scenes s = some d) : addscene r s = r := by
  unfold addscene
  rw [h]

open SC.Py in
/-- After plotting again: the scene has the new objects, objects that are still used are not removed, and the ones that
are not are, when every object has one name. -/
theorem refresh_spec (r r' : Reg) (new : Dict Str Nat) (rem : List Nat) (s : Nat) (hs : activeScene r = some s)
    (h : refreshscene r new = .ok (r', rem)) (old : Dict Str Nat) (ho : Dict.get? r.scenes s = some old)
    (hwf : Dict.WF old) (hname : ∀ n m o, Dict.get? old n = some o → Dict.get? new m = some o → n = m) :
    Dict.get? r'.scenes s = some new ∧ (∀ k, k ≠ s → Dict.get? r'.scenes k = Dict.get? r.scenes k) ∧
    (∀ o, o ∈ rem → ∃ n, Dict.get? old n = some o) ∧
    ∀ n o, Dict.get? old n = some o → (o ∈ rem ↔ ¬ ∃ m, Dict.get? new m = some o) := by
  unfold refreshscene at h
  rw [hs] at h
  simp only [ho, Option.getD_some, Except.ok.injEq, Prod.mk.injEq] at h
  obtain ⟨rfl, rfl⟩ := h
  have hmem : ∀ o, o ∈ (old.filter fun p => Dict.get? new p.1 != some p.2).map Prod.snd ↔
      ∃ n, Dict.get? old n = some o ∧ Dict.get? new n ≠ some o := by
    intro o
    simp only [List.mem_map, List.mem_filter, bne_iff_ne, ne_eq]
    constructor
    · rintro ⟨p, ⟨hp, hpn⟩, rfl⟩
      exact ⟨p.1, Dict.get?_of_mem hwf hp, hpn⟩
    · rintro ⟨n, h1, h2⟩
      exact ⟨(n, o), ⟨Dict.get?_mem h1, h2⟩, rfl⟩
  refine ⟨by simp [Dict.get?_set], fun k hk => by simp [Dict.get?_set, Ne.symm hk], fun o ho' => ?_, fun n o hn => ?_⟩
  · obtain ⟨n, h1, -⟩ := (hmem o).1 ho'
    exact ⟨n, h1⟩
  · rw [hmem]
    constructor
    · rintro ⟨m, h1, h2⟩ ⟨k, hk⟩
      exact h2 (hname m k o h1 hk ▸ hk)
    · intro hne
      exact ⟨n, hn, fun hc => hne ⟨n, hc⟩⟩

example : (refreshscene ⟨[(4, [(['a'], 1), (['b'], 2)])], -1⟩ [(['b'], 2), (['c'], 3)]).toOption.map Prod.snd = some [1] := by
  decide +kernel

/-! ## Selection of images -/

theorem displayLoop_spec {α : Type} (items : List (Str × α)) (l : List (Option Int)) (out out' : List (Str × α))
    (ch ch' : List (Option Nat)) (h : displayLoop items l out ch = .ok (out', ch')) :
    (∃ t, out' = out ++ t ∧ t.length = (l.filter Option.isSome).length) ∧ ch'.length = ch.length + l.length ∧
    (∀ k, k < ch.length → ch'[k]? = ch[k]?) ∧
    ∀ k, k < l.length → (l[k]? = some none → ch'[ch.length + k]? = some none) ∧
      ∀ i, l[k]? = some (some i) → ∃ j x, ch'[ch.length + k]? = some (some j) ∧ out'[j]? = some x ∧ pyget items i = some x := by
  induction l generalizing out ch with
  | nil =>
    cases h
    exact ⟨⟨[], by simp⟩, by simp, fun _ _ => rfl, fun k hk => by simp at hk⟩
  | cons a l ih =>
    cases a with
    | none =>
      simp only [displayLoop] at h
      obtain ⟨⟨t, h1, h1'⟩, h2, h3, h4⟩ := ih _ _ h
      refine ⟨⟨t, h1, by simpa using h1'⟩, by simp [h2]; omega, fun k hk => ?_, fun k hk => ?_⟩
      · rw [h3 k (by simp; omega), List.getElem?_append_left hk]
      · cases k with
        | zero =>
          refine ⟨fun _ => ?_, fun i hi => by simp at hi⟩
          rw [Nat.add_zero, h3 ch.length (by simp)]
          simp
        | succ k =>
          have := h4 k (by simpa using hk)
          simp only [List.length_append, List.length_cons, List.length_nil, Nat.zero_add] at this
          rw [show ch.length + 1 + k = ch.length + (k + 1) by omega] at this
          simpa using this
    | some i =>
      simp only [displayLoop] at h
      cases hx : pyget items i with
      | none => rw [hx] at h; cases h
      | some x =>
        rw [hx] at h
        obtain ⟨⟨t, h1, h1'⟩, h2, h3, h4⟩ := ih _ _ h
        refine ⟨⟨x :: t, by simp [h1], by simp [h1']⟩, by simp [h2]; omega, fun k hk => ?_, fun k hk => ?_⟩
        · rw [h3 k (by simp; omega), List.getElem?_append_left hk]
        · cases k with
          | zero =>
            refine ⟨fun hn => by simp at hn, fun j hj => ?_⟩
            simp only [List.getElem?_cons_zero, Option.some.injEq] at hj
            subst hj
            refine ⟨out.length, x, ?_, ?_, hx⟩
            · rw [Nat.add_zero, h3 ch.length (by simp)]
              simp
            · rw [h1]; simp
          | succ k =>
            have := h4 k (by simpa using hk)
            simp only [List.length_append, List.length_cons, List.length_nil, Nat.zero_add] at this
            rw [show ch.length + 1 + k = ch.length + (k + 1) by omega] at this
            simpa using this

/-- Images of a stack: as many as are asked for, each channel is the image with that index and its label, and channels
that are not asked for are empty. -/
theorem displaydata_spec {α : Type} (items : List (Str × α)) (l : List (Option Int)) (out : List (Str × α))
    (ch : List (Option Nat)) (h : displaydata items (some l) = .ok (out, ch)) :
    out.length = (l.filter Option.isSome).length ∧ ch.length = l.length ∧
    ∀ k, k < l.length → (l[k]? = some none → ch[k]? = some none) ∧
      ∀ i, l[k]? = some (some i) → ∃ j x, ch[k]? = some (some j) ∧ out[j]? = some x ∧ pyget items i = some x := by
  obtain ⟨⟨t, h1, h1'⟩, h2, -, h4⟩ := displayLoop_spec items l [] out [] ch h
  refine ⟨by rw [h1]; simpa using h1', by simpa using h2, fun k hk => ?_⟩
  simpa using h4 k hk

/-- All images without a choice. -/
theorem displaydata_all {α : Type} (items : List (Str × α)) (k : Nat) (hk : k < items.length) :
    displaydata items none = .ok (items, (List.range items.length).map some) ∧
    ((List.range items.length).map some)[k]? = some (some k) := ⟨rfl, by simp [hk]⟩

example : displaydata [(['a'], 10), (['b'], 20)] (some [some 1, none, some 0]) =
    .ok ([(['b'], 20), (['a'], 10)], [some 0, none, some 1]) := rfl

/-- Without labels only the first file is used. -/
theorem xanes_first (all : Str → List Nat) (f : Str) (files : List Str) (numbers : Nested) :
    ∀ p ∈ xanes all (f :: files) numbers .none, p.1 = f := by
  intro p hp
  unfold xanes at hp
  rw [show listoflists .none = [[]] from rfl] at hp
  simp only [List.mem_filter, List.mem_map] at hp
  obtain ⟨⟨q, hq, rfl⟩, -⟩ := hp
  cases hn : listoflists numbers with
  | nil => rw [hn] at hq; simp at hq
  | cons a r => rw [hn] at hq; simp at hq; rw [hq]

/-- Nothing asked for: all spectra of the first file. -/
theorem xanes_default (all : Str → List Nat) (f : Str) (files : List Str) (h : all f ≠ []) :
    xanes all (f :: files) .none .none = [(f, all f, all f)] := by
  simp [xanes, listoflists, h]

/-- With numbers and labels for every file all files with spectra are used, with these numbers and labels. -/
theorem xanes_all (all : Str → List Nat) (files : List Str) (numbers labels : List (List Nat)) (k : Nat)
    (hn : numbers.length = files.length) (hl : labels.length = files.length) (hk : k < files.length) (h : numbers[k] ≠ [])
    (h' : labels[k] ≠ []) : (files[k], numbers[k], labels[k]) ∈ xanes all files (.lists numbers) (.lists labels) := by
  have e1 : listoflists (.lists numbers) = numbers := by cases numbers with | nil => simp at hn; omega | cons => rfl
  have e2 : listoflists (.lists labels) = labels := by cases labels with | nil => simp at hl; omega | cons => rfl
  unfold xanes
  rw [e1, e2, List.mem_filter]
  refine ⟨List.mem_map.2 ⟨(files[k], numbers[k], labels[k]), ?_, by simp [h, h']⟩, by simpa using h⟩
  rw [List.mem_iff_getElem]
  exact ⟨k, by simp; omega, by simp⟩

example : xanes (fun _ => [7]) [['f'], ['g']] (.lists [[1, 2], []]) (.lists [[], []]) = [(['f'], [1, 2], [1, 2]), (['g'], [7], [7])] := by
  decide +kernel

end SC.Scene
