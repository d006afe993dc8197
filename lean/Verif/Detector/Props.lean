import Verif.Detector.Lemmas
import Verif.Stack.Lemmas
/-! # The attenuators of a detector -/
namespace SC.Detector
open SC.Py

variable {M : Type}

/-! ## Names -/

theorem matchBeam_prefix (t r : Str) (hr : "beamfilter".toList ++ r = t) (P : Prop) [Decidable P] (ds : Str)
    (hds : (if r.getLast? = some '\n' then r.dropLast else r) = ds) (hP : (ds ≠ [] ∧ ds.all Char.isDigit = true) ↔ P) :
    (if "beamfilter".toList.isPrefixOf t then
      let r := t.drop 10
      let ds := if r.getLast? = some '\n' then r.dropLast else r
      if ds ≠ [] ∧ ds.all Char.isDigit then some ds else none
    else none) = if P then some ds else none := by
  have hp : "beamfilter".toList.isPrefixOf t = true := List.isPrefixOf_iff_prefix.mpr ⟨r, hr⟩
  have hd : t.drop 10 = r := by rw [← hr]; exact List.drop_left' rfl
  rw [if_pos hp]
  simp only [hd, hds]
  exact if_congr hP rfl rfl

theorem matchBeam_iff (n : Str) : (matchBeam n).isSome = true ↔ BeamName n := by
  unfold matchBeam BeamName
  generalize n.map Char.toLower = t
  constructor
  · intro h
    by_cases hp : "beamfilter".toList.isPrefixOf t = true
    · obtain ⟨r, hr⟩ := List.isPrefixOf_iff_prefix.mp hp
      rw [matchBeam_prefix t r hr _ _ rfl Iff.rfl] at h
      by_cases hds : (if r.getLast? = some '\n' then r.dropLast else r) ≠ [] ∧
          (if r.getLast? = some '\n' then r.dropLast else r).all Char.isDigit = true
      · refine ⟨_, hds.1, fun c hc => List.all_eq_true.mp hds.2 c hc, ?_⟩
        by_cases hl : r.getLast? = some '\n'
        · right
          rw [if_pos hl, ← hr, List.append_assoc]
          congr 1
          obtain ⟨h1, h2⟩ := List.getLast?_eq_some_iff.mp hl
          rw [h2]; simp
        · left; rw [if_neg hl]; exact hr.symm
      · rw [if_neg hds] at h; simp at h
    · rw [if_neg hp] at h; simp at h
  · rintro ⟨ds, h1, h2, h | h⟩
    · have hl : ¬ ds.getLast? = some '\n' := by
        intro hl
        have := h2 _ (List.mem_of_getLast? hl)
        exact absurd this (by decide)
      rw [matchBeam_prefix t ds h.symm True ds (if_neg hl) ⟨fun _ => trivial, fun _ => ⟨h1, List.all_eq_true.mpr h2⟩⟩]
      rfl
    · rw [matchBeam_prefix t (ds ++ ['\n']) (by rw [h, List.append_assoc]) True ds
        (by rw [if_pos (by simp), List.dropLast_concat]) ⟨fun _ => trivial, fun _ => ⟨h1, List.all_eq_true.mpr h2⟩⟩]
      rfl

/-- C57: the beam filters are the attenuators called "beamfilter" (in any case) and a number. -/
theorem beam_names (n : Str) : isBeam n = true ↔ BeamName n := by
  simp only [isBeam, Bool.and_false, Bool.or_false]
  exact matchBeam_iff n

open Classical in
/-- C57: every attenuator is exactly one of: a beam filter, the material of the detector, the atmosphere, a
detector filter. -/
theorem names_partition (n : Str) :
    (if BeamName n then 1 else 0) + (if n = detLabel then 1 else 0) + (if n = atmLabel then 1 else 0)
      + (if isDet n = true then 1 else 0) = 1 := by
  by_cases hb : isBeam n = true
  · have h1 : n ≠ detLabel := by rintro rfl; simp [det_not_beam] at hb
    have h2 : n ≠ atmLabel := by rintro rfl; simp [atm_not_beam] at hb
    simp [(beam_names n).mp hb, h1, h2, isDet, hb]
  · have hb' : ¬ BeamName n := fun h => hb ((beam_names n).mpr h)
    have hd : detLabel ≠ atmLabel := by decide
    by_cases h1 : n = detLabel
    · subst h1; simp [hb', isDet, hd]
    · by_cases h2 : n = atmLabel
      · subst h2; simp [hb', isDet, h1]
      · simp [hb', isDet, h1, h2, hb]

section
variable (absorb : M → ℝ → ℝ → ℝ)

/-! ## Transmission -/

theorem passing_sum (l : List ℝ) : passing l = Real.exp (-l.sum) := by
  induction l with
  | nil => simp [passing]
  | cons a l ih => simp only [passing, ih, List.sum_cons, ← Real.exp_add]; congr 1; ring

/-- C57: the photons of the source pass the beam filters one after the other, those of the sample the detector
filters; neither the atmosphere nor the material of the detector is among them. -/
theorem filter_passing (s : State M) (e : ℝ) :
    filterTransmission absorb s e true
      = passing ((s.atts.filter fun p => isBeam p.1).map fun p => absorb p.2.1 e p.2.2) ∧
    filterTransmission absorb s e false
      = passing ((s.atts.filter fun p => !isBeam p.1 && decide (p.1 ≠ detLabel) && decide (p.1 ≠ atmLabel)).map
          fun p => absorb p.2.1 e p.2.2) := by
  constructor
  · rw [transmission_eq, passing_sum]; rfl
  · rw [transmission_eq, passing_sum]
    simp [tot, isDet]

/-- C57: with absorbances that are not negative the transmission is a fraction, and so is every entry of the
efficiency. -/
theorem filter_range (s : State M) (e : ℝ) (source : Bool) (h : ∀ m t, 0 ≤ absorb m e t) :
    0 < filterTransmission absorb s e source ∧ filterTransmission absorb s e source ≤ 1 ∧
    filterAttenuation absorb s e source = 1 - filterTransmission absorb s e source := by
  refine ⟨Real.exp_pos _, ?_, rfl⟩
  rw [transmission_eq, Real.exp_le_one_iff, neg_nonpos]
  apply List.sum_nonneg
  intro x hx
  obtain ⟨q, _, rfl⟩ := List.mem_map.mp hx
  exact h _ _

/-- C57: the detector absorbs what its material does not transmit, everything when there is no material. -/
theorem attenuation_spec (s : State M) (e : ℝ) :
    (∀ a, Dict.get? s.atts detLabel = some a → attenuation absorb s e = 1 - Real.exp (-absorb a.1 e a.2)) ∧
    (Dict.get? s.atts detLabel = none → attenuation absorb s e = 1) := by
  constructor
  · intro a h; simp only [attenuation, transmission, material_eq, h]
  · intro h; simp only [attenuation, transmission, material_eq, h, sub_zero]

/-- C57: entry (i, j) of the efficiency. -/
theorem efficiency_entry (s : State M) (source det : List ℝ) (withDet : Bool) (i j : Nat) (e0 e1 : ℝ)
    (hi : source[i]? = some e0) (hj : det[j]? = some e1) :
    ((efficiency absorb s source det withDet)[i]?).bind (·[j]?)
      = some (filterTransmission absorb s e0 true * filterTransmission absorb s e1 false *
          (if withDet then attenuation absorb s e1 else 1)) := by
  simp [efficiency, hi, hj, mul_assoc]

/-- C57: the efficiency has a row for every energy of the source, a column for every energy at the detector, and
its entries are between 0 and 1. -/
theorem efficiency_range (s : State M) (source det : List ℝ) (withDet : Bool) (h : ∀ m e t, 0 ≤ absorb m e t) :
    (efficiency absorb s source det withDet).length = source.length ∧
    ∀ row ∈ efficiency absorb s source det withDet, row.length = det.length ∧ ∀ x ∈ row, 0 ≤ x ∧ x ≤ 1 := by
  refine ⟨by simp [efficiency], ?_⟩
  intro row hrow
  obtain ⟨e0, _, rfl⟩ := List.mem_map.mp hrow
  refine ⟨by simp, ?_⟩
  intro x hx
  obtain ⟨e1, _, rfl⟩ := List.mem_map.mp hx
  obtain ⟨a1, a2, _⟩ := filter_range absorb s e0 true (fun m t => h m e0 t)
  obtain ⟨b1, b2, _⟩ := filter_range absorb s e1 false (fun m t => h m e1 t)
  have hd : 0 ≤ attenuation absorb s e1 ∧ attenuation absorb s e1 ≤ 1 := by
    simp only [attenuation, transmission]
    cases hm : material s with
    | none => simp
    | some a =>
      have h1 := Real.exp_pos (-absorb a.1 e1 a.2)
      have h2 : Real.exp (-absorb a.1 e1 a.2) ≤ 1 := by
        rw [Real.exp_le_one_iff, neg_nonpos]; exact h _ _ _
      constructor <;> simp only <;> linarith
  have hc : 0 ≤ (if withDet then attenuation absorb s e1 else 1) ∧ (if withDet then attenuation absorb s e1 else 1) ≤ 1 := by
    split
    · exact hd
    · simp
  exact ⟨mul_nonneg a1.le (mul_nonneg b1.le hc.1),
    mul_le_one₀ a2 (mul_nonneg b1.le hc.1) (mul_le_one₀ b2 hc.1 hc.2)⟩

/-! ## Adding filters -/

/-- C57: adding a detector filter takes the place of the filter with that name, on the side of the detector only.
The name of a beam filter is refused. -/
theorem add_det (s : State M) (n : Str) (a : Att M) :
    (BeamName n → addDet s n a = .error .valueError) ∧
    (¬ BeamName n → n ≠ detLabel → n ≠ atmLabel → ∃ s', addDet s n a = .ok s' ∧ ∀ e,
      filterTransmission absorb s' e false * factorOf absorb s n e
        = filterTransmission absorb s e false * Real.exp (-absorb a.1 e a.2) ∧
      filterTransmission absorb s' e true = filterTransmission absorb s e true ∧
      attenuation absorb s' e = attenuation absorb s e) := by
  constructor
  · intro h
    simp [addDet, (beam_names n).mpr h]
  · intro h h1 h2
    have hb : isBeam n = false := by
      rw [Bool.eq_false_iff]; exact fun hb => h ((beam_names n).mp hb)
    have hd : isDet n = true := by simp [isDet, hb, h1, h2]
    refine ⟨addAttenuator s n a, by simp [addDet, hb], fun e => ⟨?_, ?_, ?_⟩⟩
    · simpa [hd] using transmission_add absorb s n a e false
    · simpa [hb] using transmission_add absorb s n a e true
    · simp only [attenuation, transmission, material_set s n a h1]

/-- C57: adding a beam filter with a name takes the place of the filter with that name, on the side of the source
only.  Another name is refused. -/
theorem add_beam (s : State M) (n : Str) (a : Att M) (hn : n ≠ []) :
    (¬ BeamName n → addBeam s n a = .error .valueError) ∧
    (BeamName n → ∃ s', addBeam s n a = .ok s' ∧ ∀ e,
      filterTransmission absorb s' e true * factorOf absorb s n e
        = filterTransmission absorb s e true * Real.exp (-absorb a.1 e a.2) ∧
      filterTransmission absorb s' e false = filterTransmission absorb s e false ∧
      attenuation absorb s' e = attenuation absorb s e) := by
  constructor
  · intro h
    have hb : isBeam n = false := by
      rw [Bool.eq_false_iff]; exact fun hb => h ((beam_names n).mp hb)
    simp [addBeam, hn, hb]
  · intro h
    have hb : isBeam n = true := (beam_names n).mpr h
    have hd : isDet n = false := by simp [isDet, hb]
    have h1 : n ≠ detLabel := by rintro rfl; simp [det_not_beam] at hb
    refine ⟨addAttenuator s n a, by simp [addBeam, hn, hb], fun e => ⟨?_, ?_, ?_⟩⟩
    · simpa [hb] using transmission_add absorb s n a e true
    · simpa [hd] using transmission_add absorb s n a e false
    · simp only [attenuation, transmission, material_set s n a h1]

theorem transmission_refresh (s : State M) (e : ℝ) (source : Bool) :
    filterTransmission absorb (refresh s) e source = filterTransmission absorb s e source := by
  rw [transmission_eq, transmission_eq, tot_refresh]
  cases source
  · exact atm_not_det
  · exact atm_not_beam

theorem attenuation_refresh (s : State M) (e : ℝ) : attenuation absorb (refresh s) e = attenuation absorb s e := by
  have ha : atmLabel ≠ detLabel := by decide
  have h : Dict.get? (refresh s).atts detLabel = Dict.get? s.atts detLabel := by
    unfold refresh
    split
    · rfl
    · simp only [addAttenuator, Dict.get?_set, if_neg ha]
  simp only [attenuation, transmission, material_eq, h]

theorem toLower_digit (c : Char) (h : c.isDigit = true) : c.toLower = c := by
  have h3 : c.val.toNat ≤ 57 := by
    simp only [Char.isDigit, Bool.and_eq_true, decide_eq_true_eq, ge_iff_le] at h
    exact UInt32.le_iff_toNat_le.mp h.2
  rw [Char.toLower]
  split
  · rename_i h2
    have h4 : 65 ≤ c.val.toNat := UInt32.le_iff_toNat_le.mp h2.1
    omega
  · rfl

theorem nextBeam_name (s : State M) : BeamName (nextBeam s) := by
  have hdig : ∀ c ∈ Nat.toDigits 10 (lastNumber (refresh s).atts), c.isDigit = true :=
    fun c hc => Nat.isDigit_of_mem_toDigits (by norm_num) (by norm_num) hc
  refine ⟨Nat.toDigits 10 (lastNumber (refresh s).atts), ?_, hdig, Or.inl ?_⟩
  · exact Nat.toDigits_ne_nil
  · have hl : "BeamFilter".toList.map Char.toLower = "beamfilter".toList := by decide +kernel
    have hm : (Nat.toDigits 10 (lastNumber (refresh s).atts)).map Char.toLower
        = Nat.toDigits 10 (lastNumber (refresh s).atts) := by
      conv_rhs => rw [← List.map_id (Nat.toDigits 10 (lastNumber (refresh s).atts))]
      exact List.map_congr_left fun c hc => toLower_digit c (hdig c hc)
    unfold nextBeam
    rw [List.map_append, hl, hm]

theorem factor_refresh (s : State M) (n : Str) (h : n ≠ atmLabel) (e : ℝ) :
    factorOf absorb (refresh s) n e = factorOf absorb s n e := by
  have : Dict.get? (refresh s).atts n = Dict.get? s.atts n := by
    unfold refresh
    split
    · rfl
    · simp only [addAttenuator, Dict.get?_set, if_neg (Ne.symm h)]
  simp only [factorOf, this]

/-- C57: a beam filter without name gets one, and takes the place of the filter with the name it gets. -/
theorem add_unnamed (s : State M) (a : Att M) :
    ∃ s', addBeam s [] a = .ok s' ∧ Dict.get? s'.atts (nextBeam s) = some a ∧ ∀ e,
      filterTransmission absorb s' e true * factorOf absorb s (nextBeam s) e
        = filterTransmission absorb s e true * Real.exp (-absorb a.1 e a.2) ∧
      filterTransmission absorb s' e false = filterTransmission absorb s e false ∧
      attenuation absorb s' e = attenuation absorb s e := by
  have hb : isBeam (nextBeam s) = true := (beam_names _).mpr (nextBeam_name s)
  have hd : isDet (nextBeam s) = false := by simp [isDet, hb]
  have h1 : nextBeam s ≠ detLabel := by intro h; rw [h, det_not_beam] at hb; simp at hb
  have h2 : nextBeam s ≠ atmLabel := by intro h; rw [h, atm_not_beam] at hb; simp at hb
  refine ⟨addAttenuator (refresh s) (nextBeam s) a, by simp [addBeam], by simp [addAttenuator, Dict.get?_set], fun e => ⟨?_, ?_, ?_⟩⟩
  · have := transmission_add absorb (refresh s) (nextBeam s) a e true
    simpa [hb, transmission_refresh, factor_refresh absorb s _ h2] using this
  · have := transmission_add absorb (refresh s) (nextBeam s) a e false
    simpa [hd, transmission_refresh] using this
  · have : attenuation absorb (addAttenuator (refresh s) (nextBeam s) a) e = attenuation absorb (refresh s) e := by
      simp only [attenuation, transmission, material_set (refresh s) _ a h1]
    rw [this, attenuation_refresh]

theorem lastNumber_none (d : Dict Str (Att M)) (h : ∀ q ∈ d, ¬ BeamName q.1) : lastNumber d = 0 := by
  unfold lastNumber
  suffices ∀ i, d.foldl (fun i p => numStep i p.1) i = i from this 0
  induction d with
  | nil => intro i; rfl
  | cons q d ih =>
    intro i
    have hq : matchBeam q.1 = none := by
      rw [← Option.not_isSome_iff_eq_none]
      exact fun hs => h q (by simp) ((matchBeam_iff q.1).mp hs)
    rw [List.foldl_cons, show numStep i q.1 = i by simp only [numStep, hq]]
    exact ih (fun q hq => h q (by simp [hq])) i

theorem mem_set {d : Dict Str (Att M)} {k : Str} {v : Att M} {q : Str × Att M} (h : q ∈ Dict.set d k v) :
    q ∈ d ∨ q.1 = k := by
  have : q.1 ∈ Dict.keys (Dict.set d k v) := List.mem_map_of_mem h
  induction d with
  | nil => simp [Dict.set] at h; right; rw [h]
  | cons p d ih =>
    simp only [Dict.set] at h
    split at h
    · rename_i hp
      rcases List.mem_cons.mp h with h | h
      · right; rw [h]; exact hp
      · left; simp [h]
    · rcases List.mem_cons.mp h with h | h
      · left; simp [h]
      · rcases ih h (List.mem_map_of_mem h) with h | h
        · left; simp [h]
        · right; exact h

theorem refresh_none (s : State M) (h : ∀ q ∈ s.atts, ¬ BeamName q.1) : ∀ q ∈ (refresh s).atts, ¬ BeamName q.1 := by
  unfold refresh
  split
  · exact h
  · intro q hq
    rcases mem_set hq with hq | hq
    · exact h q hq
    · rw [hq, ← beam_names, atm_not_beam]; simp

theorem zero_name : "BeamFilter".toList ++ Nat.toDigits 10 0 = "BeamFilter0".toList := by decide +kernel

theorem nextBeam_none (s : State M) (h : ∀ q ∈ s.atts, ¬ BeamName q.1) : nextBeam s = "BeamFilter0".toList := by
  unfold nextBeam
  rw [lastNumber_none _ (refresh_none s h)]
  exact zero_name

theorem factor_none (s : State M) (h : ∀ q ∈ s.atts, ¬ BeamName q.1) (n : Str) (hn : BeamName n) (e : ℝ) :
    factorOf absorb s n e = 1 := by
  unfold factorOf
  cases hg : Dict.get? s.atts n with
  | none => rfl
  | some a => exact absurd hn (h _ (Dict.get?_mem hg))

theorem transmission_none (s : State M) (h : ∀ q ∈ s.atts, ¬ BeamName q.1) (e : ℝ) :
    filterTransmission absorb s e true = 1 := by
  rw [transmission_eq, tot_false]
  · simp
  · intro q hq
    simp only [if_true]
    rw [Bool.eq_false_iff]; exact fun hb => h q hq ((beam_names _).mp hb)

/-- C57, for the first beam filter only: without name it attenuates the beam.  In general a filter without name
should add its absorbance to that of the filters that are there. -/
theorem add_unnamed_partial (s : State M) (a : Att M) (h : ∀ q ∈ s.atts, ¬ BeamName q.1) :
    ∃ s', addBeam s [] a = .ok s' ∧ ∀ e,
      filterTransmission absorb s' e true = filterTransmission absorb s e true * Real.exp (-absorb a.1 e a.2) ∧
      filterTransmission absorb s' e true = Real.exp (-absorb a.1 e a.2) := by
  obtain ⟨s', h1, _, h2⟩ := add_unnamed absorb s a
  refine ⟨s', h1, fun e => ?_⟩
  have := (h2 e).1
  rw [factor_none absorb s h _ (nextBeam_name s), mul_one] at this
  refine ⟨this, ?_⟩
  rw [this, transmission_none absorb s h, one_mul]

/-- C57, against the property: a second beam filter without name replaces the first, which does not attenuate the
beam any more. -/
theorem add_unnamed_twice (s : State M) (a b : Att M) (h : ∀ q ∈ s.atts, ¬ BeamName q.1) :
    ∃ s1 s2, addBeam s [] a = .ok s1 ∧ addBeam s1 [] b = .ok s2 ∧ ∀ e,
      filterTransmission absorb s2 e true = Real.exp (-absorb b.1 e b.2) := by
  obtain ⟨s1, h1, g1, t1⟩ := add_unnamed absorb s a
  obtain ⟨s2, h2, g2, t2⟩ := add_unnamed absorb s1 b
  refine ⟨s1, s2, h1, h2, fun e => ?_⟩
  have hs1 : s1 = addAttenuator (refresh s) (nextBeam s) a := by
    simp [addBeam] at h1; exact h1.symm
  have hn : nextBeam s1 = nextBeam s := by
    rw [nextBeam_none s h]
    have hlast : lastNumber (refresh s1).atts = 0 := by
      have key : ∀ q ∈ (refresh s1).atts, ¬ BeamName q.1 ∨ q.1 = "BeamFilter0".toList := by
        intro q hq
        have h0 : q ∈ s1.atts ∨ q.1 = atmLabel := by
          unfold refresh at hq
          split at hq
          · exact Or.inl hq
          · exact mem_set hq
        rcases h0 with h0 | h0
        · rw [hs1] at h0
          rcases mem_set h0 with h0 | h0
          · exact Or.inl (refresh_none s h q h0)
          · right; rw [h0, nextBeam_none s h]
        · left; rw [h0, ← beam_names, atm_not_beam]; simp
      unfold lastNumber
      generalize (refresh s1).atts = d at key
      induction d with
      | nil => rfl
      | cons q d ih =>
        rw [List.foldl_cons]
        have hq : numStep 0 q.1 = 0 := by
          rcases key q (by simp) with hq | hq
          · have hq : matchBeam q.1 = none := by
              rw [← Option.not_isSome_iff_eq_none]
              exact fun hs => hq ((matchBeam_iff q.1).mp hs)
            simp only [numStep, hq]
          · rw [hq]; decide +kernel
        rw [hq]
        exact ih fun q hq => key q (by simp [hq])
    unfold nextBeam
    rw [hlast]
    exact zero_name
  have t := (t2 e).1
  have hf : factorOf absorb s1 (nextBeam s1) e = Real.exp (-absorb a.1 e a.2) := by
    rw [hn]; simp only [factorOf, g1]
  have ht1 : filterTransmission absorb s1 e true = Real.exp (-absorb a.1 e a.2) := by
    have := (t1 e).1
    rwa [factor_none absorb s h _ (nextBeam_name s), mul_one, transmission_none absorb s h, one_mul] at this
  rw [hf, ht1, mul_comm] at t
  exact mul_left_cancel₀ (Real.exp_ne_zero _) t

/-- C57, when there is no beam filter yet: a cover of the sample attenuates both the beam and what goes to the
detector. -/
theorem add_cover_partial (s : State M) (n : Str) (a : Att M) (h : ∀ q ∈ s.atts, ¬ BeamName q.1)
    (hn : ¬ BeamName n) (hd : n ≠ detLabel) (ha : n ≠ atmLabel) (hnew : Dict.get? s.atts n = none) :
    ∃ s', addCover s n a = .ok s' ∧ ∀ e,
      filterTransmission absorb s' e true = filterTransmission absorb s e true * Real.exp (-absorb a.1 e a.2) ∧
      filterTransmission absorb s' e false = filterTransmission absorb s e false * Real.exp (-absorb a.1 e a.2) ∧
      attenuation absorb s' e = attenuation absorb s e := by
  obtain ⟨s1, h1, t1⟩ := (add_det absorb s n a).2 hn hd ha
  have hs1 : s1 = addAttenuator s n a := by
    have hb : isBeam n = false := by
      rw [Bool.eq_false_iff]; exact fun hb => hn ((beam_names n).mp hb)
    simp [addDet, hb] at h1; exact h1.symm
  have hnb : ∀ q ∈ s1.atts, ¬ BeamName q.1 := by
    intro q hq
    rw [hs1] at hq
    rcases mem_set hq with hq | hq
    · exact h q hq
    · rw [hq]; exact hn
  obtain ⟨s2, h2, _, t2⟩ := add_unnamed absorb s1 a
  refine ⟨s2, by rw [addCover, ← hs1]; exact h2, fun e => ?_⟩
  obtain ⟨u1, u2, u3⟩ := t2 e
  obtain ⟨v1, v2, v3⟩ := t1 e
  rw [factor_none absorb s1 hnb _ (nextBeam_name s1), mul_one] at u1
  refine ⟨by rw [u1, v2], ?_, by rw [u3, v3]⟩
  rw [u2, ← v1]
  simp [factorOf, hnew]

/-! ## Removing filters -/

/-- C57: after the removal of the beam filters the beam is not attenuated, and nothing else changes. -/
theorem remove_beam (s : State M) (e : ℝ) :
    filterTransmission absorb (removeBeam s) e true = 1 ∧
    filterTransmission absorb (removeBeam s) e false = filterTransmission absorb s e false ∧
    attenuation absorb (removeBeam s) e = attenuation absorb s e := by
  have hr := removeAll (((refresh s).atts.map Prod.fst).filter fun n => isBeam n) (refresh s)
  have hatts : (removeBeam s).atts = (refresh s).atts.filter fun q => !isBeam q.1 := by
    rw [removeBeam, hr.1, remove_names]
  refine ⟨?_, ?_, ?_⟩
  · rw [transmission_eq, hatts, tot_filter (r := fun n => !isBeam n), tot_false]
    · simp
    · intro q _; simp
  · rw [← transmission_refresh absorb s, transmission_eq, transmission_eq, hatts, tot_filter (r := fun n => !isBeam n)]
    congr 3
    funext n
    simp only [Bool.false_eq_true, if_false, isDet]
    cases isBeam n <;> simp
  · rw [← attenuation_refresh absorb s]
    have : Dict.get? (removeBeam s).atts detLabel = Dict.get? (refresh s).atts detLabel := by
      rw [hatts]
      exact get?_filter_keep _ (fun n => !isBeam n) (by simp [det_not_beam])
    simp only [attenuation, transmission, material_eq, this]

/-- C57: after the removal of the detector filters only the material of the detector is left between sample and
detector, and nothing else changes; with or without the atmosphere. -/
theorem remove_det (s : State M) (air : Bool) (e : ℝ) :
    filterTransmission absorb (removeDet s air) e false = 1 ∧
    filterTransmission absorb (removeDet s air) e true = filterTransmission absorb s e true ∧
    attenuation absorb (removeDet s air) e = attenuation absorb s e := by
  have hr := removeAll (((refresh s).atts.map Prod.fst).filter fun n => isDet n air) (refresh s)
  have hatts : (removeDet s air).atts = (refresh s).atts.filter fun q => !isDet q.1 air := by
    rw [removeDet, hr.1, remove_names]
  refine ⟨?_, ?_, ?_⟩
  · rw [transmission_eq, hatts, tot_filter (r := fun n => !isDet n air), tot_false]
    · simp
    · intro q _
      simp only [Bool.false_eq_true, if_false, isDet]
      cases isBeam q.1 <;> cases decide (q.1 ≠ detLabel) <;> cases decide (q.1 ≠ atmLabel) <;> simp
  · rw [← transmission_refresh absorb s, transmission_eq, transmission_eq, hatts, tot_filter (r := fun n => !isDet n air)]
    congr 3
    funext n
    simp only [if_true, isDet]
    cases isBeam n <;> simp
  · rw [← attenuation_refresh absorb s]
    have : Dict.get? (removeDet s air).atts detLabel = Dict.get? (refresh s).atts detLabel := by
      rw [hatts]
      exact get?_filter_keep _ (fun n => !isDet n air) (by simp [isDet])
    simp only [attenuation, transmission, material_eq, this]

/-! ## The atmosphere -/

/-- C57, against the property: whatever is between sample and detector, it does not change the efficiency. -/
theorem atmosphere_ignored (s : State M) (air : Option (Att M)) (source det : List ℝ) (withDet : Bool) :
    efficiency absorb { s with air := air } source det withDet = efficiency absorb s source det withDet := by
  have h1 : ∀ e b, filterTransmission absorb { s with air := air } e b = filterTransmission absorb s e b := by
    intro e b; rw [transmission_eq, transmission_eq]
  have h2 : ∀ e, attenuation absorb { s with air := air } e = attenuation absorb s e := by
    intro e; simp only [attenuation, transmission, material_eq]
  simp only [efficiency, h1, h2]

/-- C57: the atmosphere is counted among the detector filters with `include_atmosphere=False`. -/
theorem atmosphere_included (s : State M) (a : Att M) (h : s.air = some a) :
    a ∈ detFilters s false ∧ a ∈ beamFilters s true := by
  have hg : Dict.get? (refresh s).atts atmLabel = some a := by
    simp [refresh, h, addAttenuator, Dict.get?_set]
  have hm := Dict.get?_mem hg
  constructor
  · refine List.mem_map.mpr ⟨_, List.mem_filter.mpr ⟨hm, ?_⟩, rfl⟩
    have : atmLabel ≠ detLabel := by decide
    simp [isDet, atm_not_beam, this]
  · refine List.mem_map.mpr ⟨_, List.mem_filter.mpr ⟨hm, ?_⟩, rfl⟩
    simp [isBeam]

end
end SC.Detector
