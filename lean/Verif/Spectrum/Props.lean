import Verif.Spectrum.Spec
import Verif.Axis.Props
import Verif.Mca.FormatProps
import Mathlib.Algebra.BigOperators.Ring.List
import Mathlib.Algebra.Order.BigOperators.Group.List
import Mathlib.Tactic.Linarith
import Mathlib.Tactic.FieldSimp
/-! # Property C61, part 2: weights, totals, sums and channels -/
namespace SC.Spectrum
open SC.Common SC.Py

/-! ## Values -/

theorem map_toList (f : ℚ → ℚ) (v : Val) : (v.map f).toList = v.toList.map f := by cases v <;> rfl

theorem len_toList (v : Val) : v.len = v.toList.length := by cases v <;> rfl

theorem map_sum (m : ℚ) (v : Val) : (v.map (· * m)).toList.sum = v.toList.sum * m := by
  rw [map_toList]; exact List.sum_map_mul_right (r := m) (f := fun x => x) _ |>.trans (by simp)

theorem mul_toList (v w : Val) (h : v.len = w.len) : (v.mul w).toList = List.zipWith (· * ·) v.toList w.toList := by
  cases v with
  | num a => cases w with
    | num b => rfl
    | arr m =>
      simp only [Val.len] at h
      obtain ⟨b, rfl⟩ := List.length_eq_one_iff.1 h.symm
      rfl
  | arr l => cases w with
    | num b =>
      simp only [Val.len] at h
      obtain ⟨a, rfl⟩ := List.length_eq_one_iff.1 h
      rfl
    | arr m => rfl

/-! ## Weights -/

/-- Weighting multiplies every number by its weight over the sum of the weights, when there are as many
numbers as weights, and leaves other lines alone. -/
theorem weights_values (w : Val) (d : Lines) :
    (applyWeights (some w) d).map Prod.fst = d.map Prod.fst ∧
    (applyWeights (some w) d).map (fun p => p.2.toList) =
      d.map fun p => if p.2.toList.length = w.toList.length
        then List.zipWith (fun v x => v * x / w.toList.sum) p.2.toList w.toList else p.2.toList := by
  constructor
  · simp only [applyWeights, List.map_map]
    apply List.map_congr_left
    intro p _
    simp only [Function.comp]
    split <;> rfl
  · simp only [applyWeights, List.map_map]
    apply List.map_congr_left
    intro p _
    simp only [Function.comp, len_toList]
    by_cases h : p.2.toList.length = w.toList.length
    · rw [if_pos h, if_pos h, mul_toList _ _ (by rw [len_toList, len_toList, normalWeights, map_toList, List.length_map, h]),
        normalWeights, map_toList, List.zipWith_map_right]
      congr 1
      funext v x
      simp only [Val.sum]
      ring
    · rw [if_neg h, if_neg h]

/-- No weights: nothing changes. -/
theorem weights_none (d : Lines) : applyWeights Option.none d = d := rfl

/-- The scale of the weights does not matter. -/
theorem weights_scale (w : Val) (c : ℚ) (hc : c ≠ 0) (d : Lines) :
    applyWeights (some (w.map (c * ·))) d = applyWeights (some w) d := by
  have hl : (w.map (c * ·)).len = w.len := by rw [len_toList, len_toList, map_toList, List.length_map]
  have hs : (w.map (c * ·)).sum = c * w.sum := by
    simp only [Val.sum, map_toList]
    exact (List.sum_map_mul_left (r := c) (f := fun x => x) _).trans (by simp)
  have hn : normalWeights (w.map (c * ·)) = normalWeights w := by
    unfold normalWeights
    rw [hs]
    cases w <;> simp [Val.map, mul_div_mul_left _ _ hc]
  simp only [applyWeights, hl, hn]

/-- A weighted sum is between the smallest and the largest number. -/
theorem weights_between (w : Val) (v : Val) (a b : ℚ) (hlen : v.toList.length = w.toList.length)
    (hw : ∀ x ∈ w.toList, 0 ≤ x) (hpos : 0 < w.toList.sum) (hv : ∀ x ∈ v.toList, a ≤ x ∧ x ≤ b) (l : Line) :
    ∀ p ∈ applyWeights (some w) [(l, v)], a ≤ p.2.toList.sum ∧ p.2.toList.sum ≤ b := by
  intro p hp
  have h := (weights_values w [(l, v)]).2
  simp only [List.map_cons, List.map_nil, if_pos hlen] at h
  have hp2 : p.2.toList ∈ (applyWeights (some w) [(l, v)]).map fun p => p.2.toList := List.mem_map_of_mem hp
  rw [h, List.mem_singleton] at hp2
  rw [hp2]
  generalize w.toList = ws at *
  generalize v.toList = vs at *
  have key : ∀ S : ℚ, 0 < S → ∀ (vs ws : List ℚ), vs.length = ws.length → (∀ x ∈ ws, 0 ≤ x) → (∀ x ∈ vs, a ≤ x ∧ x ≤ b) →
      a * ws.sum / S ≤ (List.zipWith (fun v x => v * x / S) vs ws).sum ∧
      (List.zipWith (fun v x => v * x / S) vs ws).sum ≤ b * ws.sum / S := by
    intro S hS vs
    induction vs with
    | nil => intro ws h1 _ _; cases ws with
      | nil => simp
      | cons => simp at h1
    | cons v vs ih =>
      intro ws h1 h2 h3
      cases ws with
      | nil => simp at h1
      | cons w ws =>
        obtain ⟨i1, i2⟩ := ih ws (by simpa using h1) (fun x hx => h2 x (by simp [hx])) (fun x hx => h3 x (by simp [hx]))
        have hw0 := h2 w (by simp)
        obtain ⟨ha, hb⟩ := h3 v (by simp)
        simp only [List.zipWith_cons_cons, List.sum_cons]
        have e1 : a * w / S ≤ v * w / S := by gcongr
        have e2 : v * w / S ≤ b * w / S := by gcongr
        constructor
        · rw [mul_add, add_div]; linarith
        · rw [mul_add, add_div]; linarith
  have := key ws.sum hpos vs ws hlen hw hv
  rwa [mul_div_assoc, div_self hpos.ne', mul_one, mul_div_assoc, div_self hpos.ne', mul_one] at this

/-- Three weights: the middle energy counts for a half. -/
example : applyWeights (some (.arr [1, 2, 1])) [(.rayleigh (.arr [7, 8, 9]), .arr [4, 8, 12]), (.fluo "Fe-K".toList "Fe-K".toList 6 0, .num 3)]
    = [(.rayleigh (.arr [7, 8, 9]), .arr [1, 4, 3]), (.fluo "Fe-K".toList "Fe-K".toList 6 0, .num 3)] := by decide +kernel

/-! ## Totals -/

/-- Summing over the source keeps the total. -/
theorem sumSources_total (d : Lines) : total (sumSources d) = total d := by
  simp only [total, sumSources, List.map_map]
  congr 1
  apply List.map_congr_left
  intro p _
  simp only [Function.comp]
  split
  · simp [Val.toList, Val.sum]
  · rfl

/-- Then every fluorescence line has one number; scattering lines are as before. -/
theorem sumSources_spec (d : Lines) (l : Line) (v : Val) :
    (l, v) ∈ sumSources d ↔ (l.isFluo = true ∧ ∃ w, (l, w) ∈ d ∧ v = .num w.toList.sum) ∨ (l.isFluo = false ∧ (l, v) ∈ d) := by
  simp only [sumSources, List.mem_map]
  constructor
  · rintro ⟨p, hp, h⟩
    by_cases hf : p.1.isFluo = true
    · rw [if_pos hf] at h
      obtain ⟨rfl, rfl⟩ := Prod.mk.inj h
      exact Or.inl ⟨hf, p.2, hp, rfl⟩
    · rw [if_neg hf] at h
      subst h
      exact Or.inr ⟨by simpa using hf, hp⟩
  · rintro (⟨hf, w, hw, rfl⟩ | ⟨hf, hw⟩)
    · exact ⟨(l, w), hw, by rw [if_pos hf]; rfl⟩
    · exact ⟨(l, v), hw, by rw [if_neg (by simp [hf])]⟩

theorem itemsSorted_perm (s : Spec) (b : Bool) : (s.itemsSorted b).Perm s.lines := by
  unfold Spec.itemsSorted
  split
  · exact stableSort_perm _ _
  · exact List.Perm.refl _

theorem total_perm {d e : Lines} (h : d.Perm e) : total d = total e := (h.map _).sum_eq

theorem itemsConverted_ok {s : Spec} {c b : Bool} {l : Lines} (h : s.itemsConverted c b = .ok l) :
    ∃ m, s.multiplier c = .ok m ∧ l = (s.itemsSorted b).map fun p => (p.1, p.2.map (· * m)) := by
  unfold Spec.itemsConverted at h
  cases hm : s.multiplier c with
  | error e => rw [hm] at h; cases h
  | ok m => rw [hm] at h; exact ⟨m, rfl, (Except.ok.inj h).symm⟩

/-- Converting multiplies the total. -/
theorem itemsConverted_total (s : Spec) (c b : Bool) (l : Lines) (m : ℚ) (hm : s.multiplier c = .ok m)
    (h : s.itemsConverted c b = .ok l) : total l = m * total s.lines := by
  obtain ⟨m', h1, rfl⟩ := itemsConverted_ok h
  rw [hm] at h1
  obtain rfl := Except.ok.inj h1
  rw [← total_perm (itemsSorted_perm s b)]
  simp only [total, List.map_map]
  have : ((fun p : Line × Val => p.2.toList.sum) ∘ fun p : Line × Val => (p.1, p.2.map (· * m))) = fun p : Line × Val => m * p.2.toList.sum := by
    funext p
    simp only [Function.comp, map_sum]
    ring
  rw [this, List.sum_map_mul_left]

theorem zipWith_sum (f : ℚ → Line) (s v : List ℚ) (h : s.length = v.length) :
    ((List.zipWith (fun e x => (f e, x)) s v).map Prod.snd).sum = v.sum := by
  rw [List.map_zipWith]
  simp only
  congr 1
  induction s generalizing v with
  | nil => cases v with
    | nil => rfl
    | cons => simp at h
  | cons a s ih => cases v with
    | nil => simp at h
    | cons b v => simp only [List.zipWith_cons_cons, ih v (by simpa using h)]

theorem linesOf_sum (p : Line × Val) (h : ∀ s, sourceOf p.1 = some s → s.toList.length = p.2.toList.length) :
    ((linesOf p).map Prod.snd).sum = p.2.toList.sum := by
  obtain ⟨l, v⟩ := p
  cases l with
  | fluo => simp [linesOf, Val.sum]
  | rayleigh s => exact zipWith_sum (fun e => .rayleigh (.num e)) _ _ (h s rfl)
  | compton s => exact zipWith_sum (fun e => .compton (.num e)) _ _ (h s rfl)

theorem linesOf_total (c : Lines) (hmem : ∀ p ∈ c, ∀ x, sourceOf p.1 = some x → x.toList.length = p.2.toList.length) :
    ((c.flatMap linesOf).map Prod.snd).sum = total c := by
  induction c with
  | nil => rfl
  | cons p c ih =>
    simp only [List.flatMap_cons, List.map_append, List.sum_append]
    rw [linesOf_sum p (hmem p (by simp)), ih (fun q hq => hmem q (by simp [hq]))]
    simp [total]

/-- The separate lines add up to the total, converted. -/
theorem lines_total (s : Spec) (b : Bool) (l : List (Line × ℚ)) (m : ℚ) (hm : s.multiplier true = .ok m)
    (hd : Matched s.lines) (h : s.linesList b = .ok l) : (l.map Prod.snd).sum = m * total s.lines := by
  unfold Spec.linesList at h
  cases hc : s.itemsConverted true b with
  | error e => rw [hc] at h; cases h
  | ok c =>
    rw [hc] at h
    obtain rfl := Except.ok.inj h
    rw [← itemsConverted_total s true b c m hm hc]
    obtain ⟨m', h1, rfl⟩ := itemsConverted_ok hc
    have hmem : ∀ p ∈ (s.itemsSorted b).map (fun p => (p.1, p.2.map (· * m'))), ∀ x, sourceOf p.1 = some x → x.toList.length = p.2.toList.length := by
      intro p hp x hx
      obtain ⟨q, hq, rfl⟩ := List.mem_map.1 hp
      have := hd q ((itemsSorted_perm s b).mem_iff.1 hq) x hx
      simpa [map_toList] using this
    exact linesOf_total _ hmem

/-- What is in the separate lines: every fluorescence line with its sum, and every energy of the source of a
scattering line with its own number. -/
theorem lines_spec (s : Spec) (b : Bool) (l : List (Line × ℚ)) (m : ℚ) (hm : s.multiplier true = .ok m)
    (h : s.linesList b = .ok l) (x : Line) (q : ℚ) :
    (x, q) ∈ l ↔ ∃ p ∈ s.lines,
      (p.1.isFluo = true ∧ x = p.1 ∧ q = p.2.toList.sum * m) ∨
      (∃ (src : Val) (i : Nat) (e v : ℚ), p.1 = .rayleigh src ∧ x = .rayleigh (.num e) ∧ src.toList[i]? = some e ∧ p.2.toList[i]? = some v ∧ q = v * m) ∨
      (∃ (src : Val) (i : Nat) (e v : ℚ), p.1 = .compton src ∧ x = .compton (.num e) ∧ src.toList[i]? = some e ∧ p.2.toList[i]? = some v ∧ q = v * m) := by
  unfold Spec.linesList at h
  cases hc : s.itemsConverted true b with
  | error e => rw [hc] at h; cases h
  | ok c =>
    rw [hc] at h
    obtain rfl := Except.ok.inj h
    obtain ⟨m', h1, rfl⟩ := itemsConverted_ok hc
    rw [hm] at h1
    obtain rfl := Except.ok.inj h1
    have hz : ∀ (f : ℚ → Line) (a v : List ℚ), (x, q) ∈ List.zipWith (fun e x => (f e, x)) a (v.map (· * m)) ↔
        ∃ (i : Nat) (e w : ℚ), x = f e ∧ a[i]? = some e ∧ v[i]? = some w ∧ q = w * m := by
      intro f a v
      rw [List.mem_iff_getElem?]
      constructor
      · rintro ⟨i, hi⟩
        rw [List.getElem?_zipWith] at hi
        cases ha : a[i]? with
        | none => rw [ha] at hi; simp at hi
        | some e => cases hv : v[i]? with
          | none => rw [ha] at hi; simp [hv] at hi
          | some w =>
            rw [ha] at hi
            simp only [List.getElem?_map, hv, Option.map_some, Option.some.injEq, Prod.mk.injEq] at hi
            exact ⟨i, e, w, hi.1.symm, ha, hv, hi.2.symm⟩
      · rintro ⟨i, e, w, rfl, ha, hv, rfl⟩
        exact ⟨i, by rw [List.getElem?_zipWith, ha]; simp [hv]⟩
    simp only [List.mem_flatMap, List.mem_map, (itemsSorted_perm s b).mem_iff]
    constructor
    · rintro ⟨_, ⟨p, hp, rfl⟩, hx⟩
      refine ⟨p, hp, ?_⟩
      obtain ⟨pl, pv⟩ := p
      cases pl with
      | fluo n g e w =>
        left
        simp only [linesOf, List.mem_singleton, Prod.mk.injEq, Val.sum, map_sum] at hx
        exact ⟨rfl, hx.1, hx.2⟩
      | rayleigh src =>
        right; left
        simp only [linesOf, map_toList] at hx
        obtain ⟨i, e, w, h1, h2, h3, h4⟩ := (hz (fun e => .rayleigh (.num e)) _ _).1 hx
        exact ⟨src, i, e, w, rfl, h1, h2, h3, h4⟩
      | compton src =>
        right; right
        simp only [linesOf, map_toList] at hx
        obtain ⟨i, e, w, h1, h2, h3, h4⟩ := (hz (fun e => .compton (.num e)) _ _).1 hx
        exact ⟨src, i, e, w, rfl, h1, h2, h3, h4⟩
    · rintro ⟨p, hp, hx⟩
      refine ⟨_, ⟨p, hp, rfl⟩, ?_⟩
      obtain ⟨pl, pv⟩ := p
      rcases hx with ⟨hf, rfl, rfl⟩ | ⟨src, i, e, w, rfl, h1, h2, h3, h4⟩ | ⟨src, i, e, w, rfl, h1, h2, h3, h4⟩
      · cases x with
        | fluo n g e w => simp [linesOf, Val.sum, map_sum]
        | rayleigh => cases hf
        | compton => cases hf
      · simp only [linesOf, map_toList]
        exact (hz (fun e => .rayleigh (.num e)) _ _).2 ⟨i, e, w, h1, h2, h3, h4⟩
      · simp only [linesOf, map_toList]
        exact (hz (fun e => .compton (.num e)) _ _).2 ⟨i, e, w, h1, h2, h3, h4⟩

/-- Sorting changes the order of the lines only. -/
theorem lines_sorted (s : Spec) (l l' : List (Line × ℚ)) (h : s.linesList true = .ok l) (h' : s.linesList false = .ok l') :
    l.Perm l' := by
  unfold Spec.linesList at h h'
  cases hc : s.itemsConverted true true with
  | error e => rw [hc] at h; cases h
  | ok c => cases hc' : s.itemsConverted true false with
    | error e => rw [hc'] at h'; cases h'
    | ok c' =>
      rw [hc] at h; rw [hc'] at h'
      obtain rfl := Except.ok.inj h
      obtain rfl := Except.ok.inj h'
      obtain ⟨m, h1, rfl⟩ := itemsConverted_ok hc
      obtain ⟨m', h2, rfl⟩ := itemsConverted_ok hc'
      rw [h1] at h2
      obtain rfl := Except.ok.inj h2
      exact (((itemsSorted_perm s true).trans (itemsSorted_perm s false).symm).map _).flatMap_right _

/-- A spectrum has lines when it has a known type and, for cross-sections, a density. -/
theorem lines_ok (s : Spec) (b : Bool) : (∃ l, s.linesList b = .ok l) ↔ s.kind = .rate ∨ (s.kind ≠ .none ∧ s.density ≠ Option.none) := by
  unfold Spec.linesList Spec.itemsConverted Spec.multiplier
  cases s.kind <;> cases s.density <;> simp

/-- With too few values the last energies of the source disappear without a warning. -/
theorem lines_truncated : (Spec.linesList ⟨[(.rayleigh (.arr [7, 8]), .num 1)], Option.none, .rate, id, 1⟩ false) =
    .ok [(.rayleigh (.num 7), 1)] := by decide +kernel

/-- Probabilities are for cross-sections and rates are for rates, never both. -/
theorem probabilities_or_rates (s : Spec) : (∀ a b, s.probabilities = .ok a → s.rates = .ok b → False) ∧
    (s.kind = .crosssection → ∀ d, s.density = some d → s.probabilities = .ok (s.lines.map fun p => (p.1, p.2.map (· * (d / s.fourpi))))) ∧
    (s.kind = .diffcrosssection → ∀ d, s.density = some d → s.probabilities = .ok (s.lines.map fun p => (p.1, p.2.map (· * d)))) ∧
    (s.kind = .rate → s.rates = .ok (s.lines.map fun p => (p.1, p.2.map (· * 1)))) := by
  refine ⟨?_, ?_, ?_, ?_⟩
  · intro a b h1 h2
    unfold Spec.probabilities at h1
    unfold Spec.rates at h2
    cases hk : s.kind <;> simp [hk] at h1 h2
  · intro h d hd
    simp [Spec.probabilities, h, Spec.itemsConverted, Spec.multiplier, hd, Spec.itemsSorted]
  · intro h d hd
    simp [Spec.probabilities, h, Spec.itemsConverted, Spec.multiplier, hd, Spec.itemsSorted]
  · intro h
    simp [Spec.rates, h, Spec.itemsConverted, Spec.multiplier, Spec.itemsSorted]

/-! ## Power -/

/-- The power of a line: its energies times its rates. -/
def linePower (shift : ℚ → ℚ) (p : Line × Val) : ℚ :=
  match p.1 with
  | .fluo _ _ e _ => e * p.2.toList.sum
  | .rayleigh s => (List.zipWith (· * ·) s.toList p.2.toList).sum
  | .compton s => (List.zipWith (fun e v => shift e * v) s.toList p.2.toList).sum

/-- The power is the flux times the sum of energy times rate over all lines and energies of the source. -/
theorem power_spec (s : Spec) (flux : ℚ) (h : s.kind = .rate) :
    s.power flux = .ok ((s.lines.map (linePower s.shift)).sum * flux) := by
  have h1 : s.multiplier true = .ok 1 := by simp [Spec.multiplier, h]
  simp only [Spec.power, h, ne_eq, not_true_eq_false, if_false, Spec.spectrum, Spec.linesList, Spec.itemsConverted, h1,
    Spec.itemsSorted, Bool.false_eq_true]
  congr 2
  generalize s.lines = d
  induction d with
  | nil => rfl
  | cons p d ih =>
    simp only [List.map_cons, List.flatMap_cons, List.map_append, List.sum_append, List.sum_cons, ih]
    congr 1
    obtain ⟨l, v⟩ := p
    have hv : v.map (· * 1) = v := by cases v <;> simp [Val.map]
    rw [hv]
    cases l with
    | fluo n g e w => simp [linesOf, linePower, Val.sum, scalar, Line.energy]
    | rayleigh src => simp [linesOf, linePower, scalar, Line.energy, List.map_zipWith]
    | compton src => simp [linesOf, linePower, scalar, Line.energy, List.map_zipWith, Val.map]

/-- Cross-sections have no power. -/
theorem power_kind (s : Spec) (flux : ℚ) (h : s.kind ≠ .rate) : s.power flux = .error .runtimeError := by
  simp [Spec.power, h]

/-- The dictionary of the spectrum counts equal pairs; it does not add the rates of lines at one energy. -/
theorem spectrumDict_counts : Spec.spectrumDict ⟨[(.fluo "Fe-KL3".toList "Fe-K".toList 6 0, .num (1 / 2)),
    (.fluo "Mn-KM3".toList "Mn-K".toList 6 0, .num (1 / 2)), (.rayleigh (.num 6), .num 3)], Option.none, .rate, id, 1⟩ =
    .ok [((6, 1 / 2), 2), ((6, 3), 1)] := by decide +kernel

/-! ## Channels -/

/-- The channel of the energy of a channel is that channel. -/
theorem channel_energy (zero gain : ℚ) (hg : gain ≠ 0) (c : Int) (hc : 0 ≤ c) :
    energyToChannel zero gain (channelEnergy zero gain c) = c := by
  have : (zero + gain * c - zero) / gain = (c : ℚ) := by field_simp; ring
  rw [energyToChannel, channelEnergy, this, SC.Axis.roundEven_int, max_eq_left hc]

/-- The energy of the channel of an energy is not further than half a channel. -/
theorem energy_channel (zero gain e : ℚ) (hg : 0 < gain) (he : zero ≤ e) :
    |channelEnergy zero gain (energyToChannel zero gain e) - e| ≤ gain / 2 := by
  have h1 := SC.Axis.roundEven_near ((e - zero) / gain)
  have h0 : 0 ≤ (e - zero) / gain := div_nonneg (by linarith) hg.le
  have hr : 0 ≤ SC.Axis.roundEven ((e - zero) / gain) := by
    by_contra hneg
    have : SC.Axis.roundEven ((e - zero) / gain) ≤ -1 := by omega
    have h2 : (SC.Axis.roundEven ((e - zero) / gain) : ℚ) ≤ -1 := by exact_mod_cast this
    rw [abs_le] at h1
    linarith [h1.1]
  rw [energyToChannel, max_eq_left hr, channelEnergy]
  have : zero + gain * (SC.Axis.roundEven ((e - zero) / gain) : ℚ) - e =
      gain * ((SC.Axis.roundEven ((e - zero) / gain) : ℚ) - (e - zero) / gain) := by field_simp; ring
  rw [this, abs_mul, abs_of_pos hg]
  nlinarith

/-- Energies below the first channel are in channel 0. -/
theorem energy_below (zero gain e : ℚ) (hg : 0 < gain) (he : e ≤ zero) : energyToChannel zero gain e = 0 := by
  have h0 : (e - zero) / gain ≤ 0 := div_nonpos_of_nonpos_of_nonneg (by linarith) hg.le
  have h1 := SC.Mca.roundEven_nearest ((e - zero) / gain) 0
  rw [energyToChannel, max_eq_right]
  by_contra hneg
  have : 1 ≤ SC.Axis.roundEven ((e - zero) / gain) := by omega
  have h2 : (1 : ℚ) ≤ SC.Axis.roundEven ((e - zero) / gain) := by exact_mod_cast this
  rw [abs_of_nonneg (by linarith), Int.cast_zero, zero_sub, abs_neg, abs_of_nonpos h0] at h1
  linarith

theorem roundEven_mono {a b : ℚ} (h : a ≤ b) : SC.Axis.roundEven a ≤ SC.Axis.roundEven b := by
  by_contra hn
  have h1 := SC.Mca.roundEven_bounds a
  have h2 := SC.Mca.roundEven_bounds b
  have h3 : SC.Axis.roundEven b + 1 ≤ SC.Axis.roundEven a := by omega
  have h4 : (SC.Axis.roundEven b : ℚ) + 1 ≤ SC.Axis.roundEven a := by exact_mod_cast h3
  have hab : a = b := by linarith [h1.2, h2.1]
  subst hab
  omega

/-- The channels of a spectrum are those from the channel of its first energy to that of its last energy, and
every energy between these limits is in one of them. -/
theorem mcaChannels_spec (zero gain a b : ℚ) (hg : 0 < gain) :
    (∀ c, c ∈ mcaChannels zero gain a b ↔ energyToChannel zero gain a ≤ c ∧ c ≤ energyToChannel zero gain b) ∧
    (mcaChannels zero gain a b).Pairwise (· < ·) ∧
    ∀ e, a ≤ e → e ≤ b → energyToChannel zero gain e ∈ mcaChannels zero gain a b := by
  have hm : ∀ c, c ∈ mcaChannels zero gain a b ↔ energyToChannel zero gain a ≤ c ∧ c ≤ energyToChannel zero gain b := by
    intro c
    simp only [mcaChannels, List.mem_map, List.mem_range]
    constructor
    · rintro ⟨i, hi, rfl⟩; omega
    · rintro ⟨h1, h2⟩
      exact ⟨(c - energyToChannel zero gain a).toNat, by omega, by omega⟩
  refine ⟨hm, ?_, ?_⟩
  · simp only [mcaChannels]
    rw [List.pairwise_map]
    exact List.pairwise_lt_range.imp (fun h => by omega)
  · intro e h1 h2
    rw [hm]
    constructor
    · exact max_le_max (roundEven_mono (div_le_div_of_nonneg_right (by linarith) hg.le)) le_rfl
    · exact max_le_max (roundEven_mono (div_le_div_of_nonneg_right (by linarith) hg.le)) le_rfl

example : mcaChannels (1 / 10) (1 / 100) (3 / 10) (33 / 100) = [20, 21, 22, 23] := by decide +kernel

/-! ## Selections of lines -/

/-- A selection without repetition and the rest make up all lines: any quantity of the lines is the sum over
the selected lines plus the sum over the others. -/
theorem selection_partition (names sel : List Str) (ins outs : List Nat) (h : selection names sel = .ok (ins, outs))
    (hn : names.Nodup) (hs : sel.Nodup) (f : Nat → ℚ) :
    (ins.map f).sum + (outs.map f).sum = ((List.range names.length).map f).sum ∧
    ins.map (fun i => names[i]?) = sel.map some := by
  unfold selection at h
  cases hm : sel.mapM (fun k => names.idxOf? k) with
  | none => rw [hm] at h; cases h
  | some l =>
    rw [hm] at h
    obtain ⟨rfl, rfl⟩ := Prod.mk.inj (Except.ok.inj h)
    have hidx : l.map (fun i => names[i]?) = sel.map some ∧ ∀ i ∈ l, i < names.length := by
      clear hs h
      induction sel generalizing l with
      | nil => simp at hm; subst hm; simp
      | cons k sel ih =>
        rw [List.mapM_cons] at hm
        cases hk : names.idxOf? k with
        | none => rw [hk] at hm; simp at hm
        | some i =>
          rw [hk] at hm
          cases hr : sel.mapM (fun k => names.idxOf? k) with
          | none => rw [hr] at hm; simp at hm
          | some r =>
            rw [hr] at hm
            simp only [Option.pure_def, Option.bind_eq_bind, Option.bind_some, Option.some.injEq] at hm
            subst hm
            obtain ⟨h1, h2⟩ := ih r hr
            have hi : i < names.length ∧ names[i]? = some k := by
              unfold List.idxOf? at hk
              obtain ⟨hlt, heq, _⟩ := List.findIdx?_eq_some_iff_getElem.1 hk
              exact ⟨hlt, by rw [List.getElem?_eq_getElem hlt]; simpa using heq⟩
            refine ⟨by simp only [List.map_cons, hi.2, h1], ?_⟩
            intro j hj
            rcases List.mem_cons.1 hj with rfl | hj
            · exact hi.1
            · exact h2 j hj
    refine ⟨?_, hidx.1⟩
    have hnd : l.Nodup := by
      have h1 : (sel.map some).Nodup := hs.map (Option.some_injective _)
      rw [← hidx.1] at h1
      exact List.Nodup.of_map _ h1
    have hp : (l ++ (List.range names.length).filter fun k => decide (k ∉ l)).Perm (List.range names.length) := by
      refine (List.perm_ext_iff_of_nodup ?_ List.nodup_range).2 ?_
      · refine hnd.append (List.nodup_range.filter _) ?_
        intro x h1 h2
        simp only [List.mem_filter, decide_eq_true_eq] at h2
        exact h2.2 h1
      · intro x
        simp only [List.mem_append, List.mem_filter, List.mem_range, decide_eq_true_eq]
        constructor
        · rintro (h1 | ⟨h1, _⟩)
          · exact hidx.2 x h1
          · exact h1
        · intro h1
          by_cases hx : x ∈ l
          · exact Or.inl hx
          · exact Or.inr ⟨h1, hx⟩
    rw [← List.sum_append, ← List.map_append]
    exact (hp.map f).sum_eq

/-- A line selected twice is counted twice. -/
theorem selection_twice : selection ["a".toList, "b".toList] ["a".toList, "a".toList] = .ok ([0, 0], [1]) := by decide +kernel

/-! ## Rates of groups -/

/-- The name under which a group is collected: the element with the letter of the shell, or the name itself. -/
def collected (k : Str) : Str := (groupKey k).getD k

theorem groupKey_idem (k g : Str) (h : groupKey k = some g) : groupKey g = some g := by
  unfold groupKey at h
  split at h
  · next a b r =>
    simp only at h
    split at h
    · next ha =>
      split at h
      · next hb =>
        have key : ∀ r : Str, (match r with
            | ['-', g] => if g.isUpper = true then some ([a, b] ++ ['-', g]) else Option.none
            | ['-', g, _] => if g.isUpper = true then some ([a, b] ++ ['-', g]) else Option.none
            | _ => Option.none) = some g → ∃ c : Char, c.isUpper = true ∧ g = [a, b, '-', c] := by
          intro r h
          split at h
          · next c => split at h
                      · next hc => exact ⟨c, hc, by simpa using h.symm⟩
                      · cases h
          · next c _ => split at h
                        · next hc => exact ⟨c, hc, by simpa using h.symm⟩
                        · cases h
          · cases h
        obtain ⟨c, hc, rfl⟩ := key r h
        simp [groupKey, ha, hb, hc]
      · next hb =>
        have key : ∀ r : Str, (match r with
            | ['-', g] => if g.isUpper = true then some ([a] ++ ['-', g]) else Option.none
            | ['-', g, _] => if g.isUpper = true then some ([a] ++ ['-', g]) else Option.none
            | _ => Option.none) = some g → ∃ c : Char, c.isUpper = true ∧ g = [a, '-', c] := by
          intro r h
          split at h
          · next c => split at h
                      · next hc => exact ⟨c, hc, by simpa using h.symm⟩
                      · cases h
          · next c _ => split at h
                        · next hc => exact ⟨c, hc, by simpa using h.symm⟩
                        · cases h
          · cases h
        obtain ⟨c, hc, rfl⟩ := key _ h
        have hd : ('-' : Char).isLower = false := by decide
        simp [groupKey, ha, hc, hd]
    · cases h
  · cases h

theorem groupRates_get (l : List (Str × ℚ)) (d : Dict Str ℚ) (hn : (l.map Prod.fst).Nodup)
    (hd : ∀ k ∈ l.map Prod.fst, groupKey k = Option.none → Dict.get? d k = Option.none) (x : Str) :
    Dict.get? (groupRatesLoop d l) x =
      if (l.filter fun p => decide (collected p.1 = x)) = [] then Dict.get? d x
      else some (((Dict.get? d x).getD 0) + ((l.filter fun p => decide (collected p.1 = x)).map Prod.snd).sum) := by
  induction l generalizing d with
  | nil => simp [groupRatesLoop]
  | cons p l ih =>
    obtain ⟨k, v⟩ := p
    simp only [List.map_cons, List.nodup_cons] at hn
    unfold groupRatesLoop
    cases hk : groupKey k with
    | some g =>
      simp only
      have hck : collected k = g := by simp [collected, hk]
      rw [ih _ hn.2 ?_]
      · by_cases hx : g = x
        · subst hx
          simp only [List.filter_cons, hck, decide_true, if_true, Dict.get?_set, List.map_cons, List.sum_cons, reduceCtorEq, if_false, Option.getD_some]
          cases hg : Dict.get? d g with
          | none =>
            simp only [Option.getD_none]
            split
            · next h => rw [h]; simp
            · simp
          | some y =>
            simp only [Option.getD_some]
            split
            · next h => rw [h]; simp
            · simp [add_assoc]
        · have : decide (collected k = x) = false := by simp [hck, hx]
          simp only [List.filter_cons, this, Bool.false_eq_true, if_false, Dict.get?_set, if_neg hx]
      · intro k' hk' hnone
        rw [Dict.get?_set, if_neg]
        · exact hd k' (by simp [hk']) hnone
        · rintro rfl
          rw [groupKey_idem k g hk] at hnone
          cases hnone
    | none =>
      simp only
      have hck : collected k = k := by simp [collected, hk]
      rw [ih _ hn.2 ?_]
      · by_cases hx : k = x
        · subst hx
          have hnil := hd k (by simp) hk
          simp only [List.filter_cons, hck, decide_true, if_true, Dict.get?_set, List.map_cons, List.sum_cons, reduceCtorEq, if_false, Option.getD_some, hnil, Option.getD_none]
          split
          · next h => rw [h]; simp
          · simp
        · have : decide (collected k = x) = false := by simp [hck, hx]
          simp only [List.filter_cons, this, Bool.false_eq_true, if_false, Dict.get?_set, if_neg hx]
      · intro k' hk' hnone
        rw [Dict.get?_set, if_neg]
        · exact hd k' (by simp [hk']) hnone
        · rintro rfl
          exact hn.1 hk'

/-- The rate of an element and a letter is the sum of the rates of its groups; other groups keep their rate. -/
theorem groupRates_spec (l : List (Str × ℚ)) (hn : (l.map Prod.fst).Nodup) (x : Str) :
    Dict.get? (groupRatesLoop [] l) x =
      if (∃ p ∈ l, collected p.1 = x) then some ((l.filter fun p => decide (collected p.1 = x)).map Prod.snd).sum
      else Option.none := by
  rw [groupRates_get l [] hn (fun _ _ _ => rfl)]
  by_cases h : ∃ p ∈ l, collected p.1 = x
  · rw [if_pos h, if_neg]
    · simp [Dict.get?]
    · obtain ⟨p, hp, hx⟩ := h
      intro e
      have : p ∈ l.filter fun p => decide (collected p.1 = x) := List.mem_filter.2 ⟨hp, by simpa using hx⟩
      rw [e] at this
      cases this
  · rw [if_neg h, if_pos]
    · rfl
    · rw [List.filter_eq_nil_iff]
      intro p hp
      simpa using fun e => h ⟨p, hp, e⟩

/-- What is collected under which name. -/
theorem collected_examples : collected "Fe-K".toList = "Fe-K".toList ∧ collected "Fe-L3".toList = "Fe-L".toList ∧
    collected "U-M5".toList = "U-M".toList ∧ collected "Compton".toList = "Compton".toList ∧
    collected "Rayleigh".toList = "Rayleigh".toList := by decide +kernel

/-! ## Results of fisx -/

theorem fisxLoop_get (name : Str → Str → Str) (l : List (Str × Str × ℚ)) (d : Dict Str ℚ) (x : Str) :
    Dict.get? (fisxLoop name d l) x =
      if (l.filter fun p => decide (name (firstWord p.1) (firstWord p.2.1) = x)) = [] then Dict.get? d x
      else some (((Dict.get? d x).getD 0) + ((l.filter fun p => decide (name (firstWord p.1) (firstWord p.2.1) = x)).map fun p => p.2.2).sum) := by
  induction l generalizing d with
  | nil => simp [fisxLoop]
  | cons p l ih =>
    obtain ⟨g, k, v⟩ := p
    unfold fisxLoop
    simp only
    rw [ih]
    by_cases hx : name (firstWord g) (firstWord k) = x
    · subst hx
      simp only [List.filter_cons, decide_true, if_true, Dict.get?_set, List.map_cons, List.sum_cons, reduceCtorEq, if_false, Option.getD_some]
      cases hg : Dict.get? d (name (firstWord g) (firstWord k)) with
      | none =>
        simp only [Option.getD_none]
        split
        · next h => rw [h]; simp
        · simp
      | some y =>
        simp only [Option.getD_some]
        split
        · next h => rw [h]; simp
        · simp [add_assoc]
    · have : decide (name (firstWord g) (firstWord k) = x) = false := by simp [hx]
      simp only [List.filter_cons, this, Bool.false_eq_true, if_false, Dict.get?_set, if_neg hx]

theorem get?_mapVal (d : Dict Str ℚ) (f : Str → ℚ → ℚ) (x : Str) :
    Dict.get? (d.map fun p => (p.1, f p.1 p.2)) x = (Dict.get? d x).map (f x) := by
  induction d with
  | nil => rfl
  | cons p d ih =>
    obtain ⟨k, v⟩ := p
    simp only [List.map_cons, Dict.get?]
    by_cases h : k = x
    · subst h; simp
    · simp [h, ih]

/-- All peaks of a result: the element, the line and the rate. -/
def allPeaks (fisx : List (Str × List (Str × List (Str × ℚ)))) : List (Str × Str × ℚ) :=
  fisx.flatMap fun g => g.2.flatMap fun l => l.2.map fun p => (firstWord g.1, firstWord p.1, p.2)

/-- The rate of a line is the sum over all groups, layers and peaks of the line (the peak itself and its
escape peaks), in transmission times the transmission. -/
theorem parseFisx_spec (name : Str → Str → Str) (trans : Str → ℚ) (reflection : Bool)
    (fisx : List (Str × List (Str × List (Str × ℚ)))) (x : Str) :
    Dict.get? (parseFisx name trans reflection fisx) x =
      if (∃ p ∈ allPeaks fisx, name p.1 p.2.1 = x)
      then some ((((allPeaks fisx).filter fun p => decide (name p.1 p.2.1 = x)).map fun p => p.2.2).sum * (if reflection then 1 else trans x))
      else Option.none := by
  have hall : allPeaks fisx = (fisx.flatMap fun g => g.2.flatMap fun l => l.2.map fun p => (g.1, p.1, p.2)).map
      fun p => (firstWord p.1, firstWord p.2.1, p.2.2) := by
    simp only [allPeaks, List.map_flatMap, List.map_map, Function.comp_def]
  unfold parseFisx
  simp only
  rw [hall]
  generalize (fisx.flatMap fun g => g.2.flatMap fun l => l.2.map fun p => (g.1, p.1, p.2)) = l
  have hget := fisxLoop_get name l [] x
  have hf : (l.map fun p => (firstWord p.1, firstWord p.2.1, p.2.2)).filter (fun p => decide (name p.1 p.2.1 = x)) =
      (l.filter fun p => decide (name (firstWord p.1) (firstWord p.2.1) = x)).map fun p => (firstWord p.1, firstWord p.2.1, p.2.2) := by
    rw [List.filter_map]; rfl
  rw [hf, List.map_map]
  have hsum : ((fun p : Str × Str × ℚ => p.2.2) ∘ fun p : Str × Str × ℚ => (firstWord p.1, firstWord p.2.1, p.2.2)) = fun p => p.2.2 := rfl
  rw [hsum]
  by_cases h : ∃ p ∈ l.map (fun p => (firstWord p.1, firstWord p.2.1, p.2.2)), name p.1 p.2.1 = x
  · rw [if_pos h]
    rw [if_neg] at hget
    · simp only [Dict.get?, Option.getD_none, zero_add] at hget
      cases reflection with
      | true => simp [hget]
      | false =>
        simp only [Bool.false_eq_true, if_false]
        rw [get?_mapVal _ (fun k v => v * trans k), hget]
        simp
    · obtain ⟨p, hp, hx⟩ := h
      obtain ⟨q, hq, rfl⟩ := List.mem_map.1 hp
      intro e
      have : q ∈ l.filter fun p => decide (name (firstWord p.1) (firstWord p.2.1) = x) := List.mem_filter.2 ⟨hq, by simpa using hx⟩
      rw [e] at this
      cases this
  · rw [if_neg h]
    rw [if_pos] at hget
    · cases reflection with
      | true => simpa [Dict.get?] using hget
      | false =>
        simp only [Bool.false_eq_true, if_false]
        rw [get?_mapVal _ (fun k v => v * trans k), hget]
        rfl
    · rw [List.filter_eq_nil_iff]
      intro p hp
      simpa using fun e => h ⟨_, List.mem_map_of_mem hp, e⟩

example : parseFisx (fun e l => e ++ '-' :: l) (fun _ => 1 / 2) false
    [("Fe K".toList, [("layer 0".toList, [("KL3".toList, 2), ("KL3 escape".toList, 1)]), ("layer 1".toList, [("KL3".toList, 3), ("KM3".toList, 1)])])] =
    [("Fe-KL3".toList, 3), ("Fe-KM3".toList, 1 / 2)] := by decide +kernel

/-! ## The spectrum of rates -/

theorem foldl_max_spec (l : List ℚ) (a : ℚ) : (∀ x ∈ a :: l, x ≤ l.foldl max a) ∧ l.foldl max a ∈ a :: l := by
  induction l generalizing a with
  | nil => simp
  | cons b l ih =>
    obtain ⟨h1, h2⟩ := ih (max a b)
    refine ⟨?_, ?_⟩
    · intro x hx
      have hmax : max a b ≤ l.foldl max (max a b) := h1 _ (by simp)
      rcases List.mem_cons.1 hx with rfl | hx
      · exact (le_max_left _ _).trans hmax
      · rcases List.mem_cons.1 hx with rfl | hx
        · exact (le_max_right _ _).trans hmax
        · exact h1 x (by simp [hx])
    · rw [List.foldl_cons]
      rcases List.mem_cons.1 h2 with h | h
      · rw [h]
        rcases max_choice a b with e | e <;> rw [e] <;> simp
      · simp [h]

theorem maxOf_spec (l : List ℚ) (h : l ≠ []) : (∀ x ∈ l, x ≤ maxOf l) ∧ maxOf l ∈ l := by
  cases l with
  | nil => exact absurd rfl h
  | cons a l => exact foldl_max_spec l a

/-- The spectrum has all lines, or those that are not scattering; its last energy is the largest energy of its
lines, when none is given. -/
theorem ratesToSpectrum_spec (shift : ℚ → ℚ) (rates d : Lines) (emax : Option ℚ) (scattering : Bool) (e : ℚ)
    (h : ratesToSpectrum shift rates emax scattering = .ok (d, e)) :
    (∀ p, p ∈ d ↔ p ∈ rates ∧ (scattering = true ∨ p.1.isFluo = true)) ∧
    (∀ x, emax = some x → e = x) ∧
    (emax = Option.none → (∀ p ∈ d, ∀ x ∈ (p.1.energy shift).toList, x ≤ e) ∧ ∃ p ∈ d, e ∈ (p.1.energy shift).toList) := by
  unfold ratesToSpectrum at h
  simp only at h
  have hd : d = (if scattering = true then rates else rates.filter fun p => p.1.isFluo) := by
    cases emax with
    | some x => exact (Prod.mk.inj (Except.ok.inj h)).1.symm
    | none =>
      simp only at h
      split at h
      · cases h
      · exact (Prod.mk.inj (Except.ok.inj h)).1.symm
  refine ⟨?_, ?_, ?_⟩
  · intro p
    rw [hd]
    cases scattering <;> simp
  · rintro x rfl
    exact (Prod.mk.inj (Except.ok.inj h)).2.symm
  · rintro rfl
    simp only [← hd] at h
    split at h
    · cases h
    · next a l hl =>
      have he := (Prod.mk.inj (Except.ok.inj h)).2
      subst he
      obtain ⟨h1, h2⟩ := maxOf_spec (a :: l) (by simp)
      rw [← hl] at h1 h2
      rw [hl] at h1 h2
      refine ⟨?_, ?_⟩
      · intro p hp x hx
        exact h1 x (by rw [← hl]; exact List.mem_flatMap.2 ⟨p, hp, hx⟩)
      · rw [← hl] at h2
        obtain ⟨p, hp, hx⟩ := List.mem_flatMap.1 h2
        exact ⟨p, hp, by rwa [hl] at hx⟩

end SC.Spectrum
