import Verif.Compound.Props
import Mathlib.Tactic.FinCases
/-! # C41: the elements of a mixture -/
namespace SC.Compound
open SC.Stoich

set_option linter.unusedSectionVars false
variable {K : Type} [Field K] [LinearOrder K] [IsStrictOrderedRing K]
variable {E α β : Type} [DecidableEq E] [DecidableEq β]

/-- The flattened formula: every element of every part, as often as the part occurs. -/
def Mixt.flat (m : Mixt E K) : List (E × K) :=
  m.parts.flatMap fun c => c.1.eqv.map fun e => (e.1, c.2 * e.2)

/-- What the methods of a part have to agree on: its molar mass and mass fractions are those of
its formula. -/
structure Part.Consistent (MM : E → K) (p : Part E K) : Prop where
  distinct : (names id p.eqv).Nodup
  proper : Proper p.eqv
  molarmass : p.molarmass = total (inUnits MM p.eqv)
  mass : IsTable id p.mass (names id p.eqv) (fun e => amount id p.eqv e * MM e / total (inUnits MM p.eqv))
  density : 0 < p.density

/-- The list that the loops of `combine` add up. -/
def spread (outer : Items (Part E K) K) (inner : Part E K → Items E K) : Items E K :=
  outer.flatMap fun c => (inner c.1).map fun e => (e.1, c.2 * e.2)

theorem combine_eq (outer : Items (Part E K) K) (inner : Part E K → Items E K) :
    combine outer inner = compose id (spread outer inner) := by
  simp only [combine, compose, spread]
  generalize ([] : Items E K) = d
  induction outer generalizing d with
  | nil => rfl
  | cons c outer ih =>
    rw [List.foldl_cons, ih, List.flatMap_cons, List.foldl_append, List.foldl_map]

theorem amount_spread (outer : Items (Part E K) K) (inner : Part E K → Items E K) (e : E) :
    amount id (spread outer inner) e = wsum (fun p => amount id (inner p) e) outer := by
  induction outer with
  | nil => rfl
  | cons c outer ih =>
    obtain ⟨p, n⟩ := c
    have : ((inner p).map fun e => (e.1, n * e.2)) = inUnits (fun _ => n) (inner p) := by
      simp [inUnits, mul_comm]
    simp only [spread, List.flatMap_cons] at ih ⊢
    rw [amount_append, ih, wsum_cons, this, amount_map id _ _ e n fun _ _ _ => rfl, mul_comm]

theorem wsum_append (g : α → K) (l m : Items α K) : wsum g (l ++ m) = wsum g l + wsum g m := by
  simp [wsum, inUnits, total]

theorem wsum_scale (g : α → K) (n : K) (l : Items α K) : wsum g (l.map fun e => (e.1, n * e.2)) = n * wsum g l := by
  induction l with
  | nil => simp [wsum, inUnits, total]
  | cons p l ih => obtain ⟨a, x⟩ := p; rw [List.map_cons, wsum_cons, wsum_cons, ih]; ring

theorem wsum_spread (g : E → K) (outer : Items (Part E K) K) (inner : Part E K → Items E K) :
    wsum g (spread outer inner) = wsum (fun p => wsum g (inner p)) outer := by
  induction outer with
  | nil => rfl
  | cons c outer ih =>
    obtain ⟨p, n⟩ := c
    simp only [spread, List.flatMap_cons] at ih ⊢
    rw [wsum_append, ih, wsum_cons, wsum_scale]

theorem mem_names_spread (outer : Items (Part E K) K) (inner : Part E K → Items E K) (e : E) :
    e ∈ names id (spread outer inner) ↔ ∃ p ∈ keys outer, e ∈ names id (inner p) := by
  simp only [names, spread, keys, List.mem_map, List.mem_flatMap]
  constructor
  · rintro ⟨q, ⟨c, hc, x, hx, rfl⟩, rfl⟩
    exact ⟨c.1, ⟨c, hc, rfl⟩, x, hx, rfl⟩
  · rintro ⟨p, ⟨c, hc, rfl⟩, x, hx, rfl⟩
    exact ⟨(x.1, c.2 * x.2), ⟨c, hc, x, hx, rfl⟩, rfl⟩

theorem wsum_congr {f g : α → K} {l : Items α K} (h : ∀ a ∈ keys l, f a = g a) : wsum f l = wsum g l := by
  rw [← wsum_eq, ← wsum_eq]
  congr 1
  refine List.map_congr_left fun p hp => ?_
  rw [h p.1 (List.mem_map.mpr ⟨p, hp, rfl⟩)]

theorem wsum_mul_right (f : α → K) (c : K) (l : Items α K) : wsum (fun a => f a * c) l = wsum f l * c := by
  induction l with
  | nil => simp [wsum, inUnits, total]
  | cons p l ih => obtain ⟨a, x⟩ := p; rw [wsum_cons, wsum_cons, ih]; ring

theorem wsum_shares (f g : α → K) (l : Items α K) : wsum f (shares g l) = wsum (fun a => g a * f a) l / wsum g l := by
  have : ∀ (l : Items α K) (s : K), wsum f (l.map fun p => (p.1, p.2 * g p.1 / s)) = wsum (fun a => g a * f a) l / s := by
    intro l s
    induction l with
    | nil => simp [wsum, inUnits, total]
    | cons p l ih => obtain ⟨a, x⟩ := p; rw [List.map_cons, wsum_cons, wsum_cons, ih]; ring
  exact this l _

/-- **C41.**  The equivalents of the elements of a mixture are those of the flattened formula, with
repeated elements merged. -/
theorem elemental_equivalents (m : Mixt E K) :
    IsTable id m.elementalEqv (names id m.flat) (amount id m.flat) := by
  have : m.elementalEqv = compose id m.flat := combine_eq m.parts Part.eqv
  rw [this]; exact compose_table id _

theorem flat_eq (m : Mixt E K) : m.flat = spread m.parts Part.eqv := rfl

theorem flat_mass (MM : E → K) (m : Mixt E K) (hc : ∀ p ∈ keys m.parts, p.Consistent MM) :
    total (inUnits MM m.flat) = wsum Part.molarmass m.parts := by
  show wsum MM m.flat = _
  rw [flat_eq, wsum_spread]
  exact wsum_congr fun p hp => (hc p hp).molarmass.symm

/-- **C41.**  The mass fractions of the elements of a mixture are those of the flattened formula. -/
theorem elemental_massfractions (MM : E → K) (hM : ∀ e, 0 < MM e) (m : Mixt E K)
    (hc : ∀ p ∈ keys m.parts, p.Consistent MM) :
    IsTable id m.elementalMass (names id m.flat)
      (fun e => amount id m.flat e * MM e / total (inUnits MM m.flat)) := by
  have he : m.elementalMass = compose id (spread (shares Part.molarmass m.parts) Part.mass) := by
    simp only [Mixt.elementalMass, combine_eq, Mixt.massfractions, Mixt.equivalents, moleToWeight_eq]
  rw [he]
  refine isTable_of id _ _ _ (compose_nodup _ _) ?_ ?_
  · intro e
    rw [compose_names, mem_names_spread, flat_eq, mem_names_spread, keys_shares]
    constructor
    · rintro ⟨p, hp, h⟩; exact ⟨p, hp, ((hc p hp).mass.mem_names e).mp h⟩
    · rintro ⟨p, hp, h⟩; exact ⟨p, hp, ((hc p hp).mass.mem_names e).mpr h⟩
  · intro e _
    rw [compose_amount, amount_spread, wsum_shares, flat_mass MM m hc, flat_eq, amount_spread]
    congr 1
    rw [← wsum_mul_right]
    refine wsum_congr fun p hp => ?_
    have h := hc p hp
    have hpos : 0 < total (inUnits MM p.eqv) := (h.proper.inUnits MM fun q _ => hM q.1).pos
    by_cases hn : e ∈ names id p.eqv
    · rw [h.mass.amount_eq hn, h.molarmass]
      field_simp
    · rw [amount_absent id p.eqv e hn, zero_mul]
      rw [amount_absent id p.mass e fun hm => hn ((h.mass.mem_names e).mp hm), mul_zero]

/-- **C41.**  The molar mass of a mixture is the mass of its flattened formula and of its parts. -/
theorem mixture_molarmass (MM : E → K) (m : Mixt E K) (hc : ∀ p ∈ keys m.parts, p.Consistent MM) :
    m.molarmass MM = total (inUnits MM m.flat) ∧
    m.molarmass MM = total (inUnits Part.molarmass m.parts) := by
  have h1 : m.molarmass MM = total (inUnits MM m.flat) := by
    have : m.elementalEqv = compose id m.flat := combine_eq m.parts Part.eqv
    have e : m.molarmass MM = wsum MM m.elementalEqv := by
      rw [← wsum_eq]; simp only [Mixt.molarmass, mul_comm]
    rw [e, this, wsum_compose id MM _ (respects_id _ _)]; rfl
  exact ⟨h1, by rw [h1, flat_mass MM m hc]; rfl⟩

/-- **C41.**  The density of a mixture is its mass over its volume. -/
theorem mixture_density (m : Mixt E K) : m.density =
    total (inUnits (partPerMole .mass) m.parts) / total (inUnits (partPerMole .volume) m.parts) := by
  have h : (m.parts.map fun p => p.2 * p.1.molarmass / p.1.density).sum
      = wsum (partPerMole .volume) m.parts := by
    rw [← wsum_eq]; simp [partPerMole, mul_div_assoc]
  simp only [Mixt.density, densityFromMole, Mixt.equivalents, wsum_eq, h]; rfl

theorem flat_proper (MM : E → K) (m : Mixt E K) (hm : m.Valid) (hc : ∀ p ∈ keys m.parts, p.Consistent MM) :
    Proper m.flat := by
  have hn : ∀ q ∈ m.flat, 0 ≤ q.2 := by
    intro q hq
    obtain ⟨c, hcm, hq⟩ := List.mem_flatMap.mp hq
    obtain ⟨e, he, rfl⟩ := List.mem_map.mp hq
    exact mul_nonneg (hm.proper.nonneg c hcm) ((hc c.1 (List.mem_map.mpr ⟨c, hcm, rfl⟩)).proper.nonneg e he)
  refine ⟨hn, total_pos_of _ hn ?_⟩
  obtain ⟨c, hcm, h0⟩ := exists_pos _ hm.proper.pos
  obtain ⟨e, he, h1⟩ := exists_pos _ (hc c.1 (List.mem_map.mpr ⟨c, hcm, rfl⟩)).proper.pos
  exact ⟨(e.1, c.2 * e.2), List.mem_flatMap.mpr ⟨c, hcm, List.mem_map.mpr ⟨e, he, rfl⟩⟩, mul_pos h0 h1⟩

/-- **C41.**  Compounds are consistent parts. -/
theorem compound_part (MM : E → K) (hM : ∀ e, 0 < MM e) (c : Cmpd E K) (hc : c.Valid) (hd : 0 < c.density) :
    (c.part MM).Consistent MM ∧ 0 < (c.part MM).molarmass := by
  have hmm : c.molarmass MM = total (inUnits MM c.elements) := by
    show _ = wsum MM c.elements
    rw [← wsum_eq]; simp only [Cmpd.molarmass, Cmpd.equivalents, mul_comm]
  obtain ⟨f, h1, _, h2⟩ := compound_fractions MM hM c hc .mass (by decide)
  simp only [Cmpd.fractions, Option.some.injEq] at h1
  subst h1
  refine ⟨⟨hc.distinct, hc.proper, hmm, h2, hd⟩, ?_⟩
  show 0 < c.molarmass MM
  rw [hmm]; exact (hc.proper.inUnits MM fun q _ => hM q.1).pos

/-- **C41.**  Mixtures of consistent parts are consistent parts themselves, so everything holds for
mixtures of mixtures of any depth. -/
theorem mixture_part (MM : E → K) (hM : ∀ e, 0 < MM e) (m : Mixt E K) (hm : m.Valid)
    (hc : ∀ p ∈ keys m.parts, p.Consistent MM) :
    (m.part MM).Consistent MM ∧ 0 < (m.part MM).molarmass := by
  have he : m.elementalEqv = compose id m.flat := combine_eq m.parts Part.eqv
  have hp := flat_proper MM m hm hc
  have ht : total (inUnits MM (compose id m.flat)) = total (inUnits MM m.flat) :=
    wsum_compose id MM _ (respects_id _ _)
  have hmm := (mixture_molarmass MM m hc).1
  refine ⟨⟨?_, ?_, ?_, ?_, ?_⟩, ?_⟩
  · show (names id m.elementalEqv).Nodup
    rw [he]; exact compose_nodup _ _
  · show Proper m.elementalEqv
    rw [he]; exact hp.compose id
  · show m.molarmass MM = total (inUnits MM m.elementalEqv)
    rw [he, ht, hmm]
  · show IsTable id m.elementalMass (names id m.elementalEqv) _
    have h := elemental_massfractions MM hM m hc
    refine isTable_of id _ _ _ h.distinct ?_ ?_
    · intro e
      rw [h.mem_names, he, compose_names]
    · intro e hx
      rw [he, compose_names] at hx
      show amount id m.elementalMass e = amount id m.elementalEqv e * MM e / total (inUnits MM m.elementalEqv)
      rw [h.amount_eq hx, he, compose_amount, ht]
  · show 0 < m.density
    rw [mixture_density]
    exact div_pos (hm.proper.inUnits _ (hm.perMole_pos .mass)).pos (hm.proper.inUnits _ (hm.perMole_pos .volume)).pos
  · show 0 < m.molarmass MM
    rw [hmm]; exact (hp.inUnits MM fun q _ => hM q.1).pos

/-- **C41.**  Turning a mixture into a compound keeps the formula, the mass fractions of the
elements, the molar mass and the density. -/
theorem tocompound_spec (MM rho : E → K) (hM : ∀ e, 0 < MM e) (m : Mixt E K) (hm : m.Valid)
    (hc : ∀ p ∈ keys m.parts, p.Consistent MM) (name : Option String) :
    ∃ c, m.tocompound MM rho name = some c ∧ c.Valid ∧ c.density = m.density ∧
      c.molarmass MM = m.molarmass MM ∧
      IsTable id c.elements (names id m.flat) (amount id m.flat) ∧
      IsTable id (c.massfractions MM) (names id m.flat)
        (fun e => amount id m.flat e * MM e / total (inUnits MM m.flat)) ∧
      (name = none → c.name = m.name) := by
  have he : m.elementalEqv = compose id m.flat := combine_eq m.parts Part.eqv
  have hp := flat_proper MM m hm hc
  have hz : (keys m.elementalEqv).zip (vals m.elementalEqv) = m.elementalEqv := zip_keys_vals _
  have hd : m.density ≠ 0 := (mixture_part MM hM m hm hc).1.density.ne'
  have hv : (⟨match name with | some n => if n = "" then m.name else n | none => m.name,
      compose id m.elementalEqv, m.density⟩ : Cmpd E K).Valid :=
    ⟨compose_nodup _ _, by rw [he]; exact (hp.compose id).compose id⟩
  have htab : IsTable id (compose id m.elementalEqv) (names id m.flat) (amount id m.flat) := by
    refine isTable_of id _ _ _ (compose_nodup _ _) ?_ ?_
    · intro e; rw [compose_names, he, compose_names]
    · intro e _; rw [compose_amount, he, compose_amount]
  have hmass : total (inUnits MM (compose id m.elementalEqv)) = total (inUnits MM m.flat) := by
    have h1 := wsum_compose id MM m.elementalEqv (respects_id _ _)
    have h2 := wsum_compose id MM m.flat (respects_id _ _)
    rw [he] at h1 ⊢
    exact h1.trans h2
  refine ⟨_, ?_, hv, rfl, ?_, htab, ?_, ?_⟩
  · simp only [Mixt.tocompound, Cmpd.new, elementMoles, hz, Option.map_some, newDensity, if_neg hd]
    cases name <;> rfl
  · rw [(mixture_molarmass MM m hc).1, ← hmass]
    show _ = wsum MM _
    rw [← wsum_eq]; simp only [Cmpd.molarmass, Cmpd.equivalents, mul_comm]
  · obtain ⟨f, h1, _, h2⟩ := compound_fractions MM hM _ hv .mass (by decide)
    simp only [Cmpd.fractions, Option.some.injEq] at h1
    subst h1
    refine isTable_of id _ _ _ h2.distinct ?_ ?_
    · intro e; rw [h2.mem_names]; exact htab.mem_names e
    · intro e hx
      rw [h2.amount_eq ((htab.mem_names e).mpr hx)]
      show amount id (compose id m.elementalEqv) e * MM e / total (inUnits MM (compose id m.elementalEqv)) = _
      rw [htab.amount_eq hx, hmass]
  · intro e; rw [e]

/-- **C41.**  What `elemental_molefractions` computes: the mole fractions of the elements inside
every part, weighted with the mole fraction of the part. -/
theorem elemental_molefractions (m : Mixt E K) : IsTable id m.elementalMole
    (names id (spread m.parts Part.mole))
    (fun e => (m.parts.map fun c => c.2 * amount id c.1.mole e).sum / total m.parts) := by
  have he : m.elementalMole = compose id (spread (shares (fun _ => 1) m.parts) Part.mole) := by
    simp only [Mixt.elementalMole, combine_eq, Mixt.molefractions, normalize_eq]
  rw [he]
  refine isTable_of id _ _ _ (compose_nodup _ _) ?_ ?_
  · intro e
    rw [compose_names, mem_names_spread, mem_names_spread, keys_shares]
  · intro e _
    rw [compose_amount, amount_spread, wsum_shares, wsum_one, ← wsum_eq]
    simp

/-- **C41, partial.**  The mole fractions of the elements of a mixture are those of the flattened
formula when all parts have the same number of atoms.  Missing because false: mixtures of parts
with different numbers of atoms (`elemental_molefractions_wrong`). -/
theorem elemental_molefractions_partial (m : Mixt E K) (N : K) (hN : N ≠ 0)
    (hc : ∀ p ∈ keys m.parts, total p.eqv = N ∧
      IsTable id p.mole (names id p.eqv) (fun e => amount id p.eqv e / total p.eqv)) :
    IsTable id m.elementalMole (names id m.flat) (fun e => amount id m.flat e / total m.flat) := by
  have h := elemental_molefractions m
  have hn : ∀ e, e ∈ names id (spread m.parts Part.mole) ↔ e ∈ names id m.flat := by
    intro e
    rw [flat_eq, mem_names_spread, mem_names_spread]
    constructor
    · rintro ⟨p, hp, h⟩; exact ⟨p, hp, ((hc p hp).2.mem_names e).mp h⟩
    · rintro ⟨p, hp, h⟩; exact ⟨p, hp, ((hc p hp).2.mem_names e).mpr h⟩
  refine isTable_of id _ _ _ h.distinct (fun e => by rw [h.mem_names, hn]) ?_
  intro e hx
  have ht : total m.flat = total m.parts * N := by
    rw [flat_eq, ← wsum_one, wsum_spread, ← wsum_one, ← wsum_mul_right]
    refine wsum_congr fun p hp => ?_
    rw [wsum_one, (hc p hp).1, one_mul]
  rw [h.amount_eq ((hn e).mpr hx), ht, flat_eq, amount_spread, mul_comm, ← div_div]
  congr 1
  rw [eq_div_iff hN, wsum_eq (fun p : Part E K => amount id p.mole e), ← wsum_mul_right]
  refine wsum_congr fun p hp => ?_
  obtain ⟨h1, h2⟩ := hc p hp
  by_cases hn : e ∈ names id p.eqv
  · rw [h2.amount_eq hn, h1, div_mul_cancel₀ _ hN]
  · rw [amount_absent id p.eqv e hn, amount_absent id p.mole e fun hm => hn ((h2.mem_names e).mp hm), zero_mul]

/-! ## where it goes wrong -/

/-- One mole of X₂ (mole fractions of a compound) and one mole of Y. -/
def twoAndOne : Mixt Bool ℚ :=
  ⟨"mix", [((⟨"X2", [(true, 2)], 1⟩ : Cmpd Bool ℚ).part fun _ => 1, 1),
           ((⟨"Y", [(false, 1)], 1⟩ : Cmpd Bool ℚ).part fun _ => 1, 1)]⟩

/-- **C41, finding.**  The mole fractions of the elements of a mixture are not those of the
flattened formula: two X and one Y are reported as half and half. -/
theorem elemental_molefractions_wrong : item id twoAndOne.elementalMole true = some (1 / 2) ∧
    amount id twoAndOne.flat true / total twoAndOne.flat = 2 / 3 := by decide +kernel

/-- **C41, finding.**  Different parts with the same name are taken for one: the elements of the
second are lost. -/
theorem same_name_lost : ∃ m, Mixt.new "mix" [(⟨"A", [(true, 1)], 1⟩ : Cmpd Bool ℚ).part fun _ => 1,
      (⟨"A", [(false, 1)], 1⟩ : Cmpd Bool ℚ).part fun _ => 1] [1, 1] .mole = some m ∧
    item id m.elementalEqv true = some 2 ∧ item id m.elementalEqv false = none :=
  ⟨_, rfl, by decide +kernel, by decide +kernel⟩

/-- **C41, finding.**  With mole fractions, elements without a fraction and fractions without an
element are dropped silently. -/
theorem mole_truncated (MM rho : E → K) (name : String) (els : List E) (frac : List K) (density : Option K) :
    Cmpd.new MM rho name els frac .mole density =
      Cmpd.new MM rho name (els.take frac.length) (frac.take els.length) .mole density := by
  have : els.zip frac = (els.take frac.length).zip (frac.take els.length) := by
    induction els generalizing frac with
    | nil => simp
    | cons e els ih =>
      cases frac with
      | nil => rfl
      | cons x frac => simp only [List.zip_cons_cons, List.take_succ_cons, List.length_cons]; rw [← ih]
  simp only [Cmpd.new, elementMoles, this]

/-- **C41, finding.**  One mass fraction for several elements is given to each of them. -/
theorem mass_broadcast (MM rho : E → K) (name : String) (a b : E) (w : K) (density : Option K) :
    Cmpd.new MM rho name [a, b] [w] .mass density = Cmpd.new MM rho name [a, b] [w, w] .mass density := by
  simp [Cmpd.new, elementMoles, weightToMole, bcast]

/-- **C41, finding.**  Setting the fraction of some of the parts never works. -/
theorem setfraction_fails (key : α → β) (w : Items α K) (parts : List β) (values : List K)
    (h : ∃ p ∈ w, key p.1 ∉ parts) : setfraction key w parts values = none := by
  obtain ⟨p, hp, hn⟩ := h
  have hne : (w.filter fun p => !parts.contains (key p.1)) ≠ [] := by
    refine List.ne_nil_of_mem (a := p) (List.mem_filter.mpr ⟨hp, ?_⟩)
    simp [hn]
  simp only [setfraction, ne_eq, hne, not_false_eq_true, if_true]
  split
  · rfl
  · split <;> rfl

/-- **C41.**  Setting all fractions works. -/
theorem setfraction_all (key : α → β) (w : Items α K) (hw : (names key w).Nodup) (parts : List β) (values : List K)
    (hl : parts.length = values.length) (hnd : parts.Nodup) (h : ∀ b, b ∈ parts ↔ b ∈ names key w) :
    ∃ w', setfraction key w parts values = some w' ∧ keys w' = keys w ∧
      IsTable key w' (names key w) (fun b => amount id (parts.zip values) b) := by
  have h1 : parts.any (fun p => !((keys w).map key).contains p) = false := by
    rw [List.any_eq_false]
    intro b hb
    have := (h b).mp hb
    simp only [names] at this
    simpa [keys, Function.comp_def] using this
  have h2 : (w.filter fun p => !parts.contains (key p.1)) = [] := by
    rw [List.filter_eq_nil_iff]
    intro p hp
    have := (h (key p.1)).mpr (List.mem_map.mpr ⟨p, hp, rfl⟩)
    simp [this]
  have hval : ∀ b ∈ parts, ∃ v, (parts.zip values).reverse.find? (fun q => decide (q.1 = b)) = some (b, v) ∧
      amount id (parts.zip values) b = v := by
    intro b hb
    have hkz : names id (parts.zip values) = parts := zip_fst parts values hl
    have hn : (names id (parts.zip values).reverse).Nodup := by
      have : names id (parts.zip values).reverse = parts.reverse := by
        simp only [names, List.map_reverse]; exact congrArg List.reverse hkz
      rw [this]; exact List.nodup_reverse.mpr hnd
    have hm : b ∈ names id (parts.zip values).reverse := by
      simp only [names, List.map_reverse, List.mem_reverse]; rw [← hkz] at hb; simpa [names] using hb
    have hit := item_nodup id _ hn b
    rw [if_pos hm] at hit
    have ham : amount id (parts.zip values).reverse b = amount id (parts.zip values) b := by
      simp only [amount, List.filter_reverse, List.map_reverse, List.sum_reverse]
    rw [ham] at hit
    simp only [item, Option.map_eq_some_iff] at hit
    obtain ⟨q, hq, hq2⟩ := hit
    have hq1 : q.1 = b := by simpa using List.find?_some hq
    refine ⟨q.2, ?_, hq2.symm⟩
    have : q = (b, q.2) := by rw [← hq1]
    rw [← this]; exact hq
  refine ⟨_, by simp only [setfraction, h1, h2, Bool.false_eq_true, if_false, hnd, decide_true, Bool.not_true,
      ne_eq, not_true_eq_false]; rfl, ?_, ?_⟩
  · simp only [keys, List.map_map]
    refine List.map_congr_left fun p _ => ?_
    simp only [Function.comp]
    cases (parts.zip values).reverse.find? fun q => decide (q.1 = key p.1) <;> rfl
  · have hshape : (w.map fun p =>
        ((parts.zip values).reverse.find? fun q => decide (q.1 = key p.1)).elim p fun q => (p.1, q.2)) = w.map fun p => (p.1, amount id (parts.zip values) (key p.1)) := by
      refine List.map_congr_left fun p hp => ?_
      obtain ⟨v, hv, hv2⟩ := hval (key p.1) ((h _).mpr (List.mem_map.mpr ⟨p, hp, rfl⟩))
      rw [hv]; simp only [Option.elim, hv2]
    rw [hshape]
    have hn : names key (w.map fun p => (p.1, amount id (parts.zip values) (key p.1))) = names key w := by
      simp [names, Function.comp_def]
    refine ⟨by rw [hn]; exact hw, ?_, ?_⟩
    · intro b hb
      clear hshape hn h1 h2 hval h
      induction w with
      | nil => simp [names] at hb
      | cons p w ih =>
        obtain ⟨a, x⟩ := p
        rw [names_cons, List.nodup_cons] at hw
        rw [List.map_cons, item_cons]
        by_cases e : key a = b
        · simp [e]
        · rw [if_neg e]
          rw [names_cons, List.mem_cons] at hb
          exact ih hw.2 (hb.resolve_left (Ne.symm e))
    · intro b hb
      rw [item_nodup key _ (by rw [hn]; exact hw), hn, if_neg hb]

/-! ## concrete cases -/

/-- water and an oxide, with repeated elements -/
example : ∃ c, Cmpd.new (fun b : Bool => if b then 16 else (1 : ℚ)) (fun _ => 1) "x" [true, false, true] [1, 2, 1] .mole none = some c
    ∧ item id c.elements true = some 2 ∧ item id c.elements false = some 2 := ⟨_, rfl, by decide +kernel, by decide +kernel⟩
example : Proper ([true, false, true].zip [(1 : ℚ), 2, 1]) := ⟨by decide +kernel, by decide +kernel⟩
example : ((⟨"H2O", [(false, 2), (true, 1)], 1⟩ : Cmpd Bool ℚ).addelements (fun b => if b then 16 else 1)
    [true] [1 / 2] .mole none).map (fun c => (item id c.elements true, item id c.elements false))
    = some (some 2, some 1) := by decide +kernel
example : (⟨"H2O", [(false, 2), (true, 1)], 1⟩ : Cmpd Bool ℚ).Valid := ⟨by decide +kernel, by decide +kernel, by decide +kernel⟩
example : twoAndOne.Valid := ⟨by decide +kernel, ⟨by decide +kernel, by decide +kernel⟩, by
  intro p hp
  simp only [keys, twoAndOne, List.map_cons, List.map_nil, List.mem_cons, List.not_mem_nil, or_false] at hp
  rcases hp with rfl | rfl <;> decide +kernel⟩
example : SameParts (keys twoAndOne.parts) := by
  intro p hp q hq h
  simp only [keys, twoAndOne, List.map_cons, List.map_nil, List.mem_cons, List.not_mem_nil, or_false] at hp hq
  rcases hp with rfl | rfl <;> rcases hq with rfl | rfl <;> first | rfl | (exact absurd h (by decide))
example : ∀ p ∈ keys twoAndOne.parts, p.Consistent fun _ => 1 := by
  intro p hp
  simp only [keys, twoAndOne, List.map_cons, List.map_nil, List.mem_cons, List.not_mem_nil, or_false] at hp
  rcases hp with rfl | rfl
  · exact (compound_part _ (fun _ => one_pos) _ ⟨by decide +kernel, by decide +kernel, by decide +kernel⟩ (by decide +kernel)).1
  · exact (compound_part _ (fun _ => one_pos) _ ⟨by decide +kernel, by decide +kernel, by decide +kernel⟩ (by decide +kernel)).1
example : item id twoAndOne.elementalMass true = some (2 / 3) := by decide +kernel
example : setfraction id [(true, (1 : ℚ)), (false, 2)] [true] [3] = none :=
  setfraction_fails _ _ _ _ ⟨(false, 2), by simp, by decide⟩

end SC.Compound
