import Verif.Compound.Lemmas2
import Mathlib.Tactic.NormNum
/-! # C41: compounds and mixtures -/
namespace SC.Compound
open SC.Stoich

set_option linter.unusedSectionVars false
variable {K : Type} [Field K] [LinearOrder K] [IsStrictOrderedRing K]
variable {E : Type} [DecidableEq E]

/-! ## what the fractions are fractions of -/

/-- moles or mass of one mole of an element (elements have no volume) -/
def perMole (MM : E → K) : Frac → E → K
  | .mole, _ => 1
  | _, e => MM e

/-- moles, mass or volume of one mole of a part of a mixture -/
def partPerMole : Frac → Part E K → K
  | .mole, _ => 1
  | .mass, p => p.molarmass
  | .volume, p => p.molarmass / p.density

/-- A compound as this code makes them: every element once, numbers not negative and not all zero. -/
structure Cmpd.Valid (c : Cmpd E K) : Prop where
  distinct : (names id c.elements).Nodup
  proper : Proper c.elements

/-- A mixture as this code makes them: every name once, numbers not negative and not all zero,
parts with a positive molar mass and density. -/
structure Mixt.Valid (m : Mixt E K) : Prop where
  distinct : (names Part.name m.parts).Nodup
  proper : Proper m.parts
  physical : ∀ p ∈ keys m.parts, 0 < p.molarmass ∧ 0 < p.density

theorem perMole_pos {MM : E → K} (hM : ∀ e, 0 < MM e) (t : Frac) (e : E) : 0 < perMole MM t e := by
  cases t <;> simp [perMole, hM]
theorem partPerMole_pos {p : Part E K} (h : 0 < p.molarmass ∧ 0 < p.density) (t : Frac) : 0 < partPerMole t p := by
  cases t
  · exact one_pos
  · exact h.1
  · exact div_pos h.1 h.2

theorem respects_id (g : E → K) (l : Items E K) : Respects id g l := by
  intro p _ q _ e
  simp only [id] at e
  rw [e]

/-- Parts with the same name are the same part. -/
def SameParts (ps : List (Part E K)) : Prop := ∀ p ∈ ps, ∀ q ∈ ps, p.name = q.name → p = q

theorem SameParts.respects {l : Items (Part E K) K} (h : SameParts (keys l)) (g : Part E K → K) :
    Respects Part.name g l := by
  intro p hp q hq e
  rw [h p.1 (List.mem_map.mpr ⟨p, hp, rfl⟩) q.1 (List.mem_map.mpr ⟨q, hq, rfl⟩) e]

theorem toMoles_one {α : Type} (l : Items α K) : toMoles (fun _ => 1) 1 l = l := by simp [toMoles]

theorem elementMoles_eq (MM : E → K) (hM : ∀ e, 0 < MM e) (els : List E) (frac : List K) (t : Frac)
    (ht : t ≠ .volume) (hl : els.length = frac.length) (hp : Proper (els.zip frac)) :
    ∃ k : K, 0 < k ∧ elementMoles MM els frac t = some (toMoles (perMole MM t) k (els.zip frac)) ∧
      (t = .mole → k = 1) ∧ (t = .mass → total (toMoles (perMole MM t) k (els.zip frac)) = 1) := by
  cases t with
  | volume => exact absurd rfl ht
  | mole =>
    refine ⟨1, one_pos, ?_, fun _ => rfl, by simp⟩
    have : perMole MM .mole = fun _ => (1 : K) := rfl
    rw [this, toMoles_one]; rfl
  | mass =>
    obtain ⟨n, h1, h2⟩ := weightToMole_eq els MM frac hl
    have hw : 0 < wsum (fun a => (MM a)⁻¹) (els.zip frac) := (hp.inUnits _ fun p _ => inv_pos.mpr (hM p.1)).pos
    have e : perMole MM .mass = MM := rfl
    refine ⟨_, inv_pos.mpr hw, ?_, by simp, fun _ => ?_⟩
    · simp only [elementMoles, h1, Option.map_some, h2, e]
    · rw [e]; exact total_toMoles_norm MM _ hw.ne'

theorem partMoles_eq (ps : List (Part E K)) (frac : List K) (t : Frac) (hl : ps.length = frac.length)
    (hp : Proper (ps.zip frac)) (hph : ∀ p ∈ ps, 0 < p.molarmass ∧ 0 < p.density) :
    ∃ k : K, 0 < k ∧ partMoles ps frac t = some (toMoles (partPerMole t) k (ps.zip frac)) ∧
      (t = .mole → k = 1) ∧ (t ≠ .mole → total (toMoles (partPerMole t) k (ps.zip frac)) = 1) := by
  have hmem : ∀ p ∈ ps.zip frac, p.1 ∈ ps := fun p hp => (List.of_mem_zip (a := p.1) (b := p.2) hp).1
  have hw : 0 < wsum (fun a => (partPerMole t a)⁻¹) (ps.zip frac) :=
    (hp.inUnits _ fun p hp => inv_pos.mpr (partPerMole_pos (hph _ (hmem p hp)) t)).pos
  cases t with
  | mole =>
    refine ⟨1, one_pos, ?_, fun _ => rfl, by simp⟩
    have : partPerMole (E := E) (K := K) .mole = fun _ => (1 : K) := rfl
    rw [this, toMoles_one]; rfl
  | mass =>
    obtain ⟨n, h1, h2⟩ := weightToMole_eq ps Part.molarmass frac hl
    have e : partPerMole (E := E) (K := K) .mass = Part.molarmass := rfl
    refine ⟨_, inv_pos.mpr hw, ?_, by simp, fun _ => ?_⟩
    · simp only [partMoles, h1, Option.map_some, h2, e]
    · rw [e]; exact total_toMoles_norm Part.molarmass _ hw.ne'
  | volume =>
    obtain ⟨n, h1, h2⟩ := volumeToMole_eq ps Part.density Part.molarmass frac hl
    have e : partPerMole (E := E) (K := K) .volume = fun p => p.molarmass / p.density := rfl
    refine ⟨_, inv_pos.mpr hw, ?_, by simp, fun _ => ?_⟩
    · simp only [partMoles, h1, Option.map_some, h2, e]
    · rw [e]; exact total_toMoles_norm (fun p : Part E K => p.molarmass / p.density) _ hw.ne'

/-! ## compounds -/

theorem Cmpd.fractions_eq (MM : E → K) (c : Cmpd E K) (t : Frac) (ht : t ≠ .volume) :
    c.fractions MM t = some (shares (perMole MM t) c.elements) := by
  cases t with
  | volume => exact absurd rfl ht
  | mole => simp only [Cmpd.fractions, Cmpd.molefractions, normalize_eq]; rfl
  | mass => simp only [Cmpd.fractions, Cmpd.massfractions, moleToWeight_eq]; rfl

/-- **C41.**  The mole and mass fractions of a compound are the shares of its elements in the total
number of moles and the total mass; they add up to one. -/
theorem compound_fractions (MM : E → K) (hM : ∀ e, 0 < MM e) (c : Cmpd E K) (hc : c.Valid) (t : Frac)
    (ht : t ≠ .volume) : ∃ f, c.fractions MM t = some f ∧ total f = 1 ∧
    IsTable id f (names id c.elements) (fun e => amount id c.elements e * perMole MM t e /
      total (inUnits (perMole MM t) c.elements)) := by
  refine ⟨_, Cmpd.fractions_eq MM c t ht, ?_, ?_⟩
  · exact total_shares _ _ (hc.proper.inUnits _ fun p _ => perMole_pos hM t p.1).pos.ne'
  · refine isTable_of id _ _ _ ?_ ?_ ?_
    · rw [names_shares]; exact hc.distinct
    · intro b; rw [names_shares]
    · intro b _
      rw [amount_shares, amount_map id _ _ b (perMole MM t b)]
      intro p _ e; rw [← e]; rfl

/-- **C41.**  A compound made from a list of elements with mole or mass fractions has these
fractions: repeated elements are merged with summed fractions, and the total is scaled to one.
Mole numbers are kept as given; from mass fractions the mole numbers add up to one. -/
theorem new_compound (MM rho : E → K) (hM : ∀ e, 0 < MM e) (name : String) (els : List E) (frac : List K)
    (t : Frac) (density : Option K) (ht : t ≠ .volume) (hl : els.length = frac.length)
    (hp : Proper (els.zip frac)) :
    ∃ c f, Cmpd.new MM rho name els frac t density = some c ∧ c.Valid ∧ c.name = name ∧
      (∀ d, density = some d → d ≠ 0 → c.density = d) ∧ c.fractions MM t = some f ∧
      IsTable id f els (fun e => amount id (els.zip frac) e / total (els.zip frac)) ∧
      (t = .mole → IsTable id c.elements els (amount id (els.zip frac))) ∧
      (t = .mass → total c.elements = 1) := by
  obtain ⟨k, hk, h1, h2, h3⟩ := elementMoles_eq MM hM els frac t ht hl hp
  have hn : names id (els.zip frac) = els := zip_fst els frac hl
  refine ⟨⟨name, compose id (toMoles (perMole MM t) k (els.zip frac)),
    newDensity rho (compose id (toMoles (perMole MM t) k (els.zip frac))) density⟩, _, ?_, ⟨compose_nodup _ _, ?_⟩, rfl,
    fun d e hd => by rw [e]; exact if_neg hd, Cmpd.fractions_eq MM _ t ht, ?_, ?_, ?_⟩
  · simp only [Cmpd.new, h1, Option.map_some]
  · exact (hp.toMoles _ k (fun p _ => perMole_pos hM t p.1) hk).compose id
  · have := shares_compose id (perMole MM t) k (els.zip frac) (fun p _ => (perMole_pos hM t p.1).ne') hk.ne'
      (respects_id _ _)
    rwa [hn] at this
  · intro e
    subst e
    have e1 : perMole MM .mole = fun _ => (1 : K) := rfl
    have := compose_table id (els.zip frac)
    rw [hn] at this
    simp only [h2 rfl, e1, toMoles_one]
    exact this
  · intro e
    show total (compose id _) = 1
    rw [total_compose]; exact h3 e

/-- **C41.**  Volume fractions are refused. -/
theorem compound_volume (MM rho : E → K) (name : String) (els : List E) (frac : List K) (density : Option K)
    (c : Cmpd E K) (d : Items E K) : Cmpd.new MM rho name els frac .volume density = none ∧
    c.addelements MM els frac .volume density = none ∧ c.changeFractions MM d .volume = none ∧
    c.fractions MM .volume = none := ⟨rfl, rfl, rfl, rfl⟩

theorem scaled_proper {α : Type} {old : Items α K} {els : List α} {f : List K} (ho : Proper old)
    (hf : ∀ p ∈ els.zip f, 0 ≤ p.2) (hl : els.length = f.length) (hF : f.sum ≤ 1) :
    Proper (inUnits (fun _ => 1 - f.sum) old ++ inUnits (fun _ => total old) (els.zip f)) ∧
    total (inUnits (fun _ => 1 - f.sum) old ++ inUnits (fun _ => total old) (els.zip f)) = total old := by
  have ht : total (inUnits (fun _ => 1 - f.sum) old ++ inUnits (fun _ => total old) (els.zip f)) = total old := by
    have : total (els.zip f) = f.sum := by rw [← total_vals, zip_snd els f hl]
    rw [total_append, total_scale, total_scale, this]; ring
  refine ⟨⟨?_, by rw [ht]; exact ho.pos⟩, ht⟩
  intro p hp
  rcases List.mem_append.mp hp with hp | hp
  · obtain ⟨q, hq, rfl⟩ := List.mem_map.mp hp
    exact mul_nonneg (ho.nonneg q hq) (by linarith)
  · obtain ⟨q, hq, rfl⟩ := List.mem_map.mp hp
    exact mul_nonneg (hf q hq) ho.pos.le

/-- the numbers that adding elements starts from: moles or mass fractions -/
def Cmpd.base (MM : E → K) (c : Cmpd E K) : Frac → Items E K
  | .mole => c.elements
  | _ => shares MM c.elements

theorem Cmpd.addelements_eq (MM : E → K) (c : Cmpd E K) (els : List E) (frac n : List K) (t : Frac)
    (density : Option K) (l : Items E K) (ht : t ≠ .volume) (h1 : addFrac (vals (c.base MM t)) frac = some n)
    (h2 : elementMoles MM (keys (c.base MM t) ++ els) n t = some l) :
    c.addelements MM els frac t density = some ⟨c.name, compose id l,
      changeDensity c.density density⟩ := by
  cases t with
  | volume => exact absurd rfl ht
  | mole =>
    simp only [elementMoles, Option.some.injEq, Cmpd.base] at h1 h2
    subst h2
    simp only [Cmpd.addelements, Cmpd.equivalents, h1, Option.map_some]
  | mass =>
    have hm : c.massfractions MM = shares MM c.elements := by
      simp only [Cmpd.massfractions, Cmpd.equivalents, moleToWeight_eq]
    simp only [elementMoles, Cmpd.base] at h1 h2
    cases hw : weightToMole n ((keys (shares MM c.elements) ++ els).map MM) with
    | none => simp only [hw, Option.map_none, reduceCtorEq] at h2
    | some n' =>
      simp only [hw, Option.map_some, Option.some.injEq] at h2
      subst h2
      simp only [Cmpd.addelements, hm, h1, hw, Option.map_some, bind, pure, Option.bind]

/-- **C41.**  Added elements get exactly the given fractions, on top of what is left of what was
there before; the rest is scaled evenly.  The total number of moles is kept when mole fractions are
added. -/
theorem add_elements (MM : E → K) (hM : ∀ e, 0 < MM e) (c : Cmpd E K) (hc : c.Valid) (els : List E) (frac : List K)
    (t : Frac) (density : Option K) (ht : t ≠ .volume) (hl : els.length = frac.length)
    (hn : ∀ p ∈ els.zip frac, 0 ≤ p.2) (hF : frac.sum ≤ 1) :
    ∃ c' old f, c.addelements MM els frac t density = some c' ∧ c'.Valid ∧ c'.name = c.name ∧
      (density = none → c'.density = c.density) ∧ (∀ d, density = some d → d ≠ 0 → c'.density = d) ∧
      c.fractions MM t = some old ∧ c'.fractions MM t = some f ∧
      IsTable id f (names id c.elements ++ els)
        (fun e => (1 - frac.sum) * amount id old e + amount id (els.zip frac) e) ∧
      (t = .mole → total c'.elements = total c.elements) ∧ (t = .mass → total c'.elements = 1) := by
  obtain ⟨base, hbd⟩ : ∃ b, b = c.base MM t := ⟨_, rfl⟩
  have hkeys : keys base = keys c.elements := by
    rw [hbd]; cases t <;> simp only [Cmpd.base, keys_shares]
  have hbase : Proper base := by
    rw [hbd]
    cases t with
    | mole => exact hc.proper
    | volume => exact absurd rfl ht
    | mass =>
      refine ⟨shares_nonneg MM _ hc.proper fun p _ => hM p.1, ?_⟩
      show 0 < total (shares MM c.elements)
      rw [total_shares _ _ (hc.proper.inUnits MM fun p _ => hM p.1).pos.ne']; exact one_pos
  obtain ⟨n, a1, a2, a3⟩ := addFrac_items base els frac hl hF
  obtain ⟨hp, htot⟩ := scaled_proper hbase hn hl hF
  rw [← a3] at hp htot
  obtain ⟨k, hk, m1, m2, m3⟩ := elementMoles_eq MM hM (keys base ++ els) n t ht a2 hp
  have hnames : names id ((keys base ++ els).zip n) = names id c.elements ++ els := by
    have := zip_fst (keys base ++ els) n a2
    rw [hkeys] at this ⊢
    exact this
  refine ⟨⟨c.name, compose id (toMoles (perMole MM t) k ((keys base ++ els).zip n)),
      changeDensity c.density density⟩,
    _, _, ?_, ⟨compose_nodup _ _, (hp.toMoles _ k (fun p _ => perMole_pos hM t p.1) hk).compose id⟩, rfl,
    fun e => by rw [e]; rfl, fun d e hd => by rw [e]; exact if_neg hd, Cmpd.fractions_eq MM c t ht, Cmpd.fractions_eq MM _ t ht, ?_, ?_, ?_⟩
  · rw [hbd] at a1 m1 ⊢
    exact Cmpd.addelements_eq MM c els frac n t density _ ht a1 m1
  · have := shares_compose id (perMole MM t) k ((keys base ++ els).zip n) (fun p _ => (perMole_pos hM t p.1).ne')
      hk.ne' (respects_id _ _)
    rw [hnames] at this
    refine isTable_of id _ _ _ this.distinct this.mem_names fun b hb => ?_
    rw [this.amount_eq hb, htot, a3, amount_append, amount_map id _ base b _ fun _ _ _ => rfl,
      amount_map id _ (els.zip frac) b _ fun _ _ _ => rfl, add_div, mul_div_cancel_right₀ _ hbase.pos.ne']
    congr 1
    rw [mul_comm, mul_div_assoc]
    congr 1
    rw [hbd]
    cases t with
    | volume => exact absurd rfl ht
    | mole =>
      show amount id c.elements b / total c.elements = _
      rw [amount_shares]
      have e1 : perMole MM .mole = fun _ => (1 : K) := rfl
      rw [e1, inUnits_one]
    | mass =>
      show amount id (shares MM c.elements) b / total (shares MM c.elements) = _
      rw [total_shares _ _ (hc.proper.inUnits MM fun p _ => hM p.1).pos.ne', div_one]; rfl
  · intro e
    subst e
    show total (compose id _) = _
    have e1 : perMole MM .mole = fun _ => (1 : K) := rfl
    rw [total_compose, m2 rfl, e1, toMoles_one, htot, hbd]; rfl
  · intro e
    show total (compose id _) = 1
    rw [total_compose]; exact m3 e

/-- **C41.**  More than everything is refused. -/
theorem add_elements_refuses (MM : E → K) (c : Cmpd E K) (els : List E) (frac : List K) (t : Frac)
    (density : Option K) (hF : 1 < frac.sum) : c.addelements MM els frac t density = none := by
  have : ∀ x : List K, addFrac x frac = none := fun x => by simp [addFrac, hF]
  cases t <;> simp [Cmpd.addelements, this]

/-- **C41.**  Changing the fractions of a compound gives it these fractions. -/
theorem change_compound (MM : E → K) (hM : ∀ e, 0 < MM e) (c : Cmpd E K) (d : Items E K) (t : Frac)
    (ht : t ≠ .volume) (hp : Proper d) :
    ∃ c' f, c.changeFractions MM d t = some c' ∧ c'.Valid ∧ c'.name = c.name ∧ c'.density = c.density ∧
      c'.fractions MM t = some f ∧ IsTable id f (names id d) (fun e => amount id d e / total d) := by
  have hz : (keys d).zip (vals d) = d := zip_keys_vals d
  obtain ⟨k, hk, h1, h2, h3⟩ := elementMoles_eq MM hM (keys d) (vals d) t ht (by simp [keys, vals]) (by rwa [hz])
  rw [hz] at h1
  refine ⟨⟨c.name, compose id (toMoles (perMole MM t) k d), c.density⟩, _, ?_, ⟨compose_nodup _ _, ?_⟩, rfl, rfl,
    Cmpd.fractions_eq MM _ t ht, ?_⟩
  · simp only [Cmpd.changeFractions, h1, Option.map_some]
  · exact (hp.toMoles _ k (fun p _ => perMole_pos hM t p.1) hk).compose id
  · exact shares_compose id (perMole MM t) k d (fun p _ => (perMole_pos hM t p.1).ne') hk.ne' (respects_id _ _)

/-! ## mixtures -/

theorem Mixt.fractions_eq (m : Mixt E K) (t : Frac) : m.fractions t = shares (partPerMole t) m.parts := by
  cases t with
  | mole => simp only [Mixt.fractions, Mixt.molefractions, normalize_eq]; rfl
  | mass => simp only [Mixt.fractions, Mixt.massfractions, moleToWeight_eq]; rfl
  | volume => simp only [Mixt.fractions, Mixt.volumefractions, moleToVolume_eq]; rfl

theorem Mixt.Valid.perMole_pos {m : Mixt E K} (h : m.Valid) (t : Frac) : ∀ p ∈ m.parts, 0 < partPerMole t p.1 :=
  fun p hp => partPerMole_pos (h.physical p.1 (List.mem_map.mpr ⟨p, hp, rfl⟩)) t

/-- **C41.**  The fractions of a mixture are the shares of its parts in the total number of moles,
total mass and total volume; they add up to one. -/
theorem mixture_fractions (m : Mixt E K) (hm : m.Valid) (t : Frac) : total (m.fractions t) = 1 ∧
    (names Part.name (m.fractions t)).Nodup ∧
    ∀ p n, (p, n) ∈ m.parts → item Part.name (m.fractions t) p.name = some (n * partPerMole t p /
      total (inUnits (partPerMole t) m.parts)) := by
  rw [Mixt.fractions_eq]
  refine ⟨total_shares _ _ (hm.proper.inUnits _ (hm.perMole_pos t)).pos.ne', by rw [names_shares]; exact hm.distinct, ?_⟩
  have key : ∀ (l : Items (Part E K) K) (g : Part E K → K), (names Part.name l).Nodup → ∀ p n, (p, n) ∈ l →
      item Part.name (l.map fun q => (q.1, g q.1 * q.2)) p.name = some (g p * n) := by
    intro l g
    induction l with
    | nil => intro _ p n h; simp at h
    | cons q l ih =>
      obtain ⟨a, x⟩ := q
      intro hnd p n h
      rw [names_cons, List.nodup_cons] at hnd
      rw [List.map_cons, item_cons]
      rcases List.mem_cons.mp h with e | h
      · cases e; simp
      · rw [if_neg, ih hnd.2 p n h]
        intro e
        exact hnd.1 (by rw [e]; exact List.mem_map.mpr ⟨(p, n), h, rfl⟩)
  intro p n hpn
  have := key m.parts (fun q => partPerMole t q / wsum (partPerMole t) m.parts) hm.distinct p n hpn
  have e : shares (partPerMole t) m.parts
      = m.parts.map fun q => (q.1, partPerMole t q.1 / wsum (partPerMole t) m.parts * q.2) := by
    refine List.map_congr_left fun q _ => ?_
    rw [mul_div_assoc, mul_comm]
  rw [e, this, mul_comm, ← mul_div_assoc]; rfl

theorem keys_compose_toMoles (l : Items (Part E K) K) (g : Part E K → K) (k : K) :
    ∀ p ∈ keys (compose Part.name (toMoles g k l)), p ∈ keys l := by
  intro p hp
  have := keys_compose Part.name _ p hp
  rwa [keys_toMoles] at this

/-- A mixture from amounts. -/
theorem mixture_of (name : String) (l : Items (Part E K) K) (t : Frac) (hp : Proper l)
    (hph : ∀ p ∈ keys l, 0 < p.molarmass ∧ 0 < p.density) (hs : SameParts (keys l)) (k : K) (hk : 0 < k) :
    let m : Mixt E K := ⟨name, compose Part.name (toMoles (partPerMole t) k l)⟩
    m.Valid ∧ IsTable Part.name (m.fractions t) (names Part.name l) (fun b => amount Part.name l b / total l) := by
  have hg : ∀ p ∈ l, 0 < partPerMole t p.1 := fun p h => partPerMole_pos (hph p.1 (List.mem_map.mpr ⟨p, h, rfl⟩)) t
  refine ⟨⟨compose_nodup _ _, (hp.toMoles _ k hg hk).compose _, ?_⟩, ?_⟩
  · intro p h; exact hph p (keys_compose_toMoles l _ k p h)
  · rw [Mixt.fractions_eq]
    exact shares_compose Part.name (partPerMole t) k l (fun p h => (hg p h).ne') hk.ne' (hs.respects _)

/-- **C41.**  A mixture made from a list of parts with mole, mass or volume fractions has these
fractions: parts with the same name are merged with summed fractions, and the total is scaled to
one. -/
theorem new_mixture (name : String) (ps : List (Part E K)) (frac : List K) (t : Frac)
    (hl : ps.length = frac.length) (hp : Proper (ps.zip frac))
    (hph : ∀ p ∈ ps, 0 < p.molarmass ∧ 0 < p.density) (hs : SameParts ps) :
    ∃ m, Mixt.new name ps frac t = some m ∧ m.Valid ∧ m.name = name ∧
      IsTable Part.name (m.fractions t) (ps.map Part.name)
        (fun b => amount Part.name (ps.zip frac) b / total (ps.zip frac)) ∧
      (t = .mole → IsTable Part.name m.parts (ps.map Part.name) (amount Part.name (ps.zip frac))) ∧
      (t ≠ .mole → total m.parts = 1) := by
  obtain ⟨k, hk, h1, h2, h3⟩ := partMoles_eq ps frac t hl hp hph
  have hkeys : keys (ps.zip frac) = ps := zip_fst ps frac hl
  have hn : names Part.name (ps.zip frac) = ps.map Part.name := by
    rw [← congrArg (List.map Part.name) hkeys]; simp [names, keys]
  obtain ⟨hv, ht⟩ := mixture_of name (ps.zip frac) t hp (by rwa [hkeys]) (by rwa [hkeys]) k hk
  refine ⟨_, ?_, hv, rfl, by rwa [hn] at ht, ?_, ?_⟩
  · simp only [Mixt.new, h1, Option.map_some]
  · intro e
    subst e
    have e1 : partPerMole (E := E) (K := K) .mole = fun _ => (1 : K) := rfl
    have := compose_table Part.name (ps.zip frac)
    rw [hn] at this
    simp only [h2 rfl, e1, toMoles_one]
    exact this
  · intro e
    show total (compose Part.name _) = 1
    rw [total_compose]; exact h3 e

/-- the numbers that adding parts starts from: moles or fractions -/
def Mixt.base (m : Mixt E K) : Frac → Items (Part E K) K
  | .mole => m.parts
  | t => shares (partPerMole t) m.parts

theorem Mixt.addcompounds_eq (m : Mixt E K) (ps : List (Part E K)) (frac n : List K) (t : Frac)
    (l : Items (Part E K) K) (h1 : addFrac (vals (m.base t)) frac = some n)
    (h2 : partMoles (keys (m.base t) ++ ps) n t = some l) :
    m.addcompounds ps frac t = some ⟨m.name, compose Part.name l⟩ := by
  cases t with
  | mole =>
    simp only [Mixt.base] at h1 h2
    simp only [Mixt.addcompounds, Mixt.equivalents, h1, h2, bind, Option.bind, pure]
  | mass =>
    have e : m.massfractions = shares (partPerMole .mass) m.parts := Mixt.fractions_eq m .mass
    simp only [Mixt.base] at h1 h2
    simp only [Mixt.addcompounds, e, h1, h2, bind, Option.bind, pure]
  | volume =>
    have e : m.volumefractions = shares (partPerMole .volume) m.parts := Mixt.fractions_eq m .volume
    simp only [Mixt.base] at h1 h2
    simp only [Mixt.addcompounds, e, h1, h2, bind, Option.bind, pure]

/-- **C41.**  Added parts get exactly the given fractions on top of what is left of what was there
before; the rest is scaled evenly. -/
theorem add_compounds (m : Mixt E K) (hm : m.Valid) (ps : List (Part E K)) (frac : List K) (t : Frac)
    (hl : ps.length = frac.length) (hn : ∀ p ∈ ps.zip frac, 0 ≤ p.2) (hF : frac.sum ≤ 1)
    (hph : ∀ p ∈ ps, 0 < p.molarmass ∧ 0 < p.density) (hs : SameParts (keys m.parts ++ ps)) :
    ∃ m', m.addcompounds ps frac t = some m' ∧ m'.Valid ∧ m'.name = m.name ∧
      IsTable Part.name (m'.fractions t) (names Part.name m.parts ++ ps.map Part.name)
        (fun b => (1 - frac.sum) * amount Part.name (m.fractions t) b + amount Part.name (ps.zip frac) b) ∧
      (t = .mole → total m'.parts = total m.parts) ∧ (t ≠ .mole → total m'.parts = 1) := by
  obtain ⟨base, hbd⟩ : ∃ b, b = m.base t := ⟨_, rfl⟩
  have hkeys : keys base = keys m.parts := by rw [hbd]; cases t <;> simp only [Mixt.base, keys_shares]
  have hpp := hm.perMole_pos t
  have hone : total (shares (partPerMole t) m.parts) = 1 :=
    total_shares _ _ (hm.proper.inUnits _ hpp).pos.ne'
  have hsh : Proper (shares (partPerMole t) m.parts) :=
    ⟨shares_nonneg _ _ hm.proper hpp, by rw [hone]; exact one_pos⟩
  have hbase : Proper base := by
    rw [hbd]
    cases t with
    | mole => exact hm.proper
    | volume => exact hsh
    | mass => exact hsh
  obtain ⟨n, a1, a2, a3⟩ := addFrac_items base ps frac hl hF
  obtain ⟨hp, htot⟩ := scaled_proper hbase hn hl hF
  rw [← a3] at hp htot
  have hk2 : keys ((keys base ++ ps).zip n) = keys m.parts ++ ps := by rw [zip_fst _ _ a2, hkeys]
  have hphys : ∀ p ∈ keys m.parts ++ ps, 0 < p.molarmass ∧ 0 < p.density := by
    intro p hp
    rcases List.mem_append.mp hp with h | h
    · exact hm.physical p h
    · exact hph p h
  obtain ⟨k, hk, m1, m2, m3⟩ := partMoles_eq (keys base ++ ps) n t a2 hp (by rwa [hkeys])
  obtain ⟨hv, htab⟩ := mixture_of m.name ((keys base ++ ps).zip n) t hp (by rwa [hk2]) (by rwa [hk2]) k hk
  have hnames : names Part.name ((keys base ++ ps).zip n) = names Part.name m.parts ++ ps.map Part.name := by
    have : names Part.name ((keys base ++ ps).zip n) = (keys ((keys base ++ ps).zip n)).map Part.name := by
      simp [names, keys]
    rw [this, hk2]; simp [names, keys]
  refine ⟨_, ?_, hv, rfl, ?_, ?_, ?_⟩
  · rw [hbd] at a1 m1 ⊢
    exact Mixt.addcompounds_eq m ps frac n t _ a1 m1
  · rw [hnames] at htab
    refine isTable_of Part.name _ _ _ htab.distinct htab.mem_names fun b hb => ?_
    rw [htab.amount_eq hb, htot, a3, amount_append, amount_map Part.name _ base b _ fun _ _ _ => rfl,
      amount_map Part.name _ (ps.zip frac) b _ fun _ _ _ => rfl, add_div, mul_div_cancel_right₀ _ hbase.pos.ne']
    congr 1
    rw [mul_comm, mul_div_assoc]
    congr 1
    rw [Mixt.fractions_eq, hbd]
    cases t with
    | mole =>
      show amount Part.name m.parts b / total m.parts = _
      rw [amount_shares]
      have e1 : partPerMole (E := E) (K := K) .mole = fun _ => (1 : K) := rfl
      rw [e1, inUnits_one]
    | mass =>
      show amount Part.name (shares _ m.parts) b / total (shares _ m.parts) = _
      rw [hone, div_one]
    | volume =>
      show amount Part.name (shares _ m.parts) b / total (shares _ m.parts) = _
      rw [hone, div_one]
  · intro e
    subst e
    show total (compose Part.name _) = _
    have e1 : partPerMole (E := E) (K := K) .mole = fun _ => (1 : K) := rfl
    rw [total_compose, m2 rfl, e1, toMoles_one, htot, hbd]; rfl
  · intro e
    show total (compose Part.name _) = 1
    rw [total_compose]; exact m3 e

/-- **C41.**  More than everything is refused. -/
theorem add_compounds_refuses (m : Mixt E K) (ps : List (Part E K)) (frac : List K) (t : Frac)
    (hF : 1 < frac.sum) : m.addcompounds ps frac t = none := by
  have : ∀ x : List K, addFrac x frac = none := fun x => by simp [addFrac, hF]
  cases t <;> simp [Mixt.addcompounds, this]

/-- **C41.**  Changing the fractions of a mixture gives it these fractions. -/
theorem change_mixture (m : Mixt E K) (d : Items (Part E K) K) (t : Frac) (hp : Proper d)
    (hph : ∀ p ∈ keys d, 0 < p.molarmass ∧ 0 < p.density) (hs : SameParts (keys d)) :
    ∃ m', m.changeFractions d t = some m' ∧ m'.Valid ∧ m'.name = m.name ∧
      IsTable Part.name (m'.fractions t) (names Part.name d) (fun b => amount Part.name d b / total d) := by
  have hz : (keys d).zip (vals d) = d := zip_keys_vals d
  obtain ⟨k, hk, h1, _, _⟩ := partMoles_eq (keys d) (vals d) t (by simp [keys, vals]) (by rwa [hz]) hph
  rw [hz] at h1
  obtain ⟨hv, ht⟩ := mixture_of m.name d t hp hph hs k hk
  exact ⟨_, by simp only [Mixt.changeFractions, h1, Option.map_some], hv, rfl, ht⟩

end SC.Compound
