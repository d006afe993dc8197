import Verif.Multilayer.SampleLemmas
import Verif.Compound.Elemental
/-! # C59: composition of a multilayer -/
namespace SC.Multilayer
open SC.Compound

variable {E : Type} [DecidableEq E]

theorem counterUpdate_eq (d c : Items E ℝ) (hc : (names id c).Nodup) : counterUpdate d c = addAll id d c := by
  unfold counterUpdate
  split
  · rename_i h
    rw [List.isEmpty_iff] at h
    subst h
    have key : ∀ (c d : Items E ℝ), (names id (d ++ c)).Nodup → addAll id d c = d ++ c := by
      intro c
      induction c with
      | nil => intro d _; simp [addAll]
      | cons p c ih =>
        intro d hd
        obtain ⟨a, n⟩ := p
        have hadd : ∀ d : Items E ℝ, a ∉ names id d → addTo id d a n = d ++ [(a, n)] := by
          intro d
          induction d with
          | nil => intro _; rfl
          | cons q d ihd =>
            intro hq
            obtain ⟨b, m⟩ := q
            rw [names_cons, List.mem_cons, not_or] at hq
            unfold addTo
            rw [if_neg fun h => hq.1 (by simpa using h.symm), ihd hq.2]
            rfl
        have hna : a ∉ names id d := by
          intro h
          simp only [names, List.map_append, List.map_cons] at hd
          have := List.nodup_append.1 hd
          exact this.2.2 a (by simpa [names] using h) a (by simp) rfl
        have : addAll id d ((a, n) :: c) = addAll id (addTo id d a n) c := rfl
        rw [this, hadd d hna, ih (d ++ [(a, n)]) (by rwa [List.append_assoc]), List.append_assoc]
        rfl
    exact (key c [] (by simpa using hc)).symm
  · rfl

theorem names_areal (l : Lyr E) : names id l.areal = names id l.mat.mass := by
  simp [names, Lyr.areal]

theorem areal_eq (ls : List (Lyr E)) (h : ∀ l ∈ ls, (names id l.mat.mass).Nodup) :
    areal ls = compose id (ls.flatMap Lyr.areal) := by
  unfold areal
  rw [compose_eq]
  generalize ([] : Items E ℝ) = d
  induction ls generalizing d with
  | nil => rfl
  | cons l ls ih =>
    rw [List.foldl_cons, counterUpdate_eq _ _ (by rw [names_areal]; exact h l List.mem_cons_self),
      ih fun x hx => h x (List.mem_cons_of_mem _ hx), List.flatMap_cons]
    simp only [addAll, List.foldl_append]

theorem amount_areal (ls : List (Lyr E)) (e : E) : amount id (ls.flatMap Lyr.areal) e = massOf ls e := by
  induction ls with
  | nil => rfl
  | cons l ls ih =>
    rw [List.flatMap_cons, amount_append, ih]
    have : l.areal = inUnits (fun _ => l.density * l.t) l.mat.mass := rfl
    rw [this, amount_map id _ _ e (l.density * l.t) fun _ _ _ => rfl]
    simp only [massOf, List.map_cons, List.sum_cons]
    ring

theorem mem_areal (ls : List (Lyr E)) (e : E) :
    e ∈ names id (ls.flatMap Lyr.areal) ↔ ∃ l ∈ ls, e ∈ names id l.mat.mass := by
  induction ls with
  | nil => simp [names]
  | cons l ls ih =>
    rw [List.flatMap_cons]
    have : names id (l.areal ++ ls.flatMap Lyr.areal) = names id l.mat.mass ++ names id (ls.flatMap Lyr.areal) := by
      rw [← names_areal]; simp [names]
    rw [this, List.mem_append, ih]
    simp

/-- C59: the areal density of every element is the sum over the layers of density, thickness and mass fraction, and
there is an entry for the elements of the layers only. -/
theorem areal_density (ls : List (Lyr E)) (h : ∀ l ∈ ls, (names id l.mat.mass).Nodup) (e : E) :
    (names id (areal ls)).Nodup ∧
    item id (areal ls) e = if ∃ l ∈ ls, e ∈ names id l.mat.mass then some (massOf ls e) else none := by
  classical
  rw [areal_eq ls h]
  have t := compose_table id (ls.flatMap Lyr.areal)
  refine ⟨t.distinct, ?_⟩
  by_cases hm : ∃ l ∈ ls, e ∈ names id l.mat.mass
  · rw [if_pos hm, t.known e ((mem_areal ls e).2 hm), amount_areal]
  · rw [if_neg hm, t.unknown e fun hc => hm ((mem_areal ls e).1 hc)]

theorem total_areal (ls : List (Lyr E)) (h : ∀ l ∈ ls, Normal l.mat) :
    (vals (areal ls)).sum = (ls.map fun l => l.density * l.t).sum := by
  rw [areal_eq ls fun l hl => (h l hl).1, total_vals, total_compose]
  induction ls with
  | nil => rfl
  | cons l ls ih =>
    rw [List.flatMap_cons, total_append, ih fun x hx => h x (List.mem_cons_of_mem _ hx)]
    have : l.areal = inUnits (fun _ => l.density * l.t) l.mat.mass := rfl
    rw [this, total_scale, (h l List.mem_cons_self).2]
    simp

/-- C59: the mass fractions of a multilayer are the shares of the elements in its mass, and add up to one. -/
theorem layer_massfractions (ls : List (Lyr E)) (h : ∀ l ∈ ls, Normal l.mat)
    (hm : (ls.map fun l => l.density * l.t).sum ≠ 0) :
    total (massfractions ls) = 1 ∧ ∀ e, item id (massfractions ls) e =
      if ∃ l ∈ ls, e ∈ names id l.mat.mass then some (massOf ls e / (ls.map fun l => l.density * l.t).sum) else none := by
  classical
  have ht := total_areal ls h
  constructor
  · unfold massfractions
    have : ∀ (d : Items E ℝ) (s : ℝ), total (d.map fun p => (p.1, p.2 / s)) = total d / s := by
      intro d s
      induction d with
      | nil => simp [total]
      | cons p d ih => obtain ⟨a, n⟩ := p; rw [List.map_cons, total_cons, ih, total_cons]; ring
    rw [this, ht, ← total_vals, ht, div_self hm]
  · intro e
    have hi := (areal_density ls (fun l hl => (h l hl).1) e).2
    have : item id (massfractions ls) e = (item id (areal ls) e).map (· / (vals (areal ls)).sum) := by
      unfold massfractions item
      rw [List.find?_map, Option.map_map, Option.map_map]
      rfl
    rw [this, hi, ht]
    split <;> rfl

theorem massOf_wsum (ls : List (Lyr E)) (hown : ∀ l ∈ ls, l.own = none) (e : E) (c : ℝ) :
    wsum (fun p : Part E ℝ => p.density * amount id p.mass e) ((ls.map (·.mat)).zip (ls.map fun l => l.t / c)) =
      massOf ls e / c := by
  induction ls with
  | nil => simp [massOf, wsum, inUnits, total]
  | cons l ls ih =>
    rw [List.map_cons, List.map_cons, List.zip_cons_cons, wsum_cons, ih fun x hx => hown x (List.mem_cons_of_mem _ hx)]
    simp only [massOf, List.map_cons, List.sum_cons, Lyr.density, hown l List.mem_cons_self, Option.getD_none]
    ring

theorem mass_wsum (ls : List (Lyr E)) (hown : ∀ l ∈ ls, l.own = none) (c : ℝ) :
    wsum (fun p : Part E ℝ => p.density) ((ls.map (·.mat)).zip (ls.map fun l => l.t / c)) =
      (ls.map fun l => l.density * l.t).sum / c := by
  induction ls with
  | nil => simp [wsum, inUnits, total]
  | cons l ls ih =>
    rw [List.map_cons, List.map_cons, List.zip_cons_cons, wsum_cons, ih fun x hx => hown x (List.mem_cons_of_mem _ hx)]
    simp only [List.map_cons, List.sum_cons, Lyr.density, hown l List.mem_cons_self, Option.getD_none]
    ring

theorem wsum_toMoles_mul (g f : Part E ℝ → ℝ) (k : ℝ) (l : Items (Part E ℝ) ℝ) :
    wsum f (toMoles g k l) = wsum (fun p => f p / g p) l * k := by
  rw [toMoles_eq]
  induction l with
  | nil => simp [wsum, inUnits, total]
  | cons p l ih =>
    obtain ⟨a, n⟩ := p
    have : inUnits (fun a => (g a)⁻¹ * k) ((a, n) :: l) = (a, n * ((g a)⁻¹ * k)) :: inUnits (fun a => (g a)⁻¹ * k) l := rfl
    rw [this, wsum_cons, ih, wsum_cons]
    ring

/-- C59: mixing the layers gives a material with the mass fractions of the multilayer, when layers with the same name are
the same material and no density was refined. -/
theorem mix_massfractions (name : String) (ls : List (Lyr E)) (hne : ls ≠ []) (h : ∀ l ∈ ls, Normal l.mat)
    (hown : ∀ l ∈ ls, l.own = none) (hsame : SameParts (ls.map (·.mat)))
    (hpos : ∀ l ∈ ls, 0 < l.mat.molarmass ∧ 0 < l.mat.density ∧ 0 < l.t) :
    ∃ d, mixMass name ls = some d ∧ ∀ e, item id d e = item id (massfractions ls) e := by
  classical
  have hmass : 0 < (ls.map fun l => l.density * l.t).sum := by
    refine List.sum_pos _ (fun x hx => ?_) (by simpa using hne)
    obtain ⟨l, hl, rfl⟩ := List.mem_map.1 hx
    have := hpos l hl
    simp only [Lyr.density, hown l hl, Option.getD_none]
    exact mul_pos this.2.1 this.2.2
  have hT : 0 < (ls.map (·.t)).sum := by
    refine List.sum_pos _ (fun x hx => ?_) (by simpa using hne)
    obtain ⟨l, hl, rfl⟩ := List.mem_map.1 hx
    exact (hpos l hl).2.2
  have hf := (layer_massfractions ls h hmass.ne').2
  by_cases hone : ∃ l, ls = [l]
  · obtain ⟨l, rfl⟩ := hone
    refine ⟨l.mat.mass, rfl, fun e => ?_⟩
    rw [hf e]
    have hn := (h l List.mem_cons_self).1
    simp only [List.map_cons, List.map_nil, List.sum_cons, List.sum_nil, add_zero] at hmass
    rw [item_nodup id _ hn]
    simp only [List.mem_singleton, exists_eq_left, massOf, List.map_cons, List.map_nil, List.sum_cons, List.sum_nil, add_zero]
    split
    · rw [mul_div_cancel_left₀ _ hmass.ne']
    · rfl
  · have hmany : mixMass name ls = (Mixt.new name (ls.map (·.mat)) (ls.map fun l => l.t / (ls.map (·.t)).sum) .volume).map
        Mixt.elementalMass := by
      match ls, hne, hone with
      | [l], _, ho => exact absurd ⟨l, rfl⟩ ho
      | a :: b :: ls', _, _ => rfl
    set T := (ls.map (·.t)).sum with hTd
    set l := (ls.map (·.mat)).zip (ls.map fun l => l.t / T) with hl
    have hlen : (ls.map (·.mat)).length = (ls.map fun l => l.t / T).length := by simp
    have hk : keys l = ls.map (·.mat) := zip_fst _ _ hlen
    have hv : vals l = ls.map fun l => l.t / T := zip_snd _ _ hlen
    have hprop : Proper l := by
      constructor
      · intro p hp
        have : p.2 ∈ vals l := List.mem_map.2 ⟨p, hp, rfl⟩
        rw [hv] at this
        obtain ⟨x, hx, he⟩ := List.mem_map.1 this
        rw [← he]; exact (div_pos (hpos x hx).2.2 hT).le
      · rw [← total_vals, hv]
        refine List.sum_pos _ (fun x hx => ?_) (by simpa using hne)
        obtain ⟨y, hy, rfl⟩ := List.mem_map.1 hx
        exact div_pos (hpos y hy).2.2 hT
    obtain ⟨k, hk0, he, -, -⟩ := partMoles_eq (ls.map (·.mat)) (ls.map fun l => l.t / T) .volume hlen hprop (by
      intro p hp
      obtain ⟨x, hx, rfl⟩ := List.mem_map.1 hp
      exact ⟨(hpos x hx).1, (hpos x hx).2.1⟩)
    have hmix : mixMass name ls = some (Mixt.elementalMass ⟨name, compose Part.name (toMoles (partPerMole .volume) k l)⟩) := by
      rw [hmany, Mixt.new, he]
      rfl
    refine ⟨_, hmix, fun e => ?_⟩
    rw [hf e]
    unfold Mixt.elementalMass Mixt.massfractions Mixt.equivalents
    rw [combine_eq, moleToWeight_eq]
    set parts := compose Part.name (toMoles (partPerMole .volume) k l) with hparts
    have hresp : ∀ g : Part E ℝ → ℝ, Respects Part.name g (toMoles (partPerMole .volume) k l) := fun g =>
      SameParts.respects (by rw [keys_toMoles, hk]; exact hsame) g
    have hw : ∀ g : Part E ℝ → ℝ, wsum g parts = wsum (fun p => g p / partPerMole .volume p) l * k := fun g => by
      rw [hparts, wsum_compose _ _ _ (hresp g), wsum_toMoles_mul]
    have hkl : ∀ p ∈ keys l, 0 < p.molarmass ∧ 0 < p.density := by
      intro p hp
      rw [hk] at hp
      obtain ⟨x, hx, rfl⟩ := List.mem_map.1 hp
      exact ⟨(hpos x hx).1, (hpos x hx).2.1⟩
    have hMM : wsum Part.molarmass parts = (ls.map fun l => l.density * l.t).sum / T * k := by
      rw [hw, wsum_congr (g := fun p : Part E ℝ => p.density), mass_wsum ls hown]
      intro p hp
      have := hkl p hp
      have h1 := this.1.ne'
      have h2 := this.2.ne'
      simp only [partPerMole]
      field_simp
    have hME : wsum (fun p : Part E ℝ => p.molarmass * amount id p.mass e) parts = massOf ls e / T * k := by
      rw [hw, wsum_congr (g := fun p : Part E ℝ => p.density * amount id p.mass e), massOf_wsum ls hown]
      intro p hp
      have := hkl p hp
      have h1 := this.1.ne'
      have h2 := this.2.ne'
      simp only [partPerMole]
      field_simp
    have ht := compose_table id (spread (shares Part.molarmass parts) Part.mass)
    have hnames : e ∈ names id (spread (shares Part.molarmass parts) Part.mass) ↔ ∃ l ∈ ls, e ∈ names id l.mat.mass := by
      rw [mem_names_spread, keys_shares]
      constructor
      · rintro ⟨p, hp, he⟩
        have := keys_compose _ _ p hp
        rw [keys_toMoles, hk] at this
        obtain ⟨x, hx, rfl⟩ := List.mem_map.1 this
        exact ⟨x, hx, he⟩
      · rintro ⟨x, hx, he⟩
        have hx' : x.mat ∈ ls.map (·.mat) := List.mem_map.2 ⟨x, hx, rfl⟩
        have hnm : x.mat.name ∈ names Part.name parts := by
          rw [hparts, compose_names, names_toMoles]
          have : names Part.name l = (keys l).map Part.name := by simp [names, keys]
          rw [this, hk]
          exact List.mem_map.2 ⟨_, hx', rfl⟩
        have : names Part.name parts = (keys parts).map Part.name := by simp [names, keys]
        rw [this] at hnm
        obtain ⟨q, hq, hqn⟩ := List.mem_map.1 hnm
        have hq' := keys_compose _ _ q hq
        rw [keys_toMoles, hk] at hq'
        have := hsame q hq' x.mat hx' hqn
        exact ⟨q, hq, by rw [this]; exact he⟩
    by_cases hm : ∃ l ∈ ls, e ∈ names id l.mat.mass
    · rw [if_pos hm, ht.known e (hnames.2 hm), amount_spread, wsum_shares, hMM, hME]
      congr 1
      have h1 := hT.ne'
      have h2 := hk0.ne'
      have h3 := hmass.ne'
      field_simp
    · rw [if_neg hm, ht.unknown e fun hc => hm (hnames.1 hc)]

/-- C59 (deviation): a density that was refined counts for the mass fractions of the multilayer, not for those of
its mixture. -/
theorem mix_ignores_density (name : String) (ls ls' : List (Lyr E)) (hm : ls.map (·.mat) = ls'.map (·.mat))
    (ht : ls.map (·.t) = ls'.map (·.t)) : mixMass name ls = mixMass name ls' := by
  have hlen : ls.length = ls'.length := by simpa using congrArg List.length hm
  match ls, ls', hlen with
  | [], [], _ => rfl
  | [a], [b], _ => simp only [List.map_cons, List.map_nil, List.cons.injEq, and_true] at hm; simp [mixMass, hm]
  | a :: b :: l, a' :: b' :: l', _ =>
    simp only [mixMass]
    rw [← hm, ← ht]
    congr 2
    have key : ∀ (s : ℝ) (l : List (Lyr E)), (l.map fun x => x.t / s) = (l.map (·.t)).map (· / s) := by
      intro s l; simp
    rw [key, key, ht]

/-! ## Cases -/

/-- Two layers of pure materials. -/
def leaf (name : String) (e : Bool) (rho : ℝ) : Part Bool ℝ := ⟨name, 2, rho, [(e, 1)], [(e, 1)], [(e, 1)]⟩
def demoLayers : List (Lyr Bool) := [⟨leaf "a" true 2, 3, none⟩, ⟨leaf "b" false 1, 2, none⟩]

theorem demo_areal : areal demoLayers = [(true, 6), (false, 2)] := by
  norm_num [areal, demoLayers, leaf, counterUpdate, Lyr.areal, Lyr.density, addTo]

/-- Six parts of eight are the first element. -/
example : item id (massfractions demoLayers) true = some (3 / 4) := by
  norm_num [massfractions, demo_areal, vals, item]

example : ∃ d, mixMass "mix" demoLayers = some d ∧ item id d true = some (3 / 4) := by
  obtain ⟨d, h, he⟩ := mix_massfractions "mix" demoLayers (by simp [demoLayers])
    (by intro l hl; simp only [demoLayers, List.mem_cons, List.not_mem_nil, or_false] at hl
        rcases hl with rfl | rfl <;> simp [Normal, leaf, names, total])
    (by intro l hl; simp only [demoLayers, List.mem_cons, List.not_mem_nil, or_false] at hl
        rcases hl with rfl | rfl <;> rfl)
    (by intro p hp q hq; simp only [demoLayers, List.map_cons, List.map_nil, List.mem_cons, List.not_mem_nil, or_false] at hp hq
        rcases hp with rfl | rfl <;> rcases hq with rfl | rfl <;> simp [leaf])
    (by intro l hl; simp only [demoLayers, List.mem_cons, List.not_mem_nil, or_false] at hl
        rcases hl with rfl | rfl <;> norm_num [leaf])
  exact ⟨d, h, by rw [he]; norm_num [massfractions, demo_areal, vals, item]⟩

/-- C59 (deviation): after refining the density of the first layer to 4, its element is six seventh of the mass, but
three quarters of that of the mixture. -/
theorem mix_refined_wrong : ∃ ls : List (Lyr Bool), item id (massfractions ls) true = some (6 / 7) ∧
    ∃ d, mixMass "mix" ls = some d ∧ item id d true = some (3 / 4) := by
  refine ⟨[⟨leaf "a" true 2, 3, some 4⟩, ⟨leaf "b" false 1, 2, none⟩], ?_, ?_⟩
  · norm_num [massfractions, areal, leaf, counterUpdate, Lyr.areal, Lyr.density, addTo, vals, item]
  · rw [mix_ignores_density "mix" _ demoLayers (by simp [demoLayers]) (by simp [demoLayers])]
    obtain ⟨d, h, he⟩ := mix_massfractions "mix" demoLayers (by simp [demoLayers])
      (by intro l hl; simp only [demoLayers, List.mem_cons, List.not_mem_nil, or_false] at hl
          rcases hl with rfl | rfl <;> simp [Normal, leaf, names, total])
      (by intro l hl; simp only [demoLayers, List.mem_cons, List.not_mem_nil, or_false] at hl
          rcases hl with rfl | rfl <;> rfl)
      (by intro p hp q hq; simp only [demoLayers, List.map_cons, List.map_nil, List.mem_cons, List.not_mem_nil, or_false] at hp hq
          rcases hp with rfl | rfl <;> rcases hq with rfl | rfl <;> simp [leaf])
      (by intro l hl; simp only [demoLayers, List.mem_cons, List.not_mem_nil, or_false] at hl
          rcases hl with rfl | rfl <;> norm_num [leaf])
    exact ⟨d, h, by rw [he]; norm_num [massfractions, demo_areal, vals, item]⟩

end SC.Multilayer
