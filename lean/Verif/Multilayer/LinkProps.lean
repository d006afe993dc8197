import Verif.Multilayer.Props
import Verif.Multilayer.SampleSpec
/-! # C59: the two computations of the transmission of a sample agree -/
namespace SC.Multilayer

/-- The layer of C58: its linear attenuation coefficient is mass attenuation coefficient times the density of the
layer (multilayer.py:464-472). -/
noncomputable def RLyr.toLayer (l : RLyr) : Layer := ⟨l.t, fun e => l.mac e * l.density, fun _ _ => 0⟩

/-- C59: the transmission of a sample by its absorbance is that from its front to its back by the depths (C58), and the
product of those of its layers, when no density was refined. -/
theorem transmission_agrees (cosin : ℝ) (ls : List RLyr) (h : ∀ l ∈ ls, 0 ≤ l.t ∧ l.own = none) (e : ℝ) :
    sampleTransmission cosin ls e = transmission (ls.map RLyr.toLayer) 0 (depth (ls.map RLyr.toLayer)) cosin e ∧
    sampleTransmission cosin ls e = (ls.map fun l => Real.exp (-(l.absorbance cosin e))).prod := by
  constructor
  · have ht : Thick (ls.map RLyr.toLayer) := by
      intro x hx
      obtain ⟨l, hl, rfl⟩ := List.mem_map.1 hx
      exact (h l hl).1
    unfold sampleTransmission transmission
    rw [(cumAtt_ends _ ht _ e).2 le_rfl, (cumAtt_ends _ ht 0 e).1 le_rfl]
    congr 1
    rw [sub_zero, neg_div, neg_inj]
    unfold absorbance
    induction ls with
    | nil => simp
    | cons l ls ih =>
      have ih := ih (fun x hx => h x (List.mem_cons_of_mem _ hx)) (by
        intro x hx
        obtain ⟨l, hl, rfl⟩ := List.mem_map.1 hx
        exact (h l (List.mem_cons_of_mem _ hl)).1)
      simp only [List.map_cons, List.sum_cons, ih]
      simp only [RLyr.toLayer, RLyr.absorbance, RLyr.xin, RLyr.density, (h l List.mem_cons_self).2, Option.getD_none]
      ring
  · unfold sampleTransmission absorbance
    induction ls with
    | nil => simp
    | cons l ls ih =>
      simp only [List.map_cons, List.sum_cons, List.prod_cons, neg_add, Real.exp_add]
      rw [ih fun x hx => h x (List.mem_cons_of_mem _ hx)]

/-- C59 (deviation): after refining the density from 1 to 2 the depths give another transmission than the absorbance. -/
theorem refined_transmissions_differ : ∃ ls : List RLyr,
    sampleTransmission 1 ls 1 = Real.exp (-1) ∧
    transmission (ls.map RLyr.toLayer) 0 (depth (ls.map RLyr.toLayer)) 1 1 = Real.exp (-2) := by
  refine ⟨[{ parts := [(1, fun _ => 1)], rho := fun _ => 1, t := 1, own := some 2 }], ?_, ?_⟩
  · norm_num [sampleTransmission, absorbance, RLyr.absorbance, RLyr.mac, RLyr.xin, RLyr.matDensity]
  · have ht : Thick ([{ parts := [(1, fun _ => 1)], rho := fun _ => 1, t := 1, own := some 2 : RLyr }].map RLyr.toLayer) := by
      intro x hx
      simp only [List.map_cons, List.map_nil, List.mem_singleton] at hx
      subst hx
      norm_num [RLyr.toLayer]
    unfold transmission
    rw [(cumAtt_ends _ ht _ 1).2 le_rfl, (cumAtt_ends _ ht 0 1).1 le_rfl]
    norm_num [RLyr.toLayer, RLyr.mac, RLyr.density]

/-- Two layers of thickness 1 and 2 absorb `e` and 4 under a cosine of 1/2. -/
example (e : ℝ) : sampleTransmission (1 / 2) [{ parts := [(1, fun e => e)], rho := fun _ => 1 / 2, t := 1 },
    { parts := [(1 / 2, fun _ => 1), (1 / 2, fun _ => 3)], rho := fun _ => 1 / 2, t := 2 }] e = Real.exp (-e) * Real.exp (-4) := by
  rw [(transmission_agrees _ _ (by simp) e).2]
  norm_num [RLyr.absorbance, RLyr.mac, RLyr.xin, RLyr.matDensity]

end SC.Multilayer
