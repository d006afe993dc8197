import Verif.Multilayer.RefineProps
/-! # C59: refinement of the composition -/
namespace SC.Multilayer

/-- What a layer contributes: for every part its mass per area on the way of the beam. -/
noncomputable def content (cosin : ℝ) (l : RLyr) : List ℝ := l.parts.map fun p => p.1 * (l.xin cosin * l.matDensity)

noncomputable def paramsC (cosin : ℝ) (ls : List RLyr) : List ℝ := (free ls).flatMap (content cosin)

/-- The attenuation coefficients of all parts of the free layers. -/
def partMacs (ls : List RLyr) : List (ℝ → ℝ) := (free ls).flatMap fun l => l.parts.map Prod.snd

theorem lin_content (cosin : ℝ) (l : RLyr) (e : ℝ) : lin (l.parts.map Prod.snd) (content cosin l) e = l.absorbance cosin e := by
  unfold content RLyr.absorbance RLyr.mac
  generalize l.xin cosin * l.matDensity = c
  induction l.parts with
  | nil => simp [lin]
  | cons p ps ih => simp only [List.map_cons, lin_cons, List.sum_cons, ih]; ring

theorem lin_contents (cosin : ℝ) (fl : List RLyr) (e : ℝ) :
    lin (fl.flatMap fun l => l.parts.map Prod.snd) (fl.flatMap (content cosin)) e = (fl.map fun l => l.absorbance cosin e).sum := by
  induction fl with
  | nil => simp [lin]
  | cons l fl ih =>
    rw [List.flatMap_cons, List.flatMap_cons, lin_append _ _ _ _ (by simp [content]), ih, lin_content]
    simp

theorem composition_keeps (c : Bool) (l l' : RLyr) (h : OtherComposition c l l') : l'.fixed = l.fixed := by
  obtain ⟨w, t, -, rfl, -⟩ := h; rfl

theorem weighted_snd (w : List ℝ) (ps : List (ℝ × (ℝ → ℝ))) (h : w.length = ps.length) :
    (List.zipWith (fun x p => (x, p.2)) w ps).map Prod.snd = ps.map Prod.snd ∧
    (List.zipWith (fun x p => (x, p.2)) w ps).map Prod.fst = w := by
  induction w generalizing ps with
  | nil => cases ps with
    | nil => simp
    | cons => simp at h
  | cons a w ih =>
    cases ps with
    | nil => simp at h
    | cons p ps =>
      obtain ⟨h1, h2⟩ := ih ps (by simpa using h)
      simp [h1, h2]

theorem composition_absorbance (c : Bool) (cosin : ℝ) {ls r : List RLyr} (h : Variant (OtherComposition c) ls r) :
    absorbance cosin r = fun e => base cosin ls e + lin (partMacs ls) (paramsC cosin r) e := by
  obtain ⟨h1, h2⟩ := variant_fixed (composition_keeps c) h
  funext e
  rw [absorbance_split, base_eq cosin h1, ← lin_contents]
  have : ((free r).flatMap fun l => l.parts.map Prod.snd) = partMacs ls := by
    unfold partMacs
    rw [List.flatMap_def, List.flatMap_def]
    congr 1
    refine forall₂_map _ (fun a b hab => ?_) h2
    obtain ⟨w, t, hw, rfl, -⟩ := hab
    exact (weighted_snd w _ hw).1
  rw [this]
  rfl

/-- Free layers without an own density, of materials with a positive density whatever the fractions. -/
def Dense (ls : List RLyr) : Prop := ∀ l ∈ free ls, l.own = none ∧ ∀ w, 0 < l.rho w

theorem content_length (cosin : ℝ) (l : RLyr) : (content cosin l).length = l.parts.length := by simp [content]

theorem composition_params (c : Bool) (cosin : ℝ) (hc : 0 < cosin) {ls r : List RLyr} (hp : Dense ls)
    (h : Variant (OtherComposition c) ls r) :
    (paramsC cosin r).length = (partMacs ls).length ∧ Allowed c (paramsC cosin r) := by
  obtain ⟨-, h2⟩ := variant_fixed (composition_keeps c) h
  constructor
  · unfold paramsC partMacs
    rw [List.length_flatMap, List.length_flatMap]
    congr 1
    have := forall₂_map (fun l : RLyr => l.parts.length) (fun a b hab => by
      obtain ⟨w, t, hw, rfl, -⟩ := hab
      simp [hw]) h2
    simpa [content] using this
  · intro hcon p hpm
    obtain ⟨l', hl', hpm⟩ := List.mem_flatMap.1 hpm
    obtain ⟨q, hq, rfl⟩ := List.mem_map.1 hpm
    obtain ⟨l, hl, w, t, hw, rfl, ht⟩ := forall₂_mem h2 hl'
    obtain ⟨ht1, ht2⟩ := ht hcon
    have hq1 : q.1 ∈ w := by
      rw [← (weighted_snd w _ hw).2]
      exact List.mem_map.2 ⟨q, hq, rfl⟩
    exact mul_nonneg (ht2 _ hq1) (mul_nonneg (div_nonneg ht1 hc.le) ((hp l hl).2 _).le)

/-- A condition on the parameters of every free layer. -/
def Blocks (Q : List ℝ → Prop) : List RLyr → List ℝ → Prop
  | [], _ => True
  | l :: fl, ps => Q (ps.take l.parts.length) ∧ Blocks Q fl (ps.drop l.parts.length)

theorem assignParts_variant (c : Bool) (Q : List ℝ → Prop) (cosin : ℝ) (f : RLyr → List ℝ → RLyr)
    (hfix : ∀ l w, (f l w).fixed = l.fixed) : ∀ (ls : List RLyr) (ps : List ℝ), ps.length = (partMacs ls).length →
    Allowed c ps → Blocks Q (free ls) ps →
    (∀ l ∈ free ls, ∀ w : List ℝ, w.length = l.parts.length → Allowed c w → Q w →
      OtherComposition c l (f l w) ∧ content cosin (f l w) = w) →
    Variant (OtherComposition c) ls (assignParts f ls ps) ∧ paramsC cosin (assignParts f ls ps) = ps
  | [], ps, hl, _, _, _ => by
    have : ps = [] := List.length_eq_zero_iff.1 (by simpa [partMacs, free] using hl)
    subst this
    simp [assignParts, Variant, paramsC, free]
  | l :: ls, ps, hl, hok, hQ, hch => by
    unfold assignParts
    cases hf : l.fixed with
    | true =>
      have hfree : free (l :: ls) = free ls := by simp [free, hf]
      rw [partMacs, hfree] at hl
      rw [hfree] at hQ hch
      obtain ⟨a, b⟩ := assignParts_variant c Q cosin f hfix ls ps hl hok hQ hch
      refine ⟨List.Forall₂.cons (by simp [hf]) a, ?_⟩
      rw [if_pos rfl]
      have : free (l :: assignParts f ls ps) = free (assignParts f ls ps) := by simp [free, hf]
      rw [paramsC, this]
      exact b
    | false =>
      have hfree : free (l :: ls) = l :: free ls := by simp [free, hf]
      rw [partMacs, hfree, List.flatMap_cons, List.length_append, List.length_map] at hl
      rw [hfree] at hQ hch
      have hmem : ∀ p ∈ ps.take l.parts.length, p ∈ ps := fun p hp => List.mem_of_mem_take hp
      have hmem' : ∀ p ∈ ps.drop l.parts.length, p ∈ ps := fun p hp => List.mem_of_mem_drop hp
      obtain ⟨a, b⟩ := assignParts_variant c Q cosin f hfix ls (ps.drop l.parts.length)
        (by rw [List.length_drop, partMacs]; omega) (fun hc p hp => hok hc p (hmem' p hp)) hQ.2
        (fun l' hl' => hch l' (List.mem_cons_of_mem _ hl'))
      obtain ⟨h1, h2⟩ := hch l List.mem_cons_self (ps.take l.parts.length) (by rw [List.length_take]; omega)
        (fun hc p hp => hok hc p (hmem p hp)) hQ.1
      simp only [Bool.false_eq_true, if_false]
      refine ⟨List.Forall₂.cons (by simpa only [hf, Bool.false_eq_true, if_false] using h1) a, ?_⟩
      have : free (f l (ps.take l.parts.length) :: assignParts f ls (ps.drop l.parts.length)) =
          f l (ps.take l.parts.length) :: free (assignParts f ls (ps.drop l.parts.length)) := by
        simp [free, hfix, hf]
      rw [paramsC, this, List.flatMap_cons, h2]
      rw [paramsC] at b
      rw [b, List.take_append_drop]

theorem blocks_true (fl : List RLyr) (ps : List ℝ) : Blocks (fun _ => True) fl ps := by
  induction fl generalizing ps with
  | nil => trivial
  | cons l fl ih => exact ⟨trivial, ih _⟩

theorem assignParts_blocks (Q : List ℝ → Prop) (R : RLyr → Prop) (f : RLyr → List ℝ → RLyr)
    (hfix : ∀ l w, (f l w).fixed = l.fixed) (hQ : ∀ l w, R (f l w) → Q w) : ∀ (ls : List RLyr) (ps : List ℝ),
    (∀ l ∈ free (assignParts f ls ps), R l) → Blocks Q (free ls) ps
  | [], ps, _ => by simp [free, Blocks]
  | l :: ls, ps, h => by
    unfold assignParts at h
    cases hf : l.fixed with
    | true =>
      have hfree : free (l :: ls) = free ls := by simp [free, hf]
      rw [hfree]
      rw [hf, if_pos rfl] at h
      refine assignParts_blocks Q R f hfix hQ ls ps fun x hx => h x ?_
      simpa [free, hf] using hx
    | false =>
      have hfree : free (l :: ls) = l :: free ls := by simp [free, hf]
      rw [hfree]
      simp only [hf, Bool.false_eq_true, if_false] at h
      have e : free (f l (ps.take l.parts.length) :: assignParts f ls (ps.drop l.parts.length)) =
          f l (ps.take l.parts.length) :: free (assignParts f ls (ps.drop l.parts.length)) := by
        simp [free, hfix, hf]
      rw [e] at h
      exact ⟨hQ l _ (h _ List.mem_cons_self),
        assignParts_blocks Q R f hfix hQ ls _ fun x hx => h x (List.mem_cons_of_mem _ hx)⟩

theorem assignParts_free (Q : List ℝ → Prop) (R : RLyr → Prop) (f : RLyr → List ℝ → RLyr)
    (hfix : ∀ l w, (f l w).fixed = l.fixed) : ∀ (ls : List RLyr) (ps : List ℝ), ps.length = (partMacs ls).length →
    Blocks Q (free ls) ps → (∀ l ∈ free ls, ∀ w : List ℝ, w.length = l.parts.length → Q w → R (f l w)) →
    ∀ l ∈ free (assignParts f ls ps), R l
  | [], ps, _, _, _ => by simp [free, assignParts]
  | l :: ls, ps, hl, hQ, hR => by
    unfold assignParts
    cases hf : l.fixed with
    | true =>
      have hfree : ∀ ls, free (l :: ls) = free ls := by intro ls; simp [free, hf]
      rw [partMacs, hfree] at hl
      rw [hfree] at hQ hR
      rw [if_pos rfl, hfree]
      exact assignParts_free Q R f hfix ls ps hl hQ hR
    | false =>
      have hfree : free (l :: ls) = l :: free ls := by simp [free, hf]
      rw [partMacs, hfree, List.flatMap_cons, List.length_append, List.length_map] at hl
      rw [hfree] at hQ hR
      simp only [Bool.false_eq_true, if_false]
      have e : free (f l (ps.take l.parts.length) :: assignParts f ls (ps.drop l.parts.length)) =
          f l (ps.take l.parts.length) :: free (assignParts f ls (ps.drop l.parts.length)) := by
        simp [free, hfix, hf]
      rw [e]
      intro x hx
      rcases List.mem_cons.1 hx with rfl | hx
      · exact hR l List.mem_cons_self _ (by rw [List.length_take]; omega) hQ.1
      · exact assignParts_free Q R f hfix ls _ (by rw [List.length_drop, partMacs]; omega) hQ.2
          (fun l' hl' => hR l' (List.mem_cons_of_mem _ hl')) x hx

theorem setComposition_fixed (cosin : ℝ) (b : Bool) (l : RLyr) (w : List ℝ) : (setComposition cosin b l w).fixed = l.fixed := by
  unfold setComposition; cases b <;> rfl

/-- The layer after refining composition and thickness. -/
theorem setComposition_spec (c : Bool) (cosin : ℝ) (hc : 0 < cosin) (l : RLyr) (hown : l.own = none)
    (hrho : ∀ w, 0 < l.rho w) (w : List ℝ) (hw : w.length = l.parts.length) (hok : Allowed c w) (hs : w.sum ≠ 0) :
    OtherComposition c l (setComposition cosin false l w) ∧ content cosin (setComposition cosin false l w) = w ∧
    ((setComposition cosin false l w).parts.map Prod.fst).sum = 1 := by
  have hlen : (w.map (· / w.sum)).length = l.parts.length := by simpa using hw
  obtain ⟨h1, h2⟩ := weighted_snd (w.map (· / w.sum)) l.parts hlen
  have hd : (l.weighted (w.map (· / w.sum))).density = l.rho (w.map (· / w.sum)) := by
    simp only [RLyr.density, RLyr.weighted, hown, Option.getD_none, RLyr.matDensity, h2]
  have hpos := hrho (w.map (· / w.sum))
  refine ⟨⟨_, _, hlen, rfl, fun hcon => ?_⟩, ?_, ?_⟩
  · have hn := hok hcon
    have hsn : 0 ≤ w.sum := List.sum_nonneg hn
    refine ⟨mul_nonneg (div_nonneg hsn ?_) hc.le, fun x hx => ?_⟩
    · rw [hd]; exact hpos.le
    · obtain ⟨y, hy, rfl⟩ := List.mem_map.1 hx
      exact div_nonneg (hn y hy) hsn
  · have hdm : (setComposition cosin false l w).matDensity = l.rho (w.map (· / w.sum)) := by
      simp only [setComposition, Bool.false_eq_true, if_false, RLyr.matDensity, RLyr.weighted, h2]
    have hx : (setComposition cosin false l w).xin cosin * (setComposition cosin false l w).matDensity = w.sum := by
      rw [hdm]
      simp only [setComposition, Bool.false_eq_true, if_false, RLyr.xin, hd]
      have := hpos.ne'
      have := hc.ne'
      field_simp
    unfold content
    rw [hx]
    have : ((setComposition cosin false l w).parts.map fun p => p.1 * w.sum) =
        ((setComposition cosin false l w).parts.map Prod.fst).map (· * w.sum) := by simp
    rw [this]
    have hp : (setComposition cosin false l w).parts.map Prod.fst = w.map (· / w.sum) := h2
    rw [hp, List.map_map]
    conv_rhs => rw [← List.map_id w]
    refine List.map_congr_left fun x _ => ?_
    simp [hs]
  · have hp : (setComposition cosin false l w).parts.map Prod.fst = w.map (· / w.sum) := h2
    rw [hp]
    have : ∀ (w : List ℝ) (s : ℝ), (w.map (· / s)).sum = w.sum / s := by
      intro w s
      induction w with
      | nil => simp
      | cons a w ih => simp [ih]; ring
    rw [this, div_self hs]

/-- Every list of parameters belongs to some composition. -/
theorem composition_build (c : Bool) (cosin : ℝ) (hc : 0 < cosin) {ls : List RLyr} (hp : Dense ls) (ps : List ℝ)
    (hl : ps.length = (partMacs ls).length) (hok : Allowed c ps) :
    ∃ r, Variant (OtherComposition c) ls r ∧ paramsC cosin r = ps := by
  refine ⟨_, assignParts_variant c (fun _ => True) cosin
    (fun l w => { l with parts := List.zipWith (fun x p => (x, p.2)) w l.parts, t := cosin / l.rho w })
    (fun _ _ => rfl) ls ps hl hok (blocks_true _ _) fun l hl w hw hokw _ => ⟨⟨w, _, hw, rfl, fun hcon => ?_⟩, ?_⟩⟩
  · exact ⟨(div_pos hc ((hp l hl).2 w)).le, hokw hcon⟩
  · obtain ⟨h1, h2⟩ := weighted_snd w l.parts hw
    have hx : (cosin / l.rho w / cosin) * l.rho w = 1 := by
      have := ((hp l hl).2 w).ne'
      have := hc.ne'
      field_simp
    simp only [content, RLyr.xin, RLyr.matDensity, h2, hx, mul_one]

/-- C59: refining composition and thickness gives the sample that describes the data best, among those with other mass
fractions and thicknesses of the layers that are not fixed, as long as no layer vanishes; the mass fractions
add up to one. -/
theorem composition_best (s : Solvers) (hs : s.Good) (cosin : ℝ) (hc : 0 < cosin) (ls : List RLyr) (hp : Dense ls)
    (hfree : partMacs ls ≠ []) (es y : List ℝ) (hl : es.length = y.length) (hbig : y.length ≠ 1 ∨ (partMacs ls).length ≠ 1)
    (constraint : Bool) (r0 : List RLyr) (hr0 : Variant (OtherComposition constraint) ls r0)
    (hbest : ∀ r, Variant (OtherComposition constraint) ls r →
      misfit (absorbance cosin r0) es y ≤ misfit (absorbance cosin r) es y) :
    ∃ ls', refineComposition s false cosin ls es y false constraint = .ok ls' ∧ ((∀ l ∈ free ls', l.t ≠ 0) →
      Variant (OtherComposition constraint) ls ls' ∧ (∀ l ∈ free ls', (l.parts.map Prod.fst).sum = 1) ∧
      (∀ r, Variant (OtherComposition constraint) ls r →
        misfit (absorbance cosin ls') es y ≤ misfit (absorbance cosin r) es y)) := by
  set cols := (partMacs ls).map fun f => es.map f with hcols
  set x := if constraint then s.nonneg cols (remaining cosin ls es y) else s.lstsq cols (remaining cosin ls es y) with hx
  obtain ⟨⟨hx1, hx2⟩, hmin⟩ := best_of (Allowed constraint) cosin ls es y hl (partMacs ls)
    (Variant (OtherComposition constraint) ls) (absorbance cosin) (paramsC cosin)
    (fun r hr => composition_absorbance constraint cosin hr) (fun r hr => composition_params constraint cosin hc hp hr)
    (fun ps h1 h2 => composition_build constraint cosin hc hp ps h1 h2) x
    (solver_ok s hs constraint _ _) r0 hr0 hbest
  refine ⟨assignParts (setComposition cosin false) ls x, ?_, fun hnz => ?_⟩
  · unfold refineComposition
    have hcol : ((free ls).flatMap fun l => l.parts.map fun p => es.map p.2) = cols := by
      rw [hcols, partMacs, List.map_flatMap]
      simp only [List.map_map]
      rfl
    simp only [hcol]
    rw [refineLinear_big _ _ _ _ _ (by
      rw [remaining_length _ _ _ _ hl]; simpa [hcols] using hbig)]
    have hne : cols ≠ [] := by simpa [hcols] using hfree
    cases constraint <;> simp [hne, hx] <;> rfl
  · have hblocks : Blocks (fun w => w.sum ≠ 0) (free ls) x := by
      refine assignParts_blocks (fun w => w.sum ≠ 0) (fun l => l.t ≠ 0) _ (setComposition_fixed cosin false)
        (fun l w h hw => h ?_) ls x hnz
      simp [setComposition, hw]
    obtain ⟨hv, hpar⟩ := assignParts_variant constraint _ cosin _ (setComposition_fixed cosin false) ls x hx1 hx2 hblocks
      (fun l hl w hw hok hsum => by
        obtain ⟨a, b, -⟩ := setComposition_spec constraint cosin hc l (hp l hl).1 (hp l hl).2 w hw hok hsum
        exact ⟨a, b⟩)
    refine ⟨hv, ?_, fun r hr => ?_⟩
    · refine assignParts_free _ _ _ (setComposition_fixed cosin false) ls x hx1 hblocks fun l hl w hw hsum => ?_
      exact (setComposition_spec false cosin hc l (hp l hl).1 (hp l hl).2 w hw (by simp [Allowed]) hsum).2.2
    rw [composition_absorbance constraint cosin hv, hpar]
    exact hmin r hr

/-- A layer of one part with density 1. -/
noncomputable def unitLayer (t : ℝ) : RLyr := { parts := [(1, fun _ => 1)], rho := fun _ => 1, t := t }

/-- C59 (deviation): with the thickness fixed the refined sample does not absorb like the data, for every solver, although
another density does. -/
theorem composition_density_not_used (s : Solvers) (hs : s.Good) : ∃ ls',
    refineComposition s true 1 [unitLayer 1] [1, 2] [2, 2] false true = .ok ls' ∧
      layerAbsorbance 1 ls' 1 = 2 ∧ absorbance 1 ls' 1 = 1 := by
  have hrem : remaining 1 [unitLayer 1] [1, 2] [2, 2] = [2, 2] := by
    simp [remaining, fixedOnes, unitLayer]
  have hfit : ∀ p : ℝ, colMisfit [[1, 1]] [2, 2] [p] = 2 * (p - 2) ^ 2 := by
    intro p
    simp [colMisfit, fitted, Finset.sum_range_succ]; ring
  have hb := hs.nonneg [[1, 1]] [2, 2] ⟨[2], rfl, by simp [NonNeg], fun qs hq _ => by
    match qs, hq with
    | [q], _ => rw [hfit, hfit]; nlinarith [sq_nonneg (q - 2)]⟩
  obtain ⟨p, hp⟩ : ∃ p, s.nonneg [[1, 1]] [2, 2] = [p] := List.length_eq_one_iff.1 hb.size
  have h2 := hb.best [2] rfl (by simp [NonNeg])
  rw [hp, hfit, hfit] at h2
  have hp2 : p = 2 := by nlinarith [sq_nonneg (p - 2)]
  subst hp2
  refine ⟨[setComposition 1 true (unitLayer 1) [2]], ?_, ?_, ?_⟩
  · unfold refineComposition
    rw [hrem]
    have hcol : ((free [unitLayer 1]).flatMap fun l => l.parts.map fun p => [(1 : ℝ), 2].map p.2) = [[1, 1]] := by
      simp [free, unitLayer]
    simp only [hcol]
    rw [refineLinear_big _ _ _ _ _ (by simp)]
    simp [hp, free]
    simp [bind, Except.bind, pure, Except.pure, assignParts, unitLayer]
  · norm_num [layerAbsorbance, setComposition, unitLayer, RLyr.weighted, RLyr.mac, RLyr.xin, RLyr.density]
  · norm_num [absorbance, RLyr.absorbance, setComposition, unitLayer, RLyr.weighted, RLyr.mac, RLyr.xin, RLyr.matDensity]

/-! ## Cases -/

open Classical in
/-- Solvers that find a best solution when there is one. -/
noncomputable def ideal : Solvers where
  lstsq cols y := if h : ∃ q, BestFit Any cols y q then h.choose else []
  nonneg cols y := if h : ∃ q, BestFit NonNeg cols y q then h.choose else []
  bound cols y := if h : ∃ q, BestFit NonNegInit cols y q then h.choose else []

theorem ideal_good : ideal.Good where
  lstsq cols y h := by unfold ideal; simp only [dif_pos h]; exact h.choose_spec
  nonneg cols y h := by unfold ideal; simp only [dif_pos h]; exact h.choose_spec
  bound cols y h := by unfold ideal; simp only [dif_pos h]; exact h.choose_spec

/-- A fixed and a free layer. -/
noncomputable def twoLayers (t : ℝ) : List RLyr :=
  [{ parts := [(1, fun e => e)], rho := fun _ => 2, t := 1, fixed := true },
   { parts := [(1 / 2, fun _ => 1), (1 / 2, fun e => e)], rho := fun _ => 3, t := t }]

theorem two_variant (t : ℝ) (ht : 0 ≤ t) : Variant (OtherThickness true) (twoLayers 0) (twoLayers t) := by
  refine .cons ?_ (.cons ?_ .nil)
  · simp
  · simp only [Bool.false_eq_true, if_false]
    exact ⟨t, rfl, fun _ => ht⟩

theorem two_plain (t : ℝ) : Plain (twoLayers t) := by
  intro l hl
  simp only [twoLayers, free, List.filter_cons, Bool.not_true, Bool.not_false, List.filter_nil] at hl
  simp only [Bool.false_eq_true, if_false, if_true, List.mem_singleton] at hl
  subst hl
  norm_num [RLyr.matDensity]

/-- From the absorbance at two energies the thickness of the second layer is found. -/
example (t : ℝ) (ht : 0 ≤ t) : refine ideal (setThickness (1 / 2)) (1 / 2) (twoLayers 0) [1, 2]
    ([1, 2].map (absorbance (1 / 2) (twoLayers t))) false true = .ok (twoLayers t) := by
  refine thickness_recovered ideal ideal_good (1 / 2) (by norm_num) (twoLayers 0) (two_plain 0)
    (by simp [free, twoLayers]) [1, 2] (by simp) ?_ true (twoLayers t) (two_variant t ht)
  intro ps qs hp hq h
  simp only [free, twoLayers, List.filter_cons, Bool.not_true, Bool.not_false, List.filter_nil, Bool.false_eq_true,
    if_false, if_true, List.length_cons, List.length_nil, zero_add] at hp hq h
  match ps, qs, hp, hq with
  | [p], [q], _, _ =>
    have := h 1 (by simp)
    norm_num [RLyr.mac] at this
    rw [this]

/-- One datum: the thickness becomes negative in spite of the constraint. -/
theorem single_negative (s : Solvers) : refine s (setThickness 1) 1 [unitLayer 1] [1] [-2] false true = .ok [unitLayer (-2)] := by
  unfold refine
  have hcol : ((free [unitLayer 1]).map fun l => [(1 : ℝ)].map l.mac) = [[1]] := by
    simp [free, unitLayer, RLyr.mac]
  have hrem : remaining 1 [unitLayer 1] [1] [-2] = [-2] := by
    simp [remaining, fixedOnes, unitLayer]
  rw [hcol, hrem]
  simp [refineLinear, bind, Except.bind, pure, Except.pure, assign, setThickness, unitLayer, RLyr.density, RLyr.matDensity]

end SC.Multilayer
