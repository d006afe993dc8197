import Verif.Multilayer.SampleSpec
import Mathlib.Tactic.Ring
import Mathlib.Tactic.Linarith
import Mathlib.Tactic.FieldSimp
/-! # C59: lemmas on the refinement -/
namespace SC.Multilayer

/-- A linear combination of functions. -/
noncomputable def lin (fs : List (ℝ → ℝ)) (ps : List ℝ) (e : ℝ) : ℝ := ((fs.zip ps).map fun p => p.2 * p.1 e).sum

theorem lin_nil (ps : List ℝ) (e : ℝ) : lin [] ps e = 0 := by simp [lin]
theorem lin_cons (f : ℝ → ℝ) (fs : List (ℝ → ℝ)) (p : ℝ) (ps : List ℝ) (e : ℝ) :
    lin (f :: fs) (p :: ps) e = p * f e + lin fs ps e := by simp [lin]
theorem lin_append (fs gs : List (ℝ → ℝ)) (ps qs : List ℝ) (h : ps.length = fs.length) (e : ℝ) :
    lin (fs ++ gs) (ps ++ qs) e = lin fs ps e + lin gs qs e := by
  simp [lin, List.zip_append h.symm]

theorem lin_scale (fs : List (ℝ → ℝ)) (ps : List ℝ) (c e : ℝ) : lin fs (ps.map (· * c)) e = lin fs ps e * c := by
  induction fs generalizing ps with
  | nil => simp [lin]
  | cons f fs ih =>
    cases ps with
    | nil => simp [lin]
    | cons p ps => rw [List.map_cons, lin_cons, lin_cons, ih]; ring

theorem fitted_lin (fs : List (ℝ → ℝ)) (es ps : List ℝ) (j : Nat) (hj : j < es.length) :
    fitted (fs.map fun f => es.map f) ps j = lin fs ps (es.getD j 0) := by
  unfold fitted lin
  rw [List.zip_map_left, List.map_map]
  congr 1
  refine List.map_congr_left fun p _ => ?_
  simp [List.getD_eq_getElem?_getD, hj]

theorem remaining_length (cosin : ℝ) (ls : List RLyr) (es y : List ℝ) (h : es.length = y.length) :
    (remaining cosin ls es y).length = y.length := by simp [remaining, h]

theorem remaining_get (cosin : ℝ) (ls : List RLyr) (es y : List ℝ) (h : es.length = y.length) (j : Nat) (hj : j < y.length) :
    (remaining cosin ls es y).getD j 0 =
      y.getD j 0 - ((fixedOnes ls).map fun l => l.absorbance cosin (es.getD j 0)).sum := by
  have hj' : j < es.length := h ▸ hj
  simp [remaining, List.getD_eq_getElem?_getD, hj, hj']

/-- The absorbance of the fixed layers. -/
noncomputable def base (cosin : ℝ) (ls : List RLyr) (e : ℝ) : ℝ := ((fixedOnes ls).map fun l => l.absorbance cosin e).sum

theorem colMisfit_lin (cosin : ℝ) (ls : List RLyr) (es y : List ℝ) (h : es.length = y.length) (fs : List (ℝ → ℝ))
    (ps : List ℝ) : colMisfit (fs.map fun f => es.map f) (remaining cosin ls es y) ps =
      misfit (fun e => base cosin ls e + lin fs ps e) es y := by
  unfold colMisfit misfit
  rw [remaining_length _ _ _ _ h]
  refine Finset.sum_congr rfl fun j hj => ?_
  have hj := Finset.mem_range.1 hj
  rw [fitted_lin _ _ _ _ (h ▸ hj), remaining_get _ _ _ _ h j hj]
  unfold base
  ring

/-- Refinement in general: among the samples `R` with parameters `P`, those with the parameters of a good solver are
the best. -/
theorem best_of (ok : List ℝ → Prop) (cosin : ℝ) (ls : List RLyr) (es y : List ℝ) (h : es.length = y.length)
    (fs : List (ℝ → ℝ)) {α : Type} (R : α → Prop) (F : α → ℝ → ℝ) (P : α → List ℝ)
    (hF : ∀ r, R r → F r = fun e => base cosin ls e + lin fs (P r) e)
    (hP : ∀ r, R r → (P r).length = fs.length ∧ ok (P r))
    (hbuild : ∀ ps : List ℝ, ps.length = fs.length → ok ps → ∃ r, R r ∧ P r = ps)
    (x : List ℝ)
    (hx : (∃ q, BestFit ok (fs.map fun f => es.map f) (remaining cosin ls es y) q) →
      BestFit ok (fs.map fun f => es.map f) (remaining cosin ls es y) x)
    (r0 : α) (hr0 : R r0) (hbest : ∀ r, R r → misfit (F r0) es y ≤ misfit (F r) es y) :
    (x.length = fs.length ∧ ok x) ∧ ∀ r, R r →
      misfit (fun e => base cosin ls e + lin fs x e) es y ≤ misfit (F r) es y := by
  have key : ∀ ps, colMisfit (fs.map fun f => es.map f) (remaining cosin ls es y) ps =
      misfit (fun e => base cosin ls e + lin fs ps e) es y := colMisfit_lin cosin ls es y h fs
  have hb := hx ⟨P r0, by simpa using (hP r0 hr0).1, (hP r0 hr0).2, fun qs hq hok => by
    obtain ⟨r, hr, rfl⟩ := hbuild qs (by simpa using hq) hok
    rw [key, key, ← hF r hr, ← hF r0 hr0]
    exact hbest r hr⟩
  refine ⟨⟨by simpa using hb.size, hb.allowed⟩, fun r hr => ?_⟩
  have := hb.best (P r) (by simpa using (hP r hr).1) (hP r hr).2
  rwa [key, key, ← hF r hr] at this

theorem refineLinear_big (s : Solvers) (cols : List (List ℝ)) (y : List ℝ) (constant constraint : Bool)
    (h : y.length ≠ 1 ∨ cols.length ≠ 1) : refineLinear s cols y constant constraint =
      if constant then
        if constraint then
          if y.length = cols.length + 1 then .ok (s.bound (cols ++ [y.map fun _ => 1]) y).dropLast else .error .valueError
        else .ok (s.lstsq (cols ++ [y.map fun _ => 1]) y).dropLast
      else if cols = [] then .error .valueError
      else if constraint then .ok (s.nonneg cols y)
      else .ok (s.lstsq cols y) := by
  unfold refineLinear
  split
  · simp at h
  · simp [List.length_append]

theorem absorbance_split (cosin : ℝ) (ls : List RLyr) (e : ℝ) :
    absorbance cosin ls e = base cosin ls e + ((free ls).map fun l => l.absorbance cosin e).sum := by
  unfold absorbance base free fixedOnes
  induction ls with
  | nil => simp
  | cons l ls ih =>
    cases hf : l.fixed <;> simp [hf, ih] <;> ring

theorem lin_layers (cosin : ℝ) (ls : List RLyr) (e : ℝ) (d : RLyr → ℝ) :
    (ls.map fun l => l.mac e * (l.xin cosin * d l)).sum = lin (ls.map RLyr.mac) (ls.map fun l => l.xin cosin * d l) e := by
  induction ls with
  | nil => simp [lin]
  | cons l ls ih => simp only [List.map_cons, List.sum_cons, lin_cons, ih]; ring

theorem variant_fixed {change : RLyr → RLyr → Prop} (hc : ∀ l l', change l l' → l'.fixed = l.fixed) {ls r : List RLyr}
    (h : Variant change ls r) : fixedOnes r = fixedOnes ls ∧ List.Forall₂ change (free ls) (free r) := by
  unfold Variant at h
  induction h with
  | nil => exact ⟨rfl, .nil⟩
  | @cons l l' ls r h1 _ ih =>
    cases hf : l.fixed with
    | true =>
      rw [hf, if_pos rfl] at h1
      subst h1
      simp only [fixedOnes, free] at ih ⊢
      simp [hf, ih.1, ih.2]
    | false =>
      rw [hf] at h1
      simp only [Bool.false_eq_true, if_false] at h1
      have := hc l l' h1
      simp only [fixedOnes, free] at ih ⊢
      simp [hf, this, ih.1, ih.2, h1]

/-- `assign` gives a variant, whose free layers are the changed ones. -/
theorem assign_variant (change : RLyr → RLyr → Prop) (f : RLyr → ℝ → RLyr) (hfix : ∀ l p, (f l p).fixed = l.fixed) :
    ∀ (ls : List RLyr) (ps : List ℝ), ps.length = (free ls).length →
    (∀ l ∈ free ls, ∀ p ∈ ps, change l (f l p)) →
    Variant change ls (assign f ls ps) ∧ free (assign f ls ps) = List.zipWith f (free ls) ps
  | [], ps, _, _ => by simp [assign, Variant, free]
  | l :: ls, ps, hl, hch => by
    unfold assign
    cases hf : l.fixed with
    | true =>
      have hfree : free (l :: ls) = free ls := by simp [free, hf]
      rw [hfree] at hl hch ⊢
      obtain ⟨a, b⟩ := assign_variant change f hfix ls ps hl hch
      refine ⟨List.Forall₂.cons (by simp [hf]) a, ?_⟩
      rw [if_pos rfl, ← b]
      simp [free, hf]
    | false =>
      have hfree : free (l :: ls) = l :: free ls := by simp [free, hf]
      rw [hfree] at hl hch ⊢
      cases ps with
      | nil => simp at hl
      | cons p ps =>
        obtain ⟨a, b⟩ := assign_variant change f hfix ls ps (by simpa using hl)
          (fun l' hl' q hq => hch l' (List.mem_cons_of_mem _ hl') q (List.mem_cons_of_mem _ hq))
        simp only [Bool.false_eq_true, if_false]
        refine ⟨List.Forall₂.cons ?_ a, ?_⟩
        · simp only [hf, Bool.false_eq_true, if_false]
          exact hch l List.mem_cons_self p List.mem_cons_self
        · rw [List.zipWith_cons_cons, ← b]
          simp [free, hfix, hf]

theorem base_eq (cosin : ℝ) {ls r : List RLyr} (h : fixedOnes r = fixedOnes ls) : base cosin r = base cosin ls := by
  funext e; simp [base, h]

end SC.Multilayer
