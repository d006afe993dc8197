import Verif.Multilayer.SampleLemmas
/-! # C59: refinement of a multilayer -/
namespace SC.Multilayer

/-! ## Thickness -/

/-- The parameters of the refinement. -/
noncomputable def params (cosin : ℝ) (ls : List RLyr) : List ℝ := (free ls).map fun l => l.xin cosin * l.matDensity

theorem thickness_keeps (c : Bool) (l l' : RLyr) (h : OtherThickness c l l') : l'.fixed = l.fixed := by
  obtain ⟨t, rfl, -⟩ := h; rfl

theorem forall₂_map {α β : Type} (f : α → β) {R : α → α → Prop} (hR : ∀ a b, R a b → f b = f a) {l m : List α}
    (h : List.Forall₂ R l m) : m.map f = l.map f := by
  induction h with
  | nil => rfl
  | cons a _ ih => simp [hR _ _ a, ih]

theorem absorbance_params (cosin : ℝ) (ls : List RLyr) (e : ℝ) :
    absorbance cosin ls e = base cosin ls e + lin ((free ls).map RLyr.mac) (params cosin ls) e := by
  rw [absorbance_split, params, ← lin_layers]
  rfl

theorem thickness_absorbance (c : Bool) (cosin : ℝ) {ls r : List RLyr} (h : Variant (OtherThickness c) ls r) :
    absorbance cosin r = fun e => base cosin ls e + lin ((free ls).map RLyr.mac) (params cosin r) e := by
  obtain ⟨h1, h2⟩ := variant_fixed (thickness_keeps c) h
  funext e
  rw [absorbance_params, base_eq cosin h1, forall₂_map RLyr.mac (fun a b hab => by obtain ⟨t, rfl, -⟩ := hab; rfl) h2]

/-- What is allowed of the parameters. -/
def Allowed (constraint : Bool) (ps : List ℝ) : Prop := constraint = true → NonNeg ps

theorem forall₂_mem {α : Type} {R : α → α → Prop} {l m : List α} (h : List.Forall₂ R l m) {b : α} (hb : b ∈ m) :
    ∃ a ∈ l, R a b := by
  induction h with
  | nil => simp at hb
  | cons hab _ ih =>
    rcases List.mem_cons.1 hb with rfl | hb
    · exact ⟨_, List.mem_cons_self, hab⟩
    · obtain ⟨x, hx, hr⟩ := ih hb; exact ⟨x, List.mem_cons_of_mem _ hx, hr⟩

/-- Free layers with a positive density that was not refined. -/
def Plain (ls : List RLyr) : Prop := ∀ l ∈ free ls, l.own = none ∧ 0 < l.matDensity

theorem thickness_params (c : Bool) (cosin : ℝ) (hc : 0 < cosin) {ls r : List RLyr} (hp : Plain ls)
    (h : Variant (OtherThickness c) ls r) :
    (params cosin r).length = ((free ls).map RLyr.mac).length ∧ Allowed c (params cosin r) := by
  obtain ⟨-, h2⟩ := variant_fixed (thickness_keeps c) h
  refine ⟨by simp [params, h2.length_eq], fun hcon p hpm => ?_⟩
  obtain ⟨l', hl', rfl⟩ := List.mem_map.1 hpm
  obtain ⟨l, hl, t, rfl, ht⟩ := forall₂_mem h2 hl'
  exact mul_nonneg (div_nonneg (ht hcon) hc.le) (hp l hl).2.le

theorem zipWith_params (cosin : ℝ) (hc : cosin ≠ 0) : ∀ (fl : List RLyr) (ps : List ℝ), ps.length = fl.length →
    (∀ l ∈ fl, l.own = none ∧ 0 < l.matDensity) →
    (List.zipWith (setThickness cosin) fl ps).map (fun l => l.xin cosin * l.matDensity) = ps
  | [], ps, h, _ => by simpa using (List.length_eq_zero_iff.1 (by simpa using h)).symm
  | l :: fl, [], h, _ => by simp at h
  | l :: fl, p :: ps, h, hp => by
    rw [List.zipWith_cons_cons, List.map_cons, zipWith_params cosin hc fl ps (by simpa using h)
      fun x hx => hp x (List.mem_cons_of_mem _ hx)]
    congr 1
    obtain ⟨h1, h2⟩ := hp l List.mem_cons_self
    have h3 := h2.ne'
    have : (setThickness cosin l p).matDensity = l.matDensity := rfl
    rw [this]
    simp only [RLyr.xin, setThickness, RLyr.density, h1, Option.getD_none]
    field_simp

theorem assign_thickness (c : Bool) (cosin : ℝ) (hc : 0 < cosin) {ls : List RLyr} (hp : Plain ls) (ps : List ℝ)
    (hl : ps.length = ((free ls).map RLyr.mac).length) (hok : Allowed c ps) :
    Variant (OtherThickness c) ls (assign (setThickness cosin) ls ps) ∧ params cosin (assign (setThickness cosin) ls ps) = ps := by
  rw [List.length_map] at hl
  obtain ⟨h1, h2⟩ := assign_variant (OtherThickness c) (setThickness cosin) (fun _ _ => rfl) ls ps hl (by
    intro l hl p hpm
    refine ⟨_, rfl, fun hcon => ?_⟩
    have := (hp l hl)
    simp only [RLyr.density, this.1, Option.getD_none]
    exact mul_nonneg (div_nonneg (hok hcon p hpm) this.2.le) hc.le)
  exact ⟨h1, by rw [params, h2]; exact zipWith_params cosin hc.ne' _ _ hl hp⟩

theorem cols_eq (ls : List RLyr) (es : List ℝ) :
    ((free ls).map fun l => es.map l.mac) = ((free ls).map RLyr.mac).map fun f => es.map f := by simp

theorem solver_ok (s : Solvers) (hs : s.Good) (constraint : Bool) (cols : List (List ℝ)) (y : List ℝ)
    (h : ∃ q, BestFit (Allowed constraint) cols y q) :
    BestFit (Allowed constraint) cols y (if constraint then s.nonneg cols y else s.lstsq cols y) := by
  cases constraint with
  | true =>
    have e : Allowed true = NonNeg := by funext ps; simp [Allowed]
    rw [e] at h ⊢
    exact hs.nonneg cols y h
  | false =>
    have e : Allowed false = Any := by funext ps; simp [Allowed, Any]
    rw [e] at h ⊢
    exact hs.lstsq cols y h

/-- C59: refining the thickness gives the sample that describes the data best, among those with other thicknesses of the
layers that are not fixed (not negative when asked for), when there is a best one and more than one number. -/
theorem thickness_best (s : Solvers) (hs : s.Good) (cosin : ℝ) (hc : 0 < cosin) (ls : List RLyr) (hp : Plain ls)
    (hfree : free ls ≠ []) (es y : List ℝ) (hl : es.length = y.length) (hbig : y.length ≠ 1 ∨ (free ls).length ≠ 1)
    (constraint : Bool) (r0 : List RLyr) (hr0 : Variant (OtherThickness constraint) ls r0)
    (hbest : ∀ r, Variant (OtherThickness constraint) ls r →
      misfit (absorbance cosin r0) es y ≤ misfit (absorbance cosin r) es y) :
    ∃ ls', refine s (setThickness cosin) cosin ls es y false constraint = .ok ls' ∧
      Variant (OtherThickness constraint) ls ls' ∧
      ∀ r, Variant (OtherThickness constraint) ls r → misfit (absorbance cosin ls') es y ≤ misfit (absorbance cosin r) es y := by
  set cols := ((free ls).map RLyr.mac).map fun f => es.map f with hcols
  set x := if constraint then s.nonneg cols (remaining cosin ls es y) else s.lstsq cols (remaining cosin ls es y) with hx
  obtain ⟨⟨hx1, hx2⟩, hmin⟩ := best_of (Allowed constraint) cosin ls es y hl ((free ls).map RLyr.mac)
    (Variant (OtherThickness constraint) ls) (absorbance cosin) (params cosin)
    (fun r hr => thickness_absorbance constraint cosin hr) (fun r hr => thickness_params constraint cosin hc hp hr)
    (fun ps h1 h2 => ⟨_, assign_thickness constraint cosin hc hp ps h1 h2⟩) x
    (solver_ok s hs constraint _ _) r0 hr0 hbest
  obtain ⟨hv, hpar⟩ := assign_thickness constraint cosin hc hp x hx1 hx2
  refine ⟨assign (setThickness cosin) ls x, ?_, hv, fun r hr => ?_⟩
  · unfold refine
    rw [cols_eq, ← hcols, refineLinear_big _ _ _ _ _ (by
      rw [remaining_length _ _ _ _ hl]; simpa [hcols] using hbig)]
    have hne : cols ≠ [] := by simpa [hcols] using hfree
    cases constraint <;> simp [hne, hx] <;> rfl
  · rw [thickness_absorbance constraint cosin hv, hpar]
    exact hmin r hr

theorem misfit_nonneg (f : ℝ → ℝ) (es y : List ℝ) : 0 ≤ misfit f es y := Finset.sum_nonneg fun _ _ => sq_nonneg _

theorem misfit_zero (f : ℝ → ℝ) (es y : List ℝ) (hl : es.length = y.length) : misfit f es y = 0 ↔ y = es.map f := by
  unfold misfit
  rw [Finset.sum_eq_zero_iff_of_nonneg fun _ _ => sq_nonneg _]
  constructor
  · intro h
    apply List.ext_getElem (by simp [hl])
    intro j h1 h2
    have := h j (Finset.mem_range.2 h1)
    rw [sq_eq_zero_iff, sub_eq_zero] at this
    have hj : j < es.length := hl ▸ h1
    simp [List.getD_eq_getElem?_getD, h1, hj] at this
    simp [this]
  · rintro h j hj
    have hj' : j < es.length := by rw [hl]; exact Finset.mem_range.1 hj
    subst h
    simp [List.getD_eq_getElem?_getD, hj']

/-- C59: with the data of a sample that differs only by thicknesses the refined sample absorbs like the data. -/
theorem thickness_exact (s : Solvers) (hs : s.Good) (cosin : ℝ) (hc : 0 < cosin) (ls : List RLyr) (hp : Plain ls)
    (hfree : free ls ≠ []) (es : List ℝ) (hbig : es.length ≠ 1 ∨ (free ls).length ≠ 1) (constraint : Bool)
    (r0 : List RLyr) (hr0 : Variant (OtherThickness constraint) ls r0) :
    ∃ ls', refine s (setThickness cosin) cosin ls es (es.map (absorbance cosin r0)) false constraint = .ok ls' ∧
      Variant (OtherThickness constraint) ls ls' ∧ es.map (absorbance cosin ls') = es.map (absorbance cosin r0) := by
  have hz : misfit (absorbance cosin r0) es (es.map (absorbance cosin r0)) = 0 := (misfit_zero _ _ _ (by simp)).2 rfl
  obtain ⟨ls', h1, h2, h3⟩ := thickness_best s hs cosin hc ls hp hfree es (es.map (absorbance cosin r0)) (by simp)
    (by simpa using hbig) constraint r0 hr0 (fun r _ => by rw [hz]; exact misfit_nonneg _ _ _)
  refine ⟨ls', h1, h2, ?_⟩
  have := h3 r0 hr0
  rw [hz] at this
  exact ((misfit_zero _ _ _ (by simp)).1 (le_antisymm this (misfit_nonneg _ _ _))).symm

/-- The attenuation coefficients of the free layers are independent at the given energies. -/
def Independent (ls : List RLyr) (es : List ℝ) : Prop :=
  ∀ ps qs : List ℝ, ps.length = (free ls).length → qs.length = (free ls).length →
    (∀ e ∈ es, ((List.zipWith (fun l p => p * l.mac e) (free ls) ps).sum = (List.zipWith (fun l q => q * l.mac e) (free ls) qs).sum)) →
    ps = qs

theorem lin_zipWith (fl : List RLyr) (ps : List ℝ) (e : ℝ) :
    lin (fl.map RLyr.mac) ps e = (List.zipWith (fun l p => p * l.mac e) fl ps).sum := by
  induction fl generalizing ps with
  | nil => simp [lin]
  | cons l fl ih =>
    cases ps with
    | nil => simp [lin]
    | cons p ps => rw [List.map_cons, lin_cons, ih]; simp

theorem variant_same (c : Bool) (cosin : ℝ) (hc : cosin ≠ 0) : ∀ {ls r r' : List RLyr}, Plain ls →
    Variant (OtherThickness c) ls r → Variant (OtherThickness c) ls r' → params cosin r = params cosin r' → r = r'
  | [], r, r', _, h, h', _ => by cases h; cases h'; rfl
  | l :: ls, r, r', hp, h, h', he => by
    cases h with
    | @cons _ a _ r h1 h2 =>
    cases h' with
    | @cons _ a' _ r' h1' h2' =>
    cases hf : l.fixed with
    | true =>
      rw [hf, if_pos rfl] at h1 h1'
      subst h1; subst h1'
      have hp' : Plain ls := fun x hx => hp x (by simp [free, hf]; simpa [free] using hx)
      rw [variant_same c cosin hc hp' h2 h2' (by simpa [params, free, hf] using he)]
    | false =>
      simp only [hf, Bool.false_eq_true, if_false] at h1 h1'
      obtain ⟨t, rfl, -⟩ := h1
      obtain ⟨t', rfl, -⟩ := h1'
      have hp' : Plain ls := fun x hx => hp x (by
        have : free (l :: ls) = l :: free ls := by simp [free, hf]
        rw [this]; exact List.mem_cons_of_mem _ hx)
      simp only [params, free, List.filter_cons, hf, Bool.not_false, if_true, List.map_cons, List.cons.injEq] at he
      rw [variant_same c cosin hc hp' h2 h2' he.2]
      have hd : 0 < l.matDensity := (hp l (by simp [free, hf])).2
      have he1 := he.1
      change t / cosin * l.matDensity = t' / cosin * l.matDensity at he1
      have : t = t' := by
        have := mul_right_cancel₀ hd.ne' he1
        field_simp at this
        exact this
      rw [this]

/-- C59: with independent attenuation coefficients the refinement finds the thicknesses of the sample that gave the data. -/
theorem thickness_recovered (s : Solvers) (hs : s.Good) (cosin : ℝ) (hc : 0 < cosin) (ls : List RLyr) (hp : Plain ls)
    (hfree : free ls ≠ []) (es : List ℝ) (hbig : es.length ≠ 1 ∨ (free ls).length ≠ 1) (hind : Independent ls es)
    (constraint : Bool) (r0 : List RLyr) (hr0 : Variant (OtherThickness constraint) ls r0) :
    refine s (setThickness cosin) cosin ls es (es.map (absorbance cosin r0)) false constraint = .ok r0 := by
  obtain ⟨ls', h1, h2, h3⟩ := thickness_exact s hs cosin hc ls hp hfree es hbig constraint r0 hr0
  rw [h1, variant_same constraint cosin hc.ne' hp h2 hr0]
  have l1 := (thickness_params constraint cosin hc hp h2).1
  have l2 := (thickness_params constraint cosin hc hp hr0).1
  refine hind _ _ (by simpa using l1) (by simpa using l2) fun e he => ?_
  have := List.map_inj_left.1 h3 e he
  rw [thickness_absorbance constraint cosin h2, thickness_absorbance constraint cosin hr0] at this
  rw [← lin_zipWith, ← lin_zipWith]
  linarith

/-- C59: with a constant and without constraint the thicknesses and the constant are the best together. -/
theorem thickness_constant (s : Solvers) (hs : s.Good) (cosin : ℝ) (hc : 0 < cosin) (ls : List RLyr) (hp : Plain ls)
    (es y : List ℝ) (hl : es.length = y.length) (hbig : y.length ≠ 1 ∨ (free ls).length ≠ 1)
    (r0 : List RLyr) (c0 : ℝ) (hr0 : Variant (OtherThickness false) ls r0)
    (hbest : ∀ r c, Variant (OtherThickness false) ls r →
      misfit (fun e => absorbance cosin r0 e + c0) es y ≤ misfit (fun e => absorbance cosin r e + c) es y) :
    ∃ ls' c', refine s (setThickness cosin) cosin ls es y true false = .ok ls' ∧
      Variant (OtherThickness false) ls ls' ∧ ∀ r c, Variant (OtherThickness false) ls r →
        misfit (fun e => absorbance cosin ls' e + c') es y ≤ misfit (fun e => absorbance cosin r e + c) es y := by
  set fs := (free ls).map RLyr.mac ++ [fun _ => (1 : ℝ)] with hfs
  set cols := fs.map fun f => es.map f with hcols
  set x := s.lstsq cols (remaining cosin ls es y) with hx
  have hap : ∀ (ps : List ℝ) (c e : ℝ), ps.length = ((free ls).map RLyr.mac).length →
      lin fs (ps ++ [c]) e = lin ((free ls).map RLyr.mac) ps e + c := by
    intro ps c e h
    rw [hfs, lin_append _ _ _ _ h, lin_cons, lin_nil]; ring
  obtain ⟨⟨hx1, -⟩, hmin⟩ := best_of Any cosin ls es y hl fs
    (fun q : List RLyr × ℝ => Variant (OtherThickness false) ls q.1) (fun q e => absorbance cosin q.1 e + q.2)
    (fun q => params cosin q.1 ++ [q.2])
    (fun q hq => by
      funext e
      rw [hap _ _ _ (thickness_params false cosin hc hp hq).1, thickness_absorbance false cosin hq]
      ring)
    (fun q hq => ⟨by simp [hfs, (thickness_params false cosin hc hp hq).1], trivial⟩)
    (fun ps h1 _ => by
      have hne : ps ≠ [] := by intro h; simp [h, hfs] at h1
      have hlen : ps.dropLast.length = ((free ls).map RLyr.mac).length := by
        rw [List.length_dropLast, h1, hfs]; simp
      obtain ⟨a, b⟩ := assign_thickness false cosin hc hp ps.dropLast hlen (by simp [Allowed])
      exact ⟨(_, ps.getLast hne), a, by simp only [b]; exact List.dropLast_append_getLast hne⟩)
    x (fun h => hs.lstsq _ _ h) (r0, c0) hr0 (fun q hq => hbest q.1 q.2 hq)
  have hne : x ≠ [] := by intro h; rw [h] at hx1; simp [hfs] at hx1
  have hlen : x.dropLast.length = ((free ls).map RLyr.mac).length := by
    rw [List.length_dropLast, hx1, hfs]; simp
  obtain ⟨hv, hpar⟩ := assign_thickness false cosin hc hp x.dropLast hlen (by simp [Allowed])
  refine ⟨assign (setThickness cosin) ls x.dropLast, x.getLast hne, ?_, hv, fun r c hr => ?_⟩
  · unfold refine
    rw [cols_eq, refineLinear_big _ _ _ _ _ (by rw [remaining_length _ _ _ _ hl]; simpa using hbig)]
    have : (((free ls).map RLyr.mac).map fun f => es.map f) ++ [(remaining cosin ls es y).map fun _ => (1 : ℝ)] = cols := by
      rw [hcols, hfs, List.map_append]
      congr 1
      simp [remaining_length _ _ _ _ hl, hl]
    simp only [if_true, Bool.false_eq_true, if_false, this]
    rfl
  · have := hmin (r, c) hr
    have e : (fun e => absorbance cosin (assign (setThickness cosin) ls x.dropLast) e + x.getLast hne) =
        fun e => base cosin ls e + lin fs x e := by
      funext e
      rw [thickness_absorbance false cosin hv, hpar]
      conv_rhs => rw [← List.dropLast_append_getLast hne]
      rw [hap _ _ _ hlen]; ring
    rw [e]; exact this

/-- C59 (deviation): with a constant and a constraint the refinement fails unless there is one datum more than free layers. -/
theorem constant_constraint_fails (s : Solvers) (set : RLyr → ℝ → RLyr) (cosin : ℝ) (ls : List RLyr) (es y : List ℝ)
    (hl : es.length = y.length) (hbig : y.length ≠ 1 ∨ (free ls).length ≠ 1) (hn : y.length ≠ (free ls).length + 1) :
    refine s set cosin ls es y true true = .error .valueError := by
  unfold refine
  rw [refineLinear_big _ _ _ _ _ (by rw [remaining_length _ _ _ _ hl]; simpa using hbig)]
  simp [remaining_length _ _ _ _ hl, hn]

/-- C59: one datum and one free layer: the refined layer absorbs exactly like the datum, also when the constraint should
keep the thickness from becoming negative. -/
theorem thickness_single (s : Solvers) (cosin : ℝ) (hc : cosin ≠ 0) (ls : List RLyr) (hp : Plain ls) (l : RLyr)
    (hfree : free ls = [l]) (e v : ℝ) (hm : l.mac e ≠ 0) (constant constraint : Bool) :
    ∃ ls', refine s (setThickness cosin) cosin ls [e] [v] constant constraint = .ok ls' ∧
      Variant (OtherThickness false) ls ls' ∧ absorbance cosin ls' e = v := by
  obtain ⟨h1, h2⟩ := assign_variant (OtherThickness false) (setThickness cosin) (fun _ _ => rfl) ls
    [(v - base cosin ls e) / l.mac e] (by simp [hfree]) (fun l _ p _ => ⟨_, rfl, by simp⟩)
  refine ⟨assign (setThickness cosin) ls [(v - base cosin ls e) / l.mac e], ?_, h1, ?_⟩
  · unfold refine
    rw [hfree]
    rfl
  · rw [thickness_absorbance false cosin h1, params, h2, hfree, zipWith_params cosin hc [l] _ (by simp)
      (fun x hx => by rw [List.mem_singleton.1 hx]; exact hp l (by simp [hfree]))]
    simp only [List.map_cons, List.map_nil, lin_cons, lin_nil]
    field_simp
    ring

/-! ## Density -/

theorem density_keeps (c : Bool) (l l' : RLyr) (h : OtherDensity c l l') : l'.fixed = l.fixed := by
  obtain ⟨d, rfl, -⟩ := h; rfl

/-- C59 (deviation): refining the density changes no absorbance: it is kept in the layer, and the absorbance uses the
density of the material. -/
theorem density_not_used (s : Solvers) (cosin : ℝ) (ls : List RLyr) (es y : List ℝ) (constant constraint : Bool)
    (ls' : List RLyr) (h : refine s (setDensity cosin) cosin ls es y constant constraint = .ok ls') (e : ℝ) :
    absorbance cosin ls' e = absorbance cosin ls e := by
  have key : ∀ (ls : List RLyr) (ps : List ℝ), absorbance cosin (assign (setDensity cosin) ls ps) e = absorbance cosin ls e := by
    intro ls
    induction ls with
    | nil => intro ps; rfl
    | cons l ls ih =>
      intro ps
      unfold assign
      split
      · simp only [absorbance, List.map_cons, List.sum_cons] at ih ⊢
        rw [ih]
      · split
        · simp only [absorbance, List.map_cons, List.sum_cons] at ih ⊢
          rw [ih]
        · simp only [absorbance, List.map_cons, List.sum_cons] at ih ⊢
          rw [ih]; rfl
  unfold refine at h
  cases hr : refineLinear s ((free ls).map fun l => es.map l.mac) (remaining cosin ls es y) constant constraint with
  | error er => rw [hr] at h; cases h
  | ok ps =>
    rw [hr] at h
    cases h
    exact key ls ps

/-- The parameters with the densities of the layers. -/
noncomputable def paramsD (cosin : ℝ) (ls : List RLyr) : List ℝ := (free ls).map fun l => l.xin cosin * l.density

/-- Layers with a positive thickness; the fixed ones without an own density. -/
def Solid (ls : List RLyr) : Prop := (∀ l ∈ free ls, 0 < l.t) ∧ ∀ l ∈ fixedOnes ls, l.own = none

theorem layerAbsorbance_split (cosin : ℝ) (ls : List RLyr) (hf : ∀ l ∈ fixedOnes ls, l.own = none) (e : ℝ) :
    layerAbsorbance cosin ls e = base cosin ls e + lin ((free ls).map RLyr.mac) (paramsD cosin ls) e := by
  rw [paramsD, ← lin_layers]
  unfold layerAbsorbance base free fixedOnes at *
  induction ls with
  | nil => simp
  | cons l ls ih =>
    cases hl : l.fixed with
    | true =>
      have := hf l (by simp [hl])
      simp only [List.filter_cons, hl, Bool.not_true, if_true, Bool.false_eq_true, if_false, List.map_cons, List.sum_cons]
      rw [ih fun x hx => hf x (by
        simp only [List.filter_cons, hl, if_true]; exact List.mem_cons_of_mem _ hx)]
      simp only [RLyr.absorbance, RLyr.density, this, Option.getD_none]
      ring
    | false =>
      simp only [List.filter_cons, hl, Bool.not_false, if_true, Bool.false_eq_true, if_false, List.map_cons, List.sum_cons]
      rw [ih fun x hx => hf x (by simpa [List.filter_cons, hl] using hx)]
      ring

theorem density_absorbance (c : Bool) (cosin : ℝ) {ls r : List RLyr} (hs : Solid ls) (h : Variant (OtherDensity c) ls r) :
    layerAbsorbance cosin r = fun e => base cosin ls e + lin ((free ls).map RLyr.mac) (paramsD cosin r) e := by
  obtain ⟨h1, h2⟩ := variant_fixed (density_keeps c) h
  funext e
  rw [layerAbsorbance_split cosin r (by rw [h1]; exact hs.2), base_eq cosin h1,
    forall₂_map RLyr.mac (fun a b hab => by obtain ⟨t, rfl, -⟩ := hab; rfl) h2]

theorem density_params (c : Bool) (cosin : ℝ) (hc : 0 < cosin) {ls r : List RLyr} (hp : Solid ls)
    (h : Variant (OtherDensity c) ls r) :
    (paramsD cosin r).length = ((free ls).map RLyr.mac).length ∧ Allowed c (paramsD cosin r) := by
  obtain ⟨-, h2⟩ := variant_fixed (density_keeps c) h
  refine ⟨by simp [paramsD, h2.length_eq], fun hcon p hpm => ?_⟩
  obtain ⟨l', hl', rfl⟩ := List.mem_map.1 hpm
  obtain ⟨l, hl, t, rfl, ht⟩ := forall₂_mem h2 hl'
  exact mul_nonneg (div_nonneg (hp.1 l hl).le hc.le) (ht hcon)

theorem zipWith_paramsD (cosin : ℝ) (hc : cosin ≠ 0) : ∀ (fl : List RLyr) (ps : List ℝ), ps.length = fl.length →
    (∀ l ∈ fl, 0 < l.t) → (List.zipWith (setDensity cosin) fl ps).map (fun l => l.xin cosin * l.density) = ps
  | [], ps, h, _ => by simpa using (List.length_eq_zero_iff.1 (by simpa using h)).symm
  | l :: fl, [], h, _ => by simp at h
  | l :: fl, p :: ps, h, hp => by
    rw [List.zipWith_cons_cons, List.map_cons, zipWith_paramsD cosin hc fl ps (by simpa using h)
      fun x hx => hp x (List.mem_cons_of_mem _ hx)]
    congr 1
    have h2 := (hp l List.mem_cons_self).ne'
    simp only [RLyr.xin, setDensity, RLyr.density, Option.getD_some]
    field_simp

theorem assign_density (c : Bool) (cosin : ℝ) (hc : 0 < cosin) {ls : List RLyr} (hp : Solid ls) (ps : List ℝ)
    (hl : ps.length = ((free ls).map RLyr.mac).length) (hok : Allowed c ps) :
    Variant (OtherDensity c) ls (assign (setDensity cosin) ls ps) ∧ paramsD cosin (assign (setDensity cosin) ls ps) = ps := by
  rw [List.length_map] at hl
  obtain ⟨h1, h2⟩ := assign_variant (OtherDensity c) (setDensity cosin) (fun _ _ => rfl) ls ps hl (by
    intro l hl p hpm
    exact ⟨_, rfl, fun hcon => div_nonneg (hok hcon p hpm) (div_nonneg (hp.1 l hl).le hc.le)⟩)
  exact ⟨h1, by rw [paramsD, h2]; exact zipWith_paramsD cosin hc.ne' _ _ hl hp.1⟩

/-- C59: the densities that the refinement gives to the layers are the best ones, if the absorbance is computed with them. -/
theorem density_best (s : Solvers) (hs : s.Good) (cosin : ℝ) (hc : 0 < cosin) (ls : List RLyr) (hp : Solid ls)
    (hfree : free ls ≠ []) (es y : List ℝ) (hl : es.length = y.length) (hbig : y.length ≠ 1 ∨ (free ls).length ≠ 1)
    (constraint : Bool) (r0 : List RLyr) (hr0 : Variant (OtherDensity constraint) ls r0)
    (hbest : ∀ r, Variant (OtherDensity constraint) ls r →
      misfit (layerAbsorbance cosin r0) es y ≤ misfit (layerAbsorbance cosin r) es y) :
    ∃ ls', refine s (setDensity cosin) cosin ls es y false constraint = .ok ls' ∧
      Variant (OtherDensity constraint) ls ls' ∧
      ∀ r, Variant (OtherDensity constraint) ls r →
        misfit (layerAbsorbance cosin ls') es y ≤ misfit (layerAbsorbance cosin r) es y := by
  set cols := ((free ls).map RLyr.mac).map fun f => es.map f with hcols
  set x := if constraint then s.nonneg cols (remaining cosin ls es y) else s.lstsq cols (remaining cosin ls es y) with hx
  obtain ⟨⟨hx1, hx2⟩, hmin⟩ := best_of (Allowed constraint) cosin ls es y hl ((free ls).map RLyr.mac)
    (Variant (OtherDensity constraint) ls) (layerAbsorbance cosin) (paramsD cosin)
    (fun r hr => density_absorbance constraint cosin hp hr) (fun r hr => density_params constraint cosin hc hp hr)
    (fun ps h1 h2 => ⟨_, assign_density constraint cosin hc hp ps h1 h2⟩) x
    (solver_ok s hs constraint _ _) r0 hr0 hbest
  obtain ⟨hv, hpar⟩ := assign_density constraint cosin hc hp x hx1 hx2
  refine ⟨assign (setDensity cosin) ls x, ?_, hv, fun r hr => ?_⟩
  · unfold refine
    rw [cols_eq, ← hcols, refineLinear_big _ _ _ _ _ (by
      rw [remaining_length _ _ _ _ hl]; simpa [hcols] using hbig)]
    have hne : cols ≠ [] := by simpa [hcols] using hfree
    cases constraint <;> simp [hne, hx] <;> rfl
  · rw [density_absorbance constraint cosin hp hv, hpar]
    exact hmin r hr

end SC.Multilayer
