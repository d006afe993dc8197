import Verif.Diode.Lemmas
import Verif.Diode.Median
import Verif.Lut.Props
import Verif.Fit.Props
/-! # Lemmas for the charge per photon -/
namespace SC.Diode
open SC.Linop (F)
open SC.Lut (Lut)

variable {K : Type} [Field K] [LinearOrder K] [IsStrictOrderedRing K]

/-- A table made by adding and replacing values. -/
def Filled (t : Lut K) : Prop :=
  ∃ d0 ops, (∀ o ∈ ops, o.x.length = o.y.length ∧ o.x ≠ []) ∧ Lut.run (Lut.clear d0) ops = some t

theorem run_append (s : Lut K) (a b : List (Lut.Op K)) :
    Lut.run s (a ++ b) = (Lut.run s a).bind fun t => Lut.run t b := by
  induction a generalizing s with
  | nil => rfl
  | cons o a ih =>
    simp only [List.cons_append, Lut.run]
    split
    · rw [ih]
    · rfl

theorem filled_call (t : Lut K) (ht : Filled t) (e : K) : ∃ v, Lut.call t e = some v := by
  obtain ⟨d0, ops, hops, hrun⟩ := ht
  obtain ⟨s', h1, h2, h3⟩ := Lut.run_rep (Lut.clear d0) _ (Lut.rep_clear d0) ops hops
  rw [hrun] at h1
  simp only [Option.some.injEq] at h1
  subst h1
  rcases h3 with ⟨g1, _⟩ | ⟨xs, ys, g1, _, _, _, _, g6, _⟩
  · exact ⟨t.default, by simp [Lut.call, Lut.isempty, g1]⟩
  · by_cases hl : xs.length = 1
    · exact ⟨ys.getD 0 0, by simp only [Lut.call, Lut.isempty, g1, g6, if_pos hl]; rfl⟩
    · exact ⟨Lut.interp xs ys e, by simp only [Lut.call, Lut.isempty, g1, g6, if_neg hl]; rfl⟩

/-- Replacing values in a table: they are there afterwards. -/
theorem filled_replace (t : Lut K) (ht : Filled t) (x y : List K) (hl : x.length = y.length) (hne : x ≠ [])
    (hnd : x.Nodup) :
    ∃ t', Lut.newData t x y false = (t', none) ∧ Filled t' ∧ Lut.isempty t' = false ∧
      ∀ i (hi : i < x.length), Lut.call t' x[i] = some (y.getD i 0) := by
  obtain ⟨d0, ops, hops, hrun⟩ := ht
  obtain ⟨s, h1, h2, h3⟩ := Lut.run_rep (Lut.clear d0) _ (Lut.rep_clear d0) ops hops
  rw [hrun] at h1
  simp only [Option.some.injEq] at h1
  subst h1
  obtain ⟨t', hn, hd, hrep⟩ := Lut.newData_rep t _ h3 x y false hl hne
  have hops' : ∀ o ∈ ops ++ [(⟨false, x, y⟩ : Lut.Op K)], o.x.length = o.y.length ∧ o.x ≠ [] := by
    intro o ho
    rcases List.mem_append.mp ho with ho | ho
    · exact hops o ho
    · simp only [List.mem_singleton] at ho; subst ho; exact ⟨hl, hne⟩
  have hrun' : Lut.run (Lut.clear d0) (ops ++ [⟨false, x, y⟩]) = some t' := by
    rw [run_append, hrun]
    show Lut.run t [⟨false, x, y⟩] = some t'
    simp only [Lut.run, hn]
  refine ⟨t', hn, ⟨d0, _, hops', hrun'⟩, ?_, ?_⟩
  · rcases hrep with ⟨_, _, _, hc⟩ | ⟨xs, ys, g1, _⟩
    · exfalso
      obtain ⟨a, l, rfl⟩ := List.exists_cons_of_ne_nil hne
      obtain ⟨b, m, rfl⟩ := List.exists_cons_of_ne_nil (l := y) (by rintro rfl; simp at hl)
      have := hc a
      simp [Lut.firstValue] at this
    · simp [Lut.isempty, g1]
  · intro i hi
    rcases hrep with ⟨_, _, _, hc⟩ | ⟨xs, ys, g1, g2, g3, g4, g5, g6, g7⟩
    · exfalso
      obtain ⟨a, l, rfl⟩ := List.exists_cons_of_ne_nil hne
      obtain ⟨b, m, rfl⟩ := List.exists_cons_of_ne_nil (l := y) (by rintro rfl; simp at hl)
      have := hc a
      simp [Lut.firstValue] at this
    · have hf : Lut.firstValue x[i] (xs.zip ys) = some (y.getD i 0) := by
        rw [g7]
        have hzf : (x.zip y).map (·.1) = x := List.map_fst_zip (by omega)
        rw [hzf]
        beta_reduce
        rw [if_pos (List.getElem_mem hi), if_neg (by simp)]
        unfold Lut.firstValue
        have : (x.zip y).find? (fun p => decide (p.1 = x[i])) = some (x[i], y[i]'(by omega)) := by
          rw [List.find?_eq_some_iff_getElem]
          refine ⟨by simp, i, by simp; omega, by simp, ?_⟩
          intro j hj
          simp only [List.getElem_zip, Bool.not_eq_eq_eq_not, Bool.not_true, decide_eq_false_iff_not]
          intro h
          have := (List.nodup_iff_injective_getElem.mp hnd) (a₁ := ⟨j, by omega⟩) (a₂ := ⟨i, hi⟩) h
          simp at this; omega
        rw [this]
        have : i < y.length := by omega
        simp [this]
      unfold Lut.firstValue at hf
      rw [Option.map_eq_some_iff] at hf
      obtain ⟨p, hp, hv⟩ := hf
      have hk : p.1 = x[i] := by simpa using List.find?_some hp
      obtain ⟨j, hj, hpj⟩ := List.mem_iff_getElem.mp (List.mem_of_find?_eq_some hp)
      simp only [List.length_zip] at hj
      simp only [List.getElem_zip] at hpj
      have hxj : xs[j]'(by omega) = x[i] := by rw [← hk, ← hpj]
      have hyj : ys.getD j 0 = y.getD i 0 := by
        rw [← hv, ← hpj]
        have : j < ys.length := by omega
        simp [this]
      have := Lut.lut_call_key d0 _ t' hops' hrun' xs ys g1 g2 j (by omega)
      rw [hxj] at this
      rw [this, hyj]

/-! ## Lines -/

theorem sum_div (w : List K) (c : K) : (w.map fun a => a / c).sum = w.sum / c := by
  induction w with
  | nil => simp
  | cons a w ih => simp only [List.map_cons, List.sum_cons, ih, add_div]

/-- The weights are normalized. -/
theorem reshape_spec {e : List K} {w : Option (List K)} {lines : List (K × K)} (h : reshape e w = .ok lines)
    (hne : e ≠ []) : lines.map Prod.fst = e ∧ (lines.map Prod.snd).sum = 1 := by
  cases w with
  | none =>
    simp only [reshape, Except.ok.injEq] at h
    subst h
    rw [List.map_map, List.map_map]
    refine ⟨by simp [Function.comp_def], ?_⟩
    have hl : (e.length : K) ≠ 0 := by
      have : 0 < e.length := List.length_pos_iff.mpr hne
      exact_mod_cast this.ne'
    have : (e.map (Prod.snd ∘ fun a : K => (a, 1 / (e.length : K)))) = List.replicate e.length (1 / (e.length : K)) := by
      rw [List.eq_replicate_iff]; simp
    rw [this, List.sum_replicate, nsmul_eq_mul]
    field_simp
  | some v =>
    simp only [reshape] at h
    split at h
    · cases h
    · rename_i hl
      split at h
      · cases h
      · rename_i hs
        simp only [ne_eq, not_not] at hl
        simp only [Except.ok.injEq] at h
        subst h
        refine ⟨List.map_fst_zip (by simp [hl]), ?_⟩
        rw [List.map_snd_zip (by simp [hl]), sum_div, div_self hs]

theorem zip_fst_snd (l : List (K × K)) : (l.map Prod.fst).zip (l.map Prod.snd) = l := by
  induction l with
  | nil => rfl
  | cons a l ih => simp [ih]

/-- Normalizing again changes nothing. -/
theorem reshape_again (lines : List (K × K)) (h : (lines.map Prod.snd).sum = 1) :
    reshape (lines.map Prod.fst) (some (lines.map Prod.snd)) = .ok lines := by
  simp only [reshape, List.length_map, ne_eq, not_true_eq_false, if_false, h, one_ne_zero, div_one]
  rw [show ((lines.map Prod.snd).map fun a => a) = lines.map Prod.snd from List.map_id' _]
  rw [zip_fst_snd]

/-! ## Transmissions -/

omit [IsStrictOrderedRing K] in
theorem transLoop_ok (e : K) (os : List (Optic K)) (h : ∀ o ∈ os, ∃ v, opticTrans o e = .ok v) (t : K) :
    transLoop e t os = .ok (t * (os.map (opticOf e)).prod) := by
  induction os generalizing t with
  | nil => simp [transLoop]
  | cons o os ih =>
    obtain ⟨v, hv⟩ := h o (by simp)
    have hv' : opticOf e o = v := by
      cases o with
      | lut t =>
        simp only [opticTrans] at hv
        simp only [opticOf]
        split at hv
        · rename_i u hu; rw [hu]; injection hv
        · cases hv
      | filter T => simp only [opticTrans, Except.ok.injEq] at hv; exact hv
    simp only [transLoop, hv, Except.bind, List.map_cons, List.prod_cons, hv']
    rw [ih (fun o ho => h o (by simp [ho])), mul_assoc]

omit [IsStrictOrderedRing K] in
theorem sourceTrans_ok {d : Diode K} (h : OpticsOk d) (e : K) : sourceTrans d e = .ok (reaching d e) := by
  unfold sourceTrans transOptics
  rw [transLoop_ok e d.optics (fun o ho => h o ho e)]
  simp only [Except.map, one_mul, reaching]
  congr 1
  split
  · cases d.target with
    | none => simp only; ring
    | some g => simp only; ring
  · ring

omit [IsStrictOrderedRing K] in
theorem mapM_lines {d : Diode K} (h : OpticsOk d) (lines : List (K × K)) :
    (lines.mapM fun l => (sourceTrans d l.1).map fun t => l.2 * t) = Except.ok (lines.map fun l => l.2 * reaching d l.1) := by
  induction lines with
  | nil => rfl
  | cons a l ih => rw [List.mapM_cons, ih, sourceTrans_ok h]; rfl

theorem sum_scale (c : K) (l : List (K × K)) (f : K × K → K) : (l.map fun a => c * f a).sum = c * (l.map f).sum := by
  induction l with
  | nil => simp
  | cons a l ih => simp [ih, mul_add]

theorem sampleFlux_eq (d : Diode K) (lines : List (K × K)) (I0 : K) :
    sampleFlux d lines I0 = I0 * (lines.map fun l => l.2 * reaching d l.1).sum := by
  unfold sampleFlux
  rw [← sum_scale]
  congr 1
  apply List.map_congr_left
  intros; ring

theorem csOf_ok {d : Diode K} (h : OpticsOk d) (lines : List (K × K)) (rates : List K × List K) {s : K}
    (hs : sumProduct rates.2 (rates.1.map (chargePerDiode d)) = .ok s)
    (h0 : (lines.map fun l => l.2 * reaching d l.1).sum ≠ 0) :
    csOf d lines rates = .ok (s / (lines.map fun l => l.2 * reaching d l.1).sum) := by
  simp only [csOf, mapM_lines h, Except.bind, hs, if_neg h0]

theorem chargePerDiode_eq (d : Diode K) (e : K) : chargePerDiode d e = pairs d e := by
  simp only [chargePerDiode, pairs]; ring

/-- The sum over the lines of the target. -/
theorem sumProduct_target (d : Diode K) (l : List (K × K)) (c : K) :
    sumProduct (l.map fun l => c * l.2) ((l.map Prod.fst).map (chargePerDiode d))
      = .ok (l.map fun l => c * l.2 * pairs d l.1).sum := by
  simp only [sumProduct, Fit.mulArrays, List.length_map, if_pos]
  congr 1
  congr 1
  induction l with
  | nil => rfl
  | cons a l ih => simp only [List.map_cons, List.zipWith_cons_cons, ih, chargePerDiode_eq]

/-- Without target, the sum of the rates multiplies the charges of all lines. -/
theorem sumProduct_direct (d : Diode K) (e : List K) (r : K) :
    sumProduct [r] (e.map (chargePerDiode d)) = .ok (r * (e.map (pairs d)).sum) := by
  have hs : ∀ e : List K, ((e.map (chargePerDiode d)).map fun b => r * b).sum = r * (e.map (pairs d)).sum := by
    intro e
    induction e with
    | nil => simp
    | cons a e ih => simp only [List.map_cons, List.sum_cons, ih]; rw [chargePerDiode_eq]; ring
  rcases e with - | ⟨a, - | ⟨b, e⟩⟩
  · simp [sumProduct, Fit.mulArrays]
  · simp [sumProduct, Fit.mulArrays, chargePerDiode_eq]
  · have h := hs (a :: b :: e)
    have : Fit.mulArrays [r] ((a :: b :: e).map (chargePerDiode d))
        = some (((a :: b :: e).map (chargePerDiode d)).map fun b => r * b) := by
      rw [Fit.mulArrays, if_neg (by simp), if_pos (by simp)]; rfl
    simp only [sumProduct, this, h]

end SC.Diode
