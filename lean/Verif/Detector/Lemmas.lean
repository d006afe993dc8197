import Verif.Detector.Spec
import Mathlib.Tactic.Ring
import Mathlib.Tactic.Linarith
/-! # Sums over the attenuators -/
namespace SC.Detector
open SC.Py

variable {M : Type}

/-- The sum of `f` over the attenuators whose name has `p`. -/
def tot (p : Str → Bool) (f : Att M → ℝ) (d : Dict Str (Att M)) : ℝ :=
  ((d.filter fun q => p q.1).map fun q => f q.2).sum

theorem tot_cons (p : Str → Bool) (f : Att M → ℝ) (q : Str × Att M) (d : Dict Str (Att M)) :
    tot p f (q :: d) = (if p q.1 then f q.2 else 0) + tot p f d := by
  unfold tot
  rw [List.filter_cons]
  split <;> simp

theorem tot_set (p : Str → Bool) (f : Att M → ℝ) (d : Dict Str (Att M)) (k : Str) (v : Att M) :
    tot p f (Dict.set d k v) = tot p f d + (if p k then f v - ((Dict.get? d k).map f).getD 0 else 0) := by
  induction d with
  | nil =>
    rw [show Dict.set [] k v = [(k, v)] from rfl, tot_cons]
    simp [Dict.get?, tot]
  | cons q d ih =>
    obtain ⟨x, w⟩ := q
    simp only [Dict.set, Dict.get?]
    by_cases h : x = k
    · subst h
      simp only [if_true, tot_cons, Option.map_some, Option.getD_some]
      split <;> ring
    · simp only [h, if_false, tot_cons, ih]
      ring

theorem tot_filter (p r : Str → Bool) (f : Att M → ℝ) (d : Dict Str (Att M)) :
    tot p f (d.filter fun q => r q.1) = tot (fun n => p n && r n) f d := by
  unfold tot
  rw [List.filter_filter]

theorem tot_false (f : Att M → ℝ) (p : Str → Bool) (d : Dict Str (Att M)) (h : ∀ q ∈ d, p q.1 = false) : tot p f d = 0 := by
  unfold tot
  rw [List.filter_eq_nil_iff.mpr]
  · rfl
  · intro q hq; simp [h q hq]

/-- The atmosphere does not count where its name does not. -/
theorem tot_refresh (p : Str → Bool) (hp : p atmLabel = false) (f : Att M → ℝ) (s : State M) :
    tot p f (refresh s).atts = tot p f s.atts := by
  unfold refresh
  split
  · rfl
  · simp [addAttenuator, tot_set, hp]

theorem atm_not_beam : isBeam atmLabel = false := by decide +kernel

theorem atm_not_det : isDet atmLabel = false := by decide +kernel

theorem det_not_beam : isBeam detLabel = false := by decide +kernel

section
variable (absorb : M → ℝ → ℝ → ℝ)

theorem absorbance_eq (s : State M) (e : ℝ) (source : Bool) :
    filterAbsorbance absorb s e source
      = tot (fun n => if source then isBeam n else isDet n) (fun a => absorb a.1 e a.2) s.atts := by
  have h : tot (fun n => if source then isBeam n else isDet n) (fun a => absorb a.1 e a.2) s.atts
      = tot (fun n => if source then isBeam n else isDet n) (fun a => absorb a.1 e a.2) (refresh s).atts := by
    rw [tot_refresh]
    cases source
    · exact atm_not_det
    · exact atm_not_beam
  rw [h]
  cases source <;> simp only [filterAbsorbance, beamFilters, detFilters, tot, if_true, Bool.false_eq_true, if_false]
  · split
    · simp [List.map_map, Function.comp_def]
    · rename_i h; simp only [ne_eq, List.map_eq_nil_iff, not_not] at h; simp [h]
  · split
    · simp [List.map_map, Function.comp_def]
    · rename_i h; simp only [ne_eq, List.map_eq_nil_iff, not_not] at h; simp [h]

theorem transmission_eq (s : State M) (e : ℝ) (source : Bool) :
    filterTransmission absorb s e source
      = Real.exp (-tot (fun n => if source then isBeam n else isDet n) (fun a => absorb a.1 e a.2) s.atts) := by
  rw [filterTransmission, absorbance_eq]

theorem transmission_add (s : State M) (n : Str) (a : Att M) (e : ℝ) (source : Bool) :
    filterTransmission absorb (addAttenuator s n a) e source *
        (if (if source then isBeam n else isDet n) then factorOf absorb s n e else 1)
      = filterTransmission absorb s e source *
        (if (if source then isBeam n else isDet n) then Real.exp (-absorb a.1 e a.2) else 1) := by
  rw [transmission_eq, transmission_eq]
  generalize hp : (fun n => if source then isBeam n else isDet n) = p
  have hn : (if source then isBeam n else isDet n) = p n := by rw [← hp]
  simp only [hn, addAttenuator, tot_set, factorOf]
  cases p n
  · simp
  · simp only [if_true]
    cases Dict.get? s.atts n with
    | none => simp only [Option.map_none, Option.getD_none, mul_one, ← Real.exp_add]; congr 1; ring
    | some w => simp only [Option.map_some, Option.getD_some, ← Real.exp_add]; congr 1; ring

end

theorem material_set (s : State M) (n : Str) (a : Att M) (h : n ≠ detLabel) : material (addAttenuator s n a) = material s := by
  have ha : atmLabel ≠ detLabel := by decide
  have key : ∀ s : State M, material s = Dict.get? s.atts detLabel := by
    intro s
    unfold material refresh
    split
    · rfl
    · simp only [addAttenuator, Dict.get?_set, if_neg ha]
  rw [key, key]
  simp only [addAttenuator, Dict.get?_set, if_neg h]

theorem material_eq (s : State M) : material s = Dict.get? s.atts detLabel := by
  have ha : atmLabel ≠ detLabel := by decide
  unfold material refresh
  split
  · rfl
  · simp only [addAttenuator, Dict.get?_set, if_neg ha]

theorem get?_filter_keep {V : Type} (d : Dict Str V) (r : Str → Bool) {k : Str} (h : r k = true) :
    Dict.get? (d.filter fun q => r q.1) k = Dict.get? d k := by
  induction d with
  | nil => rfl
  | cons q d ih =>
    rw [List.filter_cons]
    by_cases hq : q.1 = k
    · rw [if_pos (by rw [hq]; exact h)]
      simp only [Dict.get?, hq, if_true]
    · split
      · simp only [Dict.get?, hq, if_false, ih]
      · simp only [Dict.get?, hq, if_false, ih]

theorem removeAll (ns : List Str) (s : State M) :
    (ns.foldl removeAttenuator s).atts = s.atts.filter (fun q => !decide (q.1 ∈ ns)) ∧
    (ns.foldl removeAttenuator s).air = s.air := by
  induction ns generalizing s with
  | nil => simp [List.filter_eq_self]
  | cons n ns ih =>
    obtain ⟨h1, h2⟩ := ih (removeAttenuator s n)
    simp only [List.foldl_cons]
    refine ⟨?_, by rw [h2]; rfl⟩
    rw [h1]
    simp only [removeAttenuator, Dict.del, List.filter_filter]
    apply List.filter_congr
    intro q _
    simp only [List.mem_cons, decide_not]
    by_cases h : q.1 = n <;> simp [h]

theorem remove_names (d : Dict Str (Att M)) (p : Str → Bool) :
    d.filter (fun q => !decide (q.1 ∈ (d.map Prod.fst).filter p)) = d.filter fun q => !p q.1 := by
  apply List.filter_congr
  intro q hq
  have : q.1 ∈ d.map Prod.fst := List.mem_map_of_mem hq
  simp [List.mem_filter, this]

end SC.Detector
