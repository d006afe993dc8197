import Verif.Diode.ChargeLemmas
import Verif.Diode.Props
/-! # C55: the charge per photon at the sample -/
namespace SC.Diode
open SC.Linop (F)
open SC.Lut (Lut)

variable {K : Type} [Field K] [LinearOrder K] [IsStrictOrderedRing K]

/-- The charge per photon at the sample accounts for the current: whatever the intensity in front of
the diode, the photons that reach the sample times the charge are the current of the photons in the
diode. -/
def Accounts (d : Diode K) (lines : List (K × K)) (cs : K) : Prop :=
  ∀ I0, sampleFlux d lines I0 * cs = photoCurrent d lines I0

/-- Photons reach the sample. -/
def Reaches (d : Diode K) (lines : List (K × K)) : Prop := sampleFlux d lines 1 ≠ 0

theorem reaches_iff (d : Diode K) (lines : List (K × K)) :
    Reaches d lines ↔ (lines.map fun l => l.2 * reaching d l.1).sum ≠ 0 := by
  rw [Reaches, sampleFlux_eq, one_mul]

theorem charge_eq {d : Diode K} (hs : isSimple d = false) {e : List K} {w : Option (List K)} {lines : List (K × K)}
    (hr : reshape e w = .ok lines) (hne : e ≠ []) :
    charge d e w = (detectionRates d lines).bind (csOf d lines) ∧
    reshape (lines.map Prod.fst) (some (lines.map Prod.snd)) = .ok lines := by
  obtain ⟨-, h1⟩ := reshape_spec hr hne
  refine ⟨?_, reshape_again lines h1⟩
  simp only [charge, hr, Except.bind, hs, Bool.false_eq_true, if_false]

/-- **C55.**  With a secondary target the charge per photon accounts for the current, for any number of
source lines. -/
theorem charge_target {d : Diode K} {g : Target K} (hg : d.target = some g) (hs : isSimple d = false)
    (ho : OpticsOk d) {e : List K} {w : Option (List K)} {lines : List (K × K)}
    (hr : reshape e w = .ok lines) (hne : e ≠ []) (h0 : Reaches d lines) :
    ∃ cs, charge d e w = .ok cs ∧ Accounts d lines cs := by
  obtain ⟨hc, ha⟩ := charge_eq hs hr hne
  have h0' := (reaches_iff d lines).mp h0
  have hd : detectionRates d lines
      = .ok ((g.spectrum lines).map Prod.fst, (g.spectrum lines).map fun l => d.solidangle * l.2) := by
    simp only [detectionRates, ha, Except.map, hg]
  rw [hc, hd]
  refine ⟨_, csOf_ok ho lines _ (sumProduct_target d (g.spectrum lines) d.solidangle) h0', ?_⟩
  intro I0
  rw [sampleFlux_eq, photoCurrent, arriving, hg, mul_assoc, mul_div_cancel₀ _ h0', ← sum_scale]
  simp only [List.map_map]
  congr 1
  apply List.map_congr_left
  intro l _
  simp only [Function.comp_apply]
  ring

theorem charge_direct {d : Diode K} (hg : d.target = none) (hs : isSimple d = false)
    (ho : OpticsOk d) {e : List K} {w : Option (List K)} {lines : List (K × K)}
    (hr : reshape e w = .ok lines) (hne : e ≠ []) (h0 : Reaches d lines) :
    charge d e w = .ok ((lines.map fun l => l.2 * d.fsource l.1 * d.fdet l.1).sum * (e.map (pairs d)).sum /
      (lines.map fun l => l.2 * reaching d l.1).sum) := by
  obtain ⟨hc, ha⟩ := charge_eq hs hr hne
  have h0' := (reaches_iff d lines).mp h0
  have hd : detectionRates d lines
      = .ok (e, [(lines.map fun l => l.2 * d.fsource l.1 * d.fdet l.1).sum]) := by
    simp only [detectionRates, ha, Except.map, hg]
    rw [(reshape_spec hr hne).1]
  rw [hc, hd]
  exact csOf_ok ho lines _ (sumProduct_direct d e _) h0'

/-- **C55** (partial: one source line).  A diode in the beam. -/
theorem charge_direct_line_partial {d : Diode K} (hg : d.target = none) (hs : isSimple d = false)
    (ho : OpticsOk d) {E : K} {w : Option (List K)} {lines : List (K × K)}
    (hr : reshape [E] w = .ok lines) (h0 : Reaches d lines) :
    ∃ cs, charge d [E] w = .ok cs ∧ Accounts d lines cs := by
  refine ⟨_, charge_direct hg hs ho hr (by simp) h0, ?_⟩
  have h0' := (reaches_iff d lines).mp h0
  obtain ⟨h1, -⟩ := reshape_spec hr (by simp)
  intro I0
  rw [sampleFlux_eq, photoCurrent, arriving, hg, mul_assoc, mul_div_cancel₀ _ h0']
  obtain ⟨l, rfl⟩ : ∃ l, lines = [l] := List.length_eq_one_iff.mp (by simpa using congrArg List.length h1)
  simp only [List.map_cons, List.map_nil, List.cons.injEq, and_true] at h1
  subst h1
  simp
  ring

/-- Sums of products of positive numbers. -/
theorem sum_mul_lt (l : List (K × K)) (f g : K × K → K) (hf : ∀ a ∈ l, 0 < f a) (hg : ∀ a ∈ l, 0 < g a) :
    (l.map fun a => f a * g a).sum ≤ (l.map f).sum * (l.map g).sum ∧
    (2 ≤ l.length → (l.map fun a => f a * g a).sum < (l.map f).sum * (l.map g).sum) ∧
    0 ≤ (l.map f).sum ∧ 0 ≤ (l.map g).sum ∧ (l ≠ [] → 0 < (l.map f).sum ∧ 0 < (l.map g).sum) := by
  induction l with
  | nil => simp
  | cons a l ih =>
    obtain ⟨h1, -, h3, h4, h5⟩ := ih (fun b hb => hf b (by simp [hb])) (fun b hb => hg b (by simp [hb]))
    have fa := hf a (by simp)
    have ga := hg a (by simp)
    simp only [List.map_cons, List.sum_cons, List.length_cons]
    have e : (f a + (l.map f).sum) * (g a + (l.map g).sum)
        = f a * g a + (l.map f).sum * (l.map g).sum + (f a * (l.map g).sum + (l.map f).sum * g a) := by ring
    have p1 : 0 ≤ f a * (l.map g).sum := mul_nonneg fa.le h4
    have p2 : 0 ≤ (l.map f).sum * g a := mul_nonneg h3 ga.le
    refine ⟨by rw [e]; linarith, ?_, by linarith, by linarith, fun _ => ⟨by linarith, by linarith⟩⟩
    intro hl
    have hne : l ≠ [] := by rintro rfl; simp at hl
    have p3 : 0 < f a * (l.map g).sum := mul_pos fa (h5 hne).2
    rw [e]; linarith

/-- **C55**, failing: for a diode in the beam and several source lines the charge per photon is too large,
so that the flux at the sample is underestimated.  The rates of all lines together are multiplied
with the charge of every line. -/
theorem charge_direct_lines_over {d : Diode K} (hg : d.target = none) (hs : isSimple d = false)
    (ho : OpticsOk d) {e : List K} {w : Option (List K)} {lines : List (K × K)}
    (hr : reshape e w = .ok lines) (hne : 2 ≤ e.length) (hw : ∀ l ∈ lines, 0 < l.2)
    (hpos : ∀ a ∈ e, 0 < d.fsource a ∧ 0 < d.fdet a ∧ 0 < pairs d a ∧ 0 < reaching d a) :
    ∃ cs, charge d e w = .ok cs ∧ ∀ I0, 0 < I0 → photoCurrent d lines I0 < sampleFlux d lines I0 * cs := by
  have hne' : e ≠ [] := by rintro rfl; simp at hne
  obtain ⟨h1, -⟩ := reshape_spec hr hne'
  have hl : ∀ l ∈ lines, l.1 ∈ e := fun l h => by rw [← h1]; exact List.mem_map_of_mem h
  have hlen : lines.length = e.length := by rw [← h1, List.length_map]
  have hlne : lines ≠ [] := by rintro rfl; simp at hlen; omega
  have h0' : 0 < (lines.map fun l => l.2 * reaching d l.1).sum :=
    ((sum_mul_lt lines (fun l => l.2 * reaching d l.1) (fun _ => 1)
      (fun l h => mul_pos (hw l h) (hpos _ (hl l h)).2.2.2) (fun _ _ => one_pos)).2.2.2.2 hlne).1
  refine ⟨_, charge_direct hg hs ho hr hne' ((reaches_iff d lines).mpr h0'.ne'), ?_⟩
  intro I0 hI
  rw [sampleFlux_eq, photoCurrent, arriving, hg, mul_assoc, mul_div_cancel₀ _ h0'.ne']
  have key := (sum_mul_lt lines (fun l => l.2 * d.fsource l.1 * d.fdet l.1) (fun l => pairs d l.1)
    (fun l h => mul_pos (mul_pos (hw l h) (hpos _ (hl l h)).1) (hpos _ (hl l h)).2.1)
    (fun l h => (hpos _ (hl l h)).2.2.1)).2.1 (by omega)
  have e1 : (e.map (pairs d)).sum = (lines.map fun l => pairs d l.1).sum := by
    rw [← h1, List.map_map]; rfl
  have e2 : (((lines.map fun l => (l.1, I0 * l.2 * (d.fsource l.1 * d.fdet l.1)))).map
      fun l => l.2 * pairs d l.1).sum = I0 * (lines.map fun l => l.2 * d.fsource l.1 * d.fdet l.1 * pairs d l.1).sum := by
    rw [← sum_scale, List.map_map]
    congr 1
    apply List.map_congr_left
    intro l _
    simp only [Function.comp_apply]
    ring
  rw [e1]
  simp only [e2]
  exact mul_lt_mul_of_pos_left key hI

/-- **C55.**  The weights of the lines at the sample are the fractions of the photons there, for a diode in front
of the sample. -/
theorem sample_weights {d : Diode K} (hs : isSimple d = false) (hb : d.beforesample = true) (ho : OpticsOk d)
    {e : List K} {w : Option (List K)} {lines : List (K × K)}
    (hr : reshape e w = .ok lines) (h0 : Reaches d lines) (I0 : K) (hI : I0 ≠ 0) :
    ∃ v, sampleWeights d e w = .ok v ∧ v.sum = 1 ∧
      v = lines.map fun l => sampleFlux d [l] I0 / sampleFlux d lines I0 := by
  have h0' := (reaches_iff d lines).mp h0
  refine ⟨(lines.map fun l => l.2 * reaching d l.1).map fun a => a / (lines.map fun l => l.2 * reaching d l.1).sum, ?_, ?_, ?_⟩
  · simp only [sampleWeights, hr, Except.bind, hs, hb, Bool.not_true, Bool.or_self, Bool.false_eq_true,
      if_false, mapM_lines ho, if_neg h0']
  · rw [sum_div, div_self h0']
  · rw [List.map_map]
    apply List.map_congr_left
    intro l _
    simp only [Function.comp_apply, sampleFlux_eq, List.map_cons, List.map_nil, List.sum_cons, List.sum_nil, add_zero]
    field_simp

/-- **C55.**  The weights given are normalized; other lengths than that of the energies raise ValueError. -/
theorem line_weights (e v : List K) :
    (∀ lines, reshape e (some v) = .ok lines → e ≠ [] → lines.map Prod.fst = e ∧ (lines.map Prod.snd).sum = 1 ∧
      lines.map Prod.snd = v.map fun a => a / v.sum) ∧
    (e.length ≠ v.length → reshape e (some v) = .error .valueError) := by
  constructor
  · intro lines h hne
    obtain ⟨h1, h2⟩ := reshape_spec h hne
    refine ⟨h1, h2, ?_⟩
    simp only [reshape] at h
    split at h
    · cases h
    · rename_i hl
      split at h
      · cases h
      · simp only [Except.ok.injEq] at h
        subst h
        rw [List.map_snd_zip (by simp at hl; simp [hl])]
  · intro h; simp [reshape, h]

/-- A diode behind a secondary target in front of the sample, for the examples. -/
def exampleTarget : Diode ℚ :=
  { exampleDiode with
    beforesample := true
    optics := [.filter fun _ => 1 / 2, .lut (Lut.clear 1)]
    target := some ⟨fun l => l.map fun l => (l.1 - 1, l.2 / 10), fun _ => 4 / 5⟩ }

theorem exampleTarget_ok : OpticsOk exampleTarget := by
  intro o ho e
  have : o = .filter (fun _ => 1 / 2) ∨ o = .lut (Lut.clear 1) := by
    simpa [exampleTarget] using ho
  rcases this with rfl | rfl
  · exact ⟨_, rfl⟩
  · exact ⟨1, rfl⟩

theorem exampleDiode_ok : OpticsOk exampleDiode := by
  intro o ho e
  have : o ∈ ([] : List (Optic ℚ)) := ho
  cases this

example : ∃ cs, charge exampleTarget [6, 7] (some [1, 3]) = .ok cs ∧ Accounts exampleTarget [(6, 1 / 4), (7, 3 / 4)] cs :=
  charge_target (g := ⟨_, _⟩) rfl rfl exampleTarget_ok (by decide +kernel) (by simp)
    (by norm_num [Reaches, sampleFlux, reaching, exampleTarget, exampleDiode, opticOf, Lut.call, Lut.clear, Lut.isempty])

example : ∃ cs, charge exampleDiode [6] none = .ok cs ∧ Accounts exampleDiode [(6, 1)] cs :=
  charge_direct_line_partial rfl rfl exampleDiode_ok (by decide +kernel)
    (by norm_num [Reaches, sampleFlux, reaching, exampleDiode])

/-- Two equal lines double the charge. -/
example : charge exampleDiode [6] none = .ok (1 / 2) ∧ charge exampleDiode [6, 6] none = .ok 1 := by
  constructor <;> decide +kernel

example : ∃ cs, charge exampleDiode [6, 7] none = .ok cs ∧
    ∀ I0, 0 < I0 → photoCurrent exampleDiode [(6, 1 / 2), (7, 1 / 2)] I0 < sampleFlux exampleDiode [(6, 1 / 2), (7, 1 / 2)] I0 * cs :=
  charge_direct_lines_over rfl rfl exampleDiode_ok (by decide +kernel) (by simp)
    (by simp) (by
      intro a ha
      simp only [List.mem_cons, List.not_mem_nil, or_false] at ha
      rcases ha with rfl | rfl <;> norm_num [exampleDiode, pairs, reaching])

example := sample_weights (d := exampleTarget) rfl rfl exampleTarget_ok (e := [6, 7]) (w := some [1, 3])
  (lines := [(6, 1 / 4), (7, 3 / 4)]) (by decide +kernel)
  (by norm_num [Reaches, sampleFlux, reaching, exampleTarget, exampleDiode, opticOf, Lut.call, Lut.clear, Lut.isempty])
  5 (by norm_num)

example : reshape ([1, 2] : List ℚ) (some [1]) = .error .valueError := (line_weights _ _).2 (by simp)

end SC.Diode
