import Verif.Xmimsim.Model
import Mathlib.Tactic.Ring
import Mathlib.Tactic.Linarith
import Mathlib.Tactic.FieldSimp
/-! # C91: simulations with xmimsim -/
namespace SC.Xmimsim
open SC.Py

/-- The slits of a point source give the requested beam size at the sample (similar triangles), and leave room
before and after them. -/
theorem beam_size (d b : Rat) (atm : Bool) (hd : 0 < d) :
    let s := setup d b atm
    s.sourceSize = 0 ∧ s.slitWidth / s.slitDistance * s.sourceDistance = b ∧ 0 < s.slitDistance ∧ s.slitDistance < s.sourceDistance := by
  refine ⟨rfl, ?_, ?_, ?_⟩
  · simp only [setup]; field_simp
  · simp only [setup]; linarith
  · simp only [setup]; linarith

/-- The layer of reference (counted from one) is the first of the sample. -/
theorem first_layer {α : Type} (atmosphere : List α) (sample : List α) (x : α) (d b : Rat) (h : atmosphere.length ≤ 1) :
    (atmosphere ++ x :: sample)[(setup d b (!atmosphere.isEmpty)).layer - 1]? = some x := by
  match atmosphere, h with
  | [], _ => rfl
  | [a], _ => rfl

theorem layerName_inj {i j : Nat} (h : layerName i = layerName j) : i = j :=
  Naming.pad_inj (List.append_cancel_left h)

theorem padFrom_get {α : Type} (unused : α) (k i : Nat) (d : Dict Str α) (n : Str) :
    (∀ j, i ≤ j → j < i + k → n ≠ layerName j) → Dict.get? (padFrom unused k i d) n = Dict.get? d n := by
  induction k generalizing i d with
  | zero => intro _; rfl
  | succ k ih =>
    intro h
    unfold padFrom
    rw [ih (i + 1) _ fun j h1 h2 => h j (by omega) (by omega), Dict.get?_set, if_neg (h i (by omega) (by omega)).symm]

theorem padFrom_set {α : Type} (unused : α) (k i : Nat) (d : Dict Str α) (j : Nat) (h1 : i ≤ j) (h2 : j < i + k) :
    Dict.get? (padFrom unused k i d) (layerName j) = some unused := by
  induction k generalizing i d with
  | zero => omega
  | succ k ih =>
    unfold padFrom
    by_cases hj : j = i
    · subst hj
      rw [padFrom_get unused k (j + 1) _ _ fun j' h3 _ h => by have := layerName_inj h; omega, Dict.get?_set, if_pos rfl]
    · exact ih (i + 1) _ (by omega) (by omega)

/-- With layers numbered from zero, the configured ones are kept and there are at least ten, the added ones
without use; nothing else is added. -/
theorem layers_padded {α : Type} (unused : α) (d : Dict Str α) (hne : d ≠ [])
    (hk : ∀ n, n ∈ Dict.keys d ↔ ∃ i, i < d.length ∧ n = layerName i) :
    (∀ n v, Dict.get? d n = some v → Dict.get? (padLayers unused d) n = some v) ∧
    (∀ i, d.length ≤ i → i < 10 → Dict.get? (padLayers unused d) (layerName i) = some unused) ∧
    (∀ n, n ∈ Dict.keys (padLayers unused d) → ∃ i, i < max d.length 10 ∧ n = layerName i) := by
  have he : d.isEmpty = false := by cases d <;> simp_all
  unfold padLayers
  simp only [he, Bool.false_eq_true, if_false]
  have keep : ∀ n, n ∈ Dict.keys d → Dict.get? (padFrom unused (10 - d.length) d.length d) n = Dict.get? d n := by
    intro n hn
    obtain ⟨i, hi, rfl⟩ := (hk n).mp hn
    exact padFrom_get unused _ _ d _ fun j h1 _ h => by have := layerName_inj h; omega
  refine ⟨?_, ?_, ?_⟩
  · intro n v h
    rw [keep n, h]
    rw [← Dict.get?_isSome, h]; rfl
  · intro i h1 h2
    exact padFrom_set unused _ _ d i h1 (by omega)
  · intro n hn
    by_cases hx : ∃ i, d.length ≤ i ∧ i < d.length + (10 - d.length) ∧ n = layerName i
    · obtain ⟨i, h1, h2, rfl⟩ := hx
      exact ⟨i, by omega, rfl⟩
    · have : n ∈ Dict.keys d := by
        rw [← Dict.get?_isSome] at hn ⊢
        rwa [padFrom_get unused _ _ d n fun j h1 h2 h => hx ⟨j, h1, h2, h⟩] at hn
      obtain ⟨i, hi, e⟩ := (hk n).mp this
      exact ⟨i, by omega, e⟩

/-- A layer that is numbered otherwise is lost: a single layer with number one. -/
theorem layers_lost : Dict.get? (padLayers "unused" [(layerName 1, "iron")]) (layerName 1) = some "unused" := by decide +kernel

/-- Configured attenuators are kept, the missing ones of the three are added. -/
theorem attenuators_padded {α : Type} (unused : α) (d : Dict Str α) (n : Str) :
    Dict.get? (padAttenuators unused d) n = match Dict.get? d n with
      | some v => some v
      | none => if n = "BeamFilter0".toList ∨ n = "BeamFilter1".toList ∨ n = "Absorber".toList then some unused else none := by
  have step : ∀ (d : Dict Str α) (m : Str),
      Dict.get? (ensure unused d m) n =
        match Dict.get? d n with
        | some v => some v
        | none => if n = m then some unused else none := by
    intro d m
    unfold ensure
    cases hm : Dict.get? d m with
    | some v =>
      simp only
      cases hn : Dict.get? d n with
      | some w => rfl
      | none =>
        rw [if_neg]
        rintro rfl
        rw [hm] at hn; cases hn
    | none =>
      simp only
      rw [Dict.get?_set]
      by_cases h : m = n
      · subst h; simp [hm]
      · rw [if_neg h]
        cases hn : Dict.get? d n with
        | some w => rfl
        | none => simp [Ne.symm h]
  unfold padAttenuators
  generalize "BeamFilter0".toList = a, "BeamFilter1".toList = b, "Absorber".toList = c
  simp only [List.foldl]
  rw [step, step, step]
  cases Dict.get? d n with
  | some v => rfl
  | none =>
    simp only
    by_cases h0 : n = a
    · simp [h0]
    · by_cases h1 : n = b
      · rw [if_neg h0, if_pos h1]
        simp [h1]
      · simp [h0, h1]

/-- What should be run. -/
def plan (runxrmc : Bool) : List Prog :=
  [.xmimsimPymca, .xmso2xmsi] ++ if runxrmc then [.xmsi2xrmc, .xrmc] else []

/-- Success means that all programs ran and succeeded; otherwise the last one started is the first that
failed. -/
theorem run_spec (ok : Prog → Bool) (x : Bool) :
    (run ok x).2 <+: plan x ∧
    ((run ok x).1 = true → (run ok x).2 = plan x ∧ ∀ p ∈ plan x, ok p = true) ∧
    ((run ok x).1 = false → ∃ l p, (run ok x).2 = l ++ [p] ∧ ok p = false ∧ ∀ q ∈ l, ok q = true) := by
  unfold run plan
  cases h1 : ok .xmimsimPymca
  · exact ⟨by cases x <;> exact ⟨_, rfl⟩, by simp, fun _ => ⟨[], .xmimsimPymca, rfl, h1, by simp⟩⟩
  · cases h2 : ok .xmso2xmsi
    · exact ⟨by cases x <;> exact ⟨_, rfl⟩, by simp, fun _ => ⟨[.xmimsimPymca], .xmso2xmsi, rfl, h2, by simp [h1]⟩⟩
    · cases x
      · exact ⟨⟨_, rfl⟩, by simp [h1, h2], by simp⟩
      · cases h3 : ok .xmsi2xrmc
        · exact ⟨⟨_, rfl⟩, by simp, fun _ => ⟨[.xmimsimPymca, .xmso2xmsi], .xmsi2xrmc, rfl, h3, by simp [h1, h2]⟩⟩
        · cases h4 : ok .xrmc
          · exact ⟨⟨_, rfl⟩, by simp, fun _ => ⟨[.xmimsimPymca, .xmso2xmsi, .xmsi2xrmc], .xrmc, rfl, h4, by simp [h1, h2, h3]⟩⟩
          · exact ⟨⟨_, rfl⟩, by simp [h1, h2, h3, h4], by simp⟩

theorem lastResult_from (ex : Nat → Bool) (n : Nat) (h : ∀ i, 1 ≤ i → i ≤ n → ex i = true) (hn : ex (n + 1) = false) (f i : Nat)
    (hi : i ≤ n) (hf : n - i ≤ f) : lastResult ex f i = n := by
  induction f generalizing i with
  | zero => unfold lastResult; omega
  | succ f ih =>
    unfold lastResult
    by_cases he : i = n
    · subst he; simp [hn]
    · rw [h (i + 1) (by omega) (by omega)]
      simp only [if_true]
      exact ih (i + 1) (by omega) (by omega)

/-- The result with the largest number of interactions is read. -/
theorem last_result (ex : Nat → Bool) (n : Nat) (h : ∀ i, 1 ≤ i → i ≤ n → ex i = true) (hn : ex (n + 1) = false) (f : Nat)
    (hf : n ≤ f) : lastResult ex f 0 = n :=
  lastResult_from ex n h hn f 0 (by omega) (by omega)

/-- It is a result of an earlier simulation in the same directory when that one had more interactions. -/
theorem last_stale (new old : Nat) (h : new < old) (f : Nat) (hf : old ≤ f) :
    lastResult (fun i => decide (1 ≤ i ∧ i ≤ new) || decide (1 ≤ i ∧ i ≤ old)) f 0 = old ∧ old ≠ new := by
  refine ⟨last_result _ old ?_ ?_ f hf, by omega⟩
  · intro i h1 h2; simp [h1, h2]
  · simp; omega

theorem replaceFirst_length (p : Str → Bool) (f : Str → Str) (l : List Str) : (replaceFirst p f l).length = l.length := by
  induction l with
  | nil => rfl
  | cons a l ih => unfold replaceFirst; split <;> simp [ih]

theorem replaceFirst_other (p : Str → Bool) (f : Str → Str) (l : List Str) (i : Nat) (a : Str) (h : l[i]? = some a) (hp : p a = false) :
    (replaceFirst p f l)[i]? = some a := by
  induction l generalizing i with
  | nil => simp at h
  | cons b l ih =>
    unfold replaceFirst
    cases i with
    | zero =>
      simp only [List.getElem?_cons_zero, Option.some.injEq] at h
      subst h
      simp [hp]
    | succ i =>
      simp only [List.getElem?_cons_succ] at h
      split
      · simpa using h
      · simpa using ih i h

theorem replaceFirst_hit (p : Str → Bool) (f : Str → Str) (l : List Str) (i : Nat) (a : Str) (h : l[i]? = some a) (hp : p a = true)
    (hu : ∀ j b, j < i → l[j]? = some b → p b = false) : (replaceFirst p f l)[i]? = some (f a) := by
  induction l generalizing i with
  | nil => simp at h
  | cons b l ih =>
    unfold replaceFirst
    cases i with
    | zero =>
      simp only [List.getElem?_cons_zero, Option.some.injEq] at h
      subst h
      simp [hp]
    | succ i =>
      simp only [List.getElem?_cons_succ] at h
      rw [if_neg (by simp [hu 0 b (by omega) (by simp)])]
      simp only [List.getElem?_cons_succ]
      exact ih i h fun j c hj hc => hu (j + 1) c (by omega) (by simpa using hc)

/-- The patched file has as many lines. -/
theorem patch_length (xmso : Str) (lines : List Str) : (patch xmso lines).length = lines.length := by
  simp [patch, replaceFirst_length]

/-- Lines without an empty output file and without these pulse widths are kept, apart from white space at the
end. -/
theorem patch_other (xmso : Str) (lines : List Str) (i : Nat) (l : Str) (h : lines[i]? = some l)
    (h1 : rstrip l ≠ outEmpty) (h2 : rstrip l ≠ widthZero) (h3 : contains widthEnd (rstrip l) = false) :
    (patch xmso lines)[i]? = some (rstrip l) := by
  unfold patch
  apply replaceFirst_other _ _ _ _ _ _ h3
  apply replaceFirst_other _ _ _ _ _ _ (by simpa using h2)
  apply replaceFirst_other _ _ _ _ _ _ (by simpa using h1)
  simp [h]

/-- The output file is set in the line for it. -/
theorem patch_output (xmso : Str) (hx : contains widthEnd ("    <outputfile>".toList ++ xmso ++ "</outputfile>".toList) = false)
    (lines : List Str) (i : Nat) (l : Str) (h : lines[i]? = some l) (hl : rstrip l = outEmpty)
    (hu : ∀ j b, j < i → lines[j]? = some b → rstrip b ≠ outEmpty) :
    (patch xmso lines)[i]? = some ("    <outputfile>".toList ++ xmso ++ "</outputfile>".toList) := by
  unfold patch
  apply replaceFirst_other _ _ _ _ _ _ hx
  apply replaceFirst_other
  · refine replaceFirst_hit (· == outEmpty) _ _ i outEmpty (by simp [h, hl]) (by simp) ?_
    intro j b hj hb
    rw [List.getElem?_map] at hb
    cases hc : lines[j]? with
    | none => simp [hc] at hb
    | some c =>
      simp only [hc, Option.map_some, Option.some.injEq] at hb
      subst hb
      simpa using hu j c hj hc
  · rw [beq_eq_false_iff_ne]
    intro e
    have := congrArg (fun s : Str => s[5]?) e
    simp only [List.append_assoc] at this
    rw [List.getElem?_append_left (by decide)] at this
    exact absurd this (by decide)

/-- A pulse width of zero, and of the default of xmimsim, becomes tiny. -/
theorem patch_width : patch [] [widthZero] = [widthNew] ∧ patch [] ["    <pulse_width>1e-5</pulse_width>\n".toList] = [widthNew] := by
  decide +kernel

/-- Other pulse widths which end likewise become tiny too. -/
theorem patch_width_other : patch [] ["    <pulse_width>5.1e-5</pulse_width>".toList] = ["    <pulse_width>5.1e-12</pulse_width>".toList] := by
  decide +kernel

/-- In the file of the detector only the noise parameters change, and patching again changes nothing. -/
theorem detector_patched (lines : List Str) :
    patchDetector (patchDetector lines) = patchDetector lines ∧ (patchDetector lines).length = lines.length ∧
    ∀ (i : Nat) (l : Str), lines[i]? = some l → ("FanoFactor".toList.isPrefixOf l = false ∧ "Noise".toList.isPrefixOf l = false →
        (patchDetector lines)[i]? = some l) ∧
      ("FanoFactor".toList.isPrefixOf l = true → (patchDetector lines)[i]? = some "FanoFactor 1e-10\n".toList) ∧
      ("Noise".toList.isPrefixOf l = true → (patchDetector lines)[i]? = some "Noise 1e-10\n".toList) := by
  refine ⟨?_, List.length_map _, ?_⟩
  · unfold patchDetector
    rw [List.map_map]
    apply List.map_congr_left
    intro l _
    simp only [Function.comp]
    by_cases h1 : "FanoFactor".toList.isPrefixOf l = true
    · rw [if_pos h1]; rfl
    · rw [if_neg h1]
      by_cases h2 : "Noise".toList.isPrefixOf l = true
      · rw [if_pos h2]; rfl
      · rw [if_neg h2, if_neg h1, if_neg h2]
  · intro i l h
    refine ⟨?_, ?_, ?_⟩
    · rintro ⟨h1, h2⟩
      simp only [patchDetector, List.getElem?_map, h, Option.map_some]
      rw [if_neg (by rw [h1]; simp), if_neg (by rw [h2]; simp)]
    · intro h1
      simp only [patchDetector, List.getElem?_map, h, Option.map_some]
      rw [if_pos h1]
    · intro h2
      have h1 : ¬ "FanoFactor".toList.isPrefixOf l = true := by
        intro h1
        cases l with
        | nil => simp at h1
        | cons c l =>
          simp at h1 h2
          rw [← h1.1] at h2
          exact absurd h2.1 (by decide)
      simp only [patchDetector, List.getElem?_map, h, Option.map_some]
      rw [if_neg h1, if_pos h2]

/-- Words with one space in between are read back from a line. -/
theorem split_two (a b : Str) (ha : ' ' ∉ a) (hb : ' ' ∉ b) : splitSpace (a ++ ' ' :: b) = [a, b] := by
  have one : ∀ w : Str, ' ' ∉ w → splitSpace w = [w] := by
    intro w
    induction w with
    | nil => intro _; rfl
    | cons c w ih =>
      intro h
      simp only [List.mem_cons, not_or] at h
      unfold splitSpace
      rw [if_neg (Ne.symm h.1), ih h.2]
  induction a with
  | nil => simp [splitSpace, one b hb]
  | cons c a ih =>
    simp only [List.mem_cons, not_or] at ha
    simp only [List.cons_append]
    unfold splitSpace
    rw [if_neg (Ne.symm ha.1), ih ha.2]

/-- Zero and gain are those of the header, and the energy of a channel is linear in it. -/
theorem spe_energy (float : Str → Option Rat) (pre post : List Str) (hp : "$MCA_CAL:".toList ∉ pre) (count a b : Str)
    (ha : ' ' ∉ a) (hb : ' ' ∉ b) (zero gain : Rat) (hz : float a = some zero) (hg : float b = some gain) (ch : Nat) :
    (calibration float (pre ++ "$MCA_CAL:".toList :: count :: (a ++ ' ' :: b) :: post)).bind (fun c => result c ch) =
      some (zero, gain, zero + gain * ch) := by
  have hi : (pre ++ "$MCA_CAL:".toList :: count :: (a ++ ' ' :: b) :: post).findIdx? (· == "$MCA_CAL:".toList) = some pre.length := by
    rw [List.findIdx?_append]
    have : pre.findIdx? (· == "$MCA_CAL:".toList) = none := by
      rw [List.findIdx?_eq_none_iff]
      intro x hx
      rw [beq_eq_false_iff_ne]
      rintro rfl
      exact hp hx
    rw [this]
    simp [List.findIdx?_cons]
  unfold calibration
  rw [hi]
  simp only
  rw [List.getElem?_append_right (by omega)]
  simp only [show pre.length + 2 - pre.length = 2 by omega]
  simp [split_two a b ha hb, hz, hg, result, energyAt]

/-- Without a calibration the energy is the channel. -/
theorem spe_default (float : Str → Option Rat) (header : List Str) (hp : "$MCA_CAL:".toList ∉ header) (ch : Nat) :
    (calibration float header).bind (fun c => result c ch) = some (0, 1, (ch : Rat)) := by
  have : header.findIdx? (· == "$MCA_CAL:".toList) = none := by
    rw [List.findIdx?_eq_none_iff]
    intro x hx
    rw [beq_eq_false_iff_ne]
    rintro rfl
    exact hp hx
  unfold calibration
  rw [this]
  simp [result, energyAt]

/-- Two spaces between the numbers, or a quadratic calibration, can not be read. -/
theorem spe_fails (float : Str → Option Rat) (hf : float [] = none) :
    calibration float ["$MCA_CAL:".toList, "2".toList, "0.0  0.01".toList] = none ∧ ∀ a b c ch, result [a, b, c] ch = none := by
  refine ⟨?_, fun _ _ _ _ => rfl⟩
  have : splitSpace "0.0  0.01".toList = ["0.0".toList, [], "0.01".toList] := by decide
  unfold calibration
  rw [show List.findIdx? (fun x => x == "$MCA_CAL:".toList) ["$MCA_CAL:".toList, "2".toList, "0.0  0.01".toList] = some 0 by decide]
  simp only [Nat.zero_add]
  rw [show (["$MCA_CAL:".toList, "2".toList, "0.0  0.01".toList] : List Str)[2]? = some "0.0  0.01".toList by rfl]
  simp only [this]
  cases h : float "0.0".toList <;> simp [List.mapM_cons, hf, h]

example : ∀ n, n ∈ Dict.keys [(layerName 0, 'a'), (layerName 1, 'b')] ↔ ∃ i, i < 2 ∧ n = layerName i := by
  intro n
  constructor
  · intro h
    simp [Dict.keys] at h
    rcases h with rfl | rfl
    · exact ⟨0, by omega, rfl⟩
    · exact ⟨1, by omega, rfl⟩
  · rintro ⟨i, hi, rfl⟩
    match i, hi with
    | 0, _ => simp [Dict.keys]
    | 1, _ => simp [Dict.keys]

example : patch "o.xmso".toList [outEmpty, "a \n".toList] = ["    <outputfile>o.xmso</outputfile>".toList, "a".toList] := by decide +kernel
example : patchDetector ["Noise 3\n".toList, "X\n".toList] = ["Noise 1e-10\n".toList, "X\n".toList] := by decide +kernel

end SC.Xmimsim
