import Verif.Pymca.Settings
import Mathlib.Tactic.Linarith
/-! # Property C60: the settings survive PyMca's format -/
namespace SC.Pymca
open SC.Py

theorem trunc_int (q : ℚ) (n : Int) (h : q = n) : trunc q = q := by
  subst h
  unfold trunc
  split <;> simp

theorem trunc_trunc (q : ℚ) : trunc (trunc q) = trunc q := by
  unfold trunc
  by_cases h : q < 0
  · rw [if_pos h]
    exact trunc_int _ ⌈q⌉ rfl
  · rw [if_neg h]
    exact trunc_int _ ⌊q⌋ rfl

theorem toInt_int (n : Int) : toInt (n : ℚ) = n := by
  unfold toInt
  split <;> simp

theorem toBool_ofBool (b : Bool) : toBool (ofBool b) = b := by cases b <;> simp [toBool, ofBool]

theorem masked_all (l : List ℚ) (e : List ℚ) (h : l.length = e.length) :
    masked l ((e.map fun _ => (1 : ℚ)).map toBool) = some l := by
  unfold masked
  rw [if_pos (by simpa using h)]
  congr 1
  induction l generalizing e with
  | nil => simp
  | cons a l ih =>
    cases e with
    | nil => simp at h
    | cons b e =>
      have := ih e (by simpa using h)
      simp only [List.map_cons, List.zip_cons_cons, List.filter_cons, toBool] at this ⊢
      simpa using this

theorem masked_wrong (l : List ℚ) (m : List Bool) (h : l.length ≠ m.length) : masked l m = none := if_neg h

/-- The keys that are written. -/
def written : List (String × String) :=
  [("fit", "energy"), ("fit", "energyweight"), ("fit", "energyscatter"), ("fit", "energyflag"), ("fit", "scatterflag"),
   ("concentrations", "flux"), ("concentrations", "time"), ("fit", "stripflag"), ("fit", "stripalgorithm"),
   ("fit", "snipwidth"), ("fit", "continuum"), ("fit", "maxiter"), ("fit", "escapeflag"), ("fit", "sumflag"),
   ("fit", "linearfitflag"), ("concentrations", "usemultilayersecondary"), ("fit", "fitweight")]

/-- Saving and loading gives back all settings in any configuration; the scatter flags become whole
numbers, and lists of different lengths cannot be loaded. -/
theorem settings_roundtrip (h h' : Handle) (c : Config) :
    loadSettings (saveSettings h c) h' =
      if h.weights.length = h.energy.length ∧ h.scatter.length = h.energy.length then
        some { h with scatter := h.scatter.map trunc }
      else none := by
  have hE : getNums (saveSettings h c) "fit" "energy" = some h.energy := by
    simp [getNums, saveSettings, addOther, addLstsq, addBackground, addBeam, Dict.get?_set]
  have hW : getNums (saveSettings h c) "fit" "energyweight" = some h.weights := by
    simp [getNums, saveSettings, addOther, addLstsq, addBackground, addBeam, Dict.get?_set]
  have hS : getNums (saveSettings h c) "fit" "energyscatter" = some (h.scatter.map trunc) := by
    simp [getNums, saveSettings, addOther, addLstsq, addBackground, addBeam, Dict.get?_set]
  have hF : getNums (saveSettings h c) "fit" "energyflag" = some (h.energy.map fun _ => 1) := by
    simp [getNums, saveSettings, addOther, addLstsq, addBackground, addBeam, Dict.get?_set]
  have n1 : getNum (saveSettings h c) "concentrations" "flux" = some h.flux := by
    simp [getNum, saveSettings, addOther, addLstsq, addBackground, addBeam, Dict.get?_set]
  have n2 : getNum (saveSettings h c) "concentrations" "time" = some h.time := by
    simp [getNum, saveSettings, addOther, addLstsq, addBackground, addBeam, Dict.get?_set]
  have n3 : getNum (saveSettings h c) "fit" "stripflag" = some (ofBool h.snip) := by
    simp [getNum, saveSettings, addOther, addLstsq, addBackground, addBeam, Dict.get?_set]
  have n4 : getNum (saveSettings h c) "fit" "continuum" = some (h.continuum : ℚ) := by
    simp [getNum, saveSettings, addOther, addLstsq, addBackground, addBeam, Dict.get?_set]
  have n5 : getNum (saveSettings h c) "fit" "escapeflag" = some (ofBool h.escape) := by
    simp [getNum, saveSettings, addOther, addLstsq, addBackground, addBeam, Dict.get?_set]
  have n6 : getNum (saveSettings h c) "fit" "sumflag" = some (ofBool h.pileup) := by
    simp [getNum, saveSettings, addOther, addLstsq, addBackground, addBeam, Dict.get?_set]
  have n7 : getNum (saveSettings h c) "fit" "linearfitflag" = some (ofBool h.linear) := by
    simp [getNum, saveSettings, addOther, addLstsq, addBackground, addBeam, Dict.get?_set]
  have n8 : getNum (saveSettings h c) "concentrations" "usemultilayersecondary" = some ((h.ninteractions - 1 : Int) : ℚ) := by
    simp [getNum, saveSettings, addOther, addLstsq, addBackground, addBeam, Dict.get?_set]
  have n9 : getNum (saveSettings h c) "fit" "fitweight" = some (ofBool h.noisepropagation) := by
    simp [getNum, saveSettings, addOther, addLstsq, addBackground, addBeam, Dict.get?_set]
  simp only [loadSettings, loadBeam, loadBackground, loadOther, hE, hW, hS, hF, n1, n2, n3, n4, n5, n6, n7, n8, n9,
    Option.bind_eq_bind, Option.bind_some, masked_all h.energy h.energy rfl]
  have hfun : h.scatter.map (trunc ∘ trunc) = h.scatter.map trunc := by
    apply List.map_congr_left
    intro x _
    exact trunc_trunc x
  by_cases h1 : h.weights.length = h.energy.length
  · rw [masked_all h.weights h.energy h1]
    by_cases h2 : h.scatter.length = h.energy.length
    · rw [masked_all ((h.scatter.map trunc).map trunc) h.energy (by simpa using h2), if_pos ⟨h1, h2⟩]
      simp only [Option.bind_some, List.map_map, hfun, toBool_ofBool, toInt_int]
      simp
    · rw [masked_wrong _ _ (by simpa using h2), if_neg (fun h => h2 h.2)]
      rfl
  · rw [masked_wrong _ _ (by simpa using h1), if_neg (fun h => h1 h.1)]
    rfl

/-- Nothing else in the configuration changes. -/
theorem settings_frame (h : Handle) (c : Config) (k : String × String) (hk : k ∉ written) :
    Dict.get? (saveSettings h c) k = Dict.get? c k := by
  simp only [written, List.mem_cons, List.not_mem_nil, or_false, not_or] at hk
  obtain ⟨k1, k2, k3, k4, k5, k6, k7, k8, k9, k10, k11, k12, k13, k14, k15, k16, k17⟩ := hk
  simp only [saveSettings, addOther, addLstsq, addBackground, addBeam, Dict.get?_set, Ne.symm k1, Ne.symm k2, Ne.symm k3,
    Ne.symm k4, Ne.symm k5, Ne.symm k6, Ne.symm k7, Ne.symm k8, Ne.symm k9, Ne.symm k10, Ne.symm k11, Ne.symm k12,
    Ne.symm k13, Ne.symm k14, Ne.symm k15, Ne.symm k16, Ne.symm k17, if_false]

/-- Scattering is switched on in the fit exactly when one of the lines scatters; every line is switched
on. -/
theorem settings_flags (h : Handle) (c : Config) :
    ((∃ s ∈ h.scatter, 1 ≤ |s|) → getNum (saveSettings h c) "fit" "scatterflag" = some 1) ∧
    ((∀ s ∈ h.scatter, |s| < 1) → getNum (saveSettings h c) "fit" "scatterflag" = some 0) ∧
    getNums (saveSettings h c) "fit" "energyflag" = some (List.replicate h.energy.length 1) := by
  have ht : ∀ s : ℚ, toBool (trunc s) = decide (1 ≤ |s|) := by
    intro s
    unfold toBool trunc
    congr 1
    apply propext
    by_cases hs : s < 0
    · rw [if_pos hs, abs_of_neg hs]
      constructor
      · intro h
        have h1 : ⌈s⌉ ≠ 0 := fun e => h (by simp [e])
        have h2 : ⌈s⌉ ≤ 0 := Int.ceil_le.2 (by simpa using hs.le)
        have h3 : ⌈s⌉ ≤ -1 := by omega
        have := Int.ceil_le.1 h3
        push_cast at this
        linarith
      · intro h e
        have h3 : ⌈s⌉ ≤ -1 := Int.ceil_le.2 (by push_cast; linarith)
        have : (⌈s⌉ : ℚ) ≤ -1 := by exact_mod_cast h3
        linarith
    · rw [if_neg hs]
      have hs := not_lt.1 hs
      rw [abs_of_nonneg hs]
      constructor
      · intro h
        have h1 : ⌊s⌋ ≠ 0 := fun e => h (by simp [e])
        have h2 : 0 ≤ ⌊s⌋ := Int.le_floor.2 (by simpa using hs)
        have h3 : 1 ≤ ⌊s⌋ := by omega
        simpa using Int.le_floor.1 h3
      · intro h e
        have h3 : 1 ≤ ⌊s⌋ := Int.le_floor.2 (by simpa using h)
        have : (1 : ℚ) ≤ ⌊s⌋ := by exact_mod_cast h3
        linarith
  have hg : getNum (saveSettings h c) "fit" "scatterflag" = some (ofBool ((h.scatter.map trunc).any toBool)) := by
    simp [getNum, saveSettings, addOther, addLstsq, addBackground, addBeam, Dict.get?_set]
  rw [hg]
  refine ⟨?_, ?_, ?_⟩
  · rintro ⟨s, hs, h1⟩
    have : (h.scatter.map trunc).any toBool = true := by
      rw [List.any_map, List.any_eq_true]
      refine ⟨s, hs, ?_⟩
      rw [Function.comp, ht]
      exact decide_eq_true h1
    rw [this]
    rfl
  · intro h0
    have : (h.scatter.map trunc).any toBool = false := by
      rw [List.any_map, List.any_eq_false]
      intro s hs
      rw [Function.comp, ht]
      simpa using h0 s hs
    rw [this]
    rfl
  · simp [getNums, saveSettings, addOther, addLstsq, addBackground, addBeam, Dict.get?_set, List.map_const']

/-- A loaded beam consists of the lines of the configuration that are switched on, in their order. -/
theorem loadBeam_lines (c : Config) (h h' : Handle) (E W S F : List ℚ) (hl : loadBeam c h = some h')
    (hE : getNums c "fit" "energy" = some E) (hW : getNums c "fit" "energyweight" = some W)
    (hS : getNums c "fit" "energyscatter" = some S) (hF : getNums c "fit" "energyflag" = some F) :
    E.length = F.length ∧ W.length = F.length ∧ S.length = F.length ∧
    h'.energy.zip (h'.weights.zip h'.scatter) =
      (((E.zip (W.zip (S.map trunc))).zip F).filter fun p => decide (p.2 ≠ 0)).map Prod.fst := by
  have hm : ∀ (l : List ℚ) (F : List ℚ) (r : List ℚ), masked l (F.map toBool) = some r →
      l.length = F.length ∧ r = ((l.zip F).filter fun p => decide (p.2 ≠ 0)).map Prod.fst := by
    intro l F r h
    unfold masked at h
    split at h
    · rename_i hlen
      refine ⟨by simpa using hlen, ?_⟩
      obtain rfl := Option.some.inj h
      clear h hlen
      induction l generalizing F with
      | nil => simp
      | cons a l ih =>
        cases F with
        | nil => simp
        | cons f F =>
          have := ih F
          simp only [List.map_cons, List.zip_cons_cons, List.filter_cons, toBool] at this ⊢
          by_cases hf : f = 0
          · simpa [hf] using this
          · simpa [hf] using this
    · simp at h
  simp only [loadBeam, hE, hW, hS, hF, Option.bind_eq_bind, Option.bind_some, Option.bind_eq_some_iff] at hl
  obtain ⟨e, he, w, hw, s, hs, x, _, t, _, hfin⟩ := hl
  obtain rfl := Option.some.inj hfin
  obtain ⟨e1, e2⟩ := hm E F e he
  obtain ⟨w1, w2⟩ := hm W F w hw
  obtain ⟨s1, s2⟩ := hm _ F s hs
  rw [List.length_map] at s1
  refine ⟨e1, w1, s1, ?_⟩
  simp only
  rw [e2, w2, s2]
  clear e2 w2 s2 he hw hs hE hW hS hF
  induction F generalizing E W S with
  | nil => simp
  | cons f F ih =>
    cases E with
    | nil => simp at e1
    | cons a E =>
      cases W with
      | nil => simp at w1
      | cons b W =>
        cases S with
        | nil => simp at s1
        | cons d S =>
          have := ih E W S (by simpa using e1) (by simpa using w1) (by simpa using s1)
          simp only [List.map_cons, List.zip_cons_cons, List.filter_cons] at this ⊢
          by_cases hf : f = 0
          · simpa [hf] using this
          · simpa [hf] using this

/-- What was loaded is loaded again after saving it, into the same or any other configuration. -/
theorem settings_stable (c c' : Config) (h h' h'' : Handle) (hl : loadSettings c h = some h') :
    loadSettings (saveSettings h' c') h'' = some h' := by
  have hlen : ∀ (l : List ℚ) (m : List Bool) (r : List ℚ), masked l m = some r →
      r.length = (m.filter id).length := by
    intro l m r h
    unfold masked at h
    split at h
    · rename_i hl
      obtain rfl := Option.some.inj h
      rw [List.length_map]
      have : ∀ (l : List ℚ) (m : List Bool), l.length = m.length →
          ((l.zip m).filter Prod.snd).length = (m.filter id).length := by
        intro l
        induction l with
        | nil => intro m hm; cases m <;> simp at hm ⊢
        | cons a l ih =>
          intro m hm
          cases m with
          | nil => simp at hm
          | cons b m =>
            have := ih m (by simpa using hm)
            cases b <;> simpa using this
      exact this l m hl
    · simp at h
  simp only [loadSettings, loadBeam, loadBackground, loadOther, Option.bind_eq_bind, Option.bind_eq_some_iff] at hl
  obtain ⟨h1, ⟨f, hf, e0, he0, e, he, w0, hw0, w, hw, s0, hs0, s, hs, fl, hfl, t, ht, hb⟩, h2, ⟨sn, hsn, co, hco, hbk⟩,
    es, hes, pi, hpi, li, hli, n, hn, no, hno, hfin⟩ := hl
  obtain rfl := Option.some.inj hb
  obtain rfl := Option.some.inj hbk
  obtain rfl := Option.some.inj hfin
  rw [settings_roundtrip]
  have l1 := hlen _ _ _ he
  have l2 := hlen _ _ _ hw
  have l3 := hlen _ _ _ hs
  rw [if_pos ⟨by simp only; omega, by simp only; omega⟩]
  have : s.map trunc = s := by
    unfold masked at hs
    split at hs
    · obtain rfl := Option.some.inj hs
      conv_rhs => rw [← List.map_id (List.map Prod.fst _)]
      apply List.map_congr_left
      intro x hx
      obtain ⟨p, hp, rfl⟩ := List.mem_map.1 hx
      have := (List.mem_filter.1 hp).1
      have := (List.of_mem_zip this).1
      obtain ⟨y, _, e⟩ := List.mem_map.1 this
      rw [← e]
      exact trunc_trunc y
    · simp at hs
  simp only [this]

/-- A beam set up with default or common weights and scattering can be loaded again. -/
theorem source_roundtrip (h h' : Handle) (c : Config) (e : List ℚ) (w : Option (List ℚ))
    (hw : ∀ l, w = some l → l.length = e.length) (sc : Scatter) (hs : ∀ l, sc = .each l → l.length = e.length ∧ ∀ x ∈ l, ∃ n : Int, x = n) :
    loadSettings (saveSettings (h.setSource (some e) w sc) c) h' = some (h.setSource (some e) w sc) := by
  rw [settings_roundtrip]
  have key : ∀ l : List ℚ, (∀ x ∈ l, ∃ n : Int, x = n) → l.map trunc = l := by
    intro l hl
    conv_rhs => rw [← List.map_id l]
    apply List.map_congr_left
    intro x hx
    obtain ⟨n, hn⟩ := hl x hx
    exact trunc_int x n hn
  have h1 : (h.setSource (some e) w sc).weights.length = (h.setSource (some e) w sc).energy.length := by
    cases w with
    | none => simp [Handle.setSource]
    | some l => simpa [Handle.setSource] using hw l rfl
  have h2 : (h.setSource (some e) w sc).scatter.length = (h.setSource (some e) w sc).energy.length := by
    cases sc with
    | default => simp [Handle.setSource]
    | all b => simp [Handle.setSource]
    | each l => simpa [Handle.setSource] using (hs l rfl).1
  have h3 : (h.setSource (some e) w sc).scatter.map trunc = (h.setSource (some e) w sc).scatter := by
    apply key
    intro x hx
    cases sc with
    | default =>
      simp only [Handle.setSource, List.mem_map] at hx
      obtain ⟨_, _, rfl⟩ := hx
      exact ⟨1, by simp⟩
    | all b =>
      simp only [Handle.setSource, List.mem_map] at hx
      obtain ⟨_, _, rfl⟩ := hx
      cases b
      · exact ⟨0, by simp⟩
      · exact ⟨1, by simp⟩
    | each l => exact (hs l rfl).2 x hx
  rw [if_pos ⟨h1, h2⟩, h3]

/-- Two lines, one of which scatters. -/
def someHandle : Handle where
  energy := [7, 8]
  weights := [1, 1 / 2]
  scatter := [1, 0]
  flux := 1000
  time := 1 / 10
  snip := true
  continuum := 3
  escape := false
  pileup := true
  linear := false
  ninteractions := 2
  noisepropagation := true

example (c : Config) (h : Handle) : loadSettings (saveSettings someHandle c) h = some someHandle := by
  rw [settings_roundtrip]
  decide +kernel

/-- One weight for two lines: the configuration is written but cannot be loaded. -/
theorem weights_lost (c : Config) (h : Handle) :
    loadSettings (saveSettings (someHandle.setSource (some [7, 8]) (some [1]) .default) c) h = none := by
  rw [settings_roundtrip]
  decide

end SC.Pymca
