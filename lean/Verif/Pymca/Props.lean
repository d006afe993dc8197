import Verif.Pymca.Lemmas
import Mathlib.Tactic.FinCases
/-! # Property C60: materials survive PyMca's format -/
namespace SC.Pymca
open SC.Formula (Str IsSymbol)
open SC.Py
open SC.Compound (compose bcast newDensity)

/-! ## Names -/

/-- The name of a material comes back from the name of its entry, whatever it is (even when it starts
with one of the prefixes itself). -/
theorem nameFrom_pymcaName (n : Str) : nameFrom (pymcaName n) = n := nameFrom_pymcaName' n

/-- The first regular expression matches one or more symbols with numbers and nothing else. -/
theorem looksFormula_iff (s : Str) : looksFormula s = true ↔ FormulaText s := looksFormula_iff' s

/-- The second regular expression matches a symbol with or without the number one, and gives the
symbol. -/
theorem pureElement_iff (e s : Str) : pureElement s = some e ↔ PureText e s := pureElement_iff' e s

/-- Everything that stands for a pure element looks like a formula. -/
theorem pure_is_formula (e s : Str) (h : PureText e s) : FormulaText s := by
  obtain ⟨he, rfl | rfl | rfl | rfl⟩ := h
  · exact symbol_formulaText he
  · exact pureName_formulaText he
  · obtain ⟨ts, h1, h2, h3⟩ := symbol_formulaText he
    have hn := symbol_ne_newline he
    rcases h3 with h3 | h3
    · exact ⟨ts, h1, h2, Or.inr (by rw [← h3])⟩
    · exact absurd rfl (hn '\n' (by rw [h3]; simp))
  · refine ⟨[e ++ ['1']], by simp, ?_, Or.inr (by simp)⟩
    intro t ht
    obtain rfl : t = e ++ ['1'] := by simpa using ht
    refine ⟨e, ['1'], he, ?_, rfl⟩
    intro c hc
    obtain rfl : c = '1' := by simpa using hc
    decide

example : FormulaText "Ca5P3O13H".toList := (looksFormula_iff _).1 (by decide)
example : ¬ FormulaText "mylar".toList := fun h => absurd ((looksFormula_iff _).2 h) (by decide)
example : ¬ FormulaText "Fe(OH)3".toList := fun h => absurd ((looksFormula_iff _).2 h) (by decide)
example : PureText "Fe".toList "Fe1".toList := (pureElement_iff _ _).1 (by decide)

/-! ## The round trip -/

/-- Several materials (the layers of a sample) are saved in any configuration; every one of them that
fits PyMca's format is then loaded unchanged: names, densities, mass fractions and order of all parts, at
any depth. -/
theorem load_saved (P : Params) (ms : List Mat) (c : Cfg) (hc : Consistent (ms.flatMap Mat.nodes)) (m : Mat) (hm : m ∈ ms)
    (d : Option ℚ) (hf : m.Fits P d) (n : Nat) (hn : m.depth < n) :
    load P n (saveAll P ms c) (pymcaName m.name) d = some m := by
  obtain ⟨k, rfl⟩ : ∃ k, n = k + 1 := ⟨n - 1, by omega⟩
  refine load_fits P _ m d hf ?_ k (by omega)
  intro a ha hna
  exact saveAll_get P ms c hc a (List.mem_flatMap.2 ⟨m, hm, ha⟩) hna

/-- `topymca` returns the name under which the material is loaded. -/
theorem save_name (P : Params) (m : Mat) (c : Cfg) : (save P m c).2 = pymcaName m.name := by rw [save_eq]

/-- Saving changes nothing but the entries of the material and of what is inside. -/
theorem save_frame (P : Params) (m : Mat) (c : Cfg) (k : Str) (h : ∀ a ∈ m.nodes, pymcaName a.name ≠ k) :
    Dict.get? (save P m c).1 k = Dict.get? c k := by
  rw [save_eq]
  have : ∀ (l : List Mat) (c : Cfg), (∀ a ∈ l, pymcaName a.name ≠ k) →
      Dict.get? (Dict.update c (l.map (item P))) k = Dict.get? c k := by
    intro l
    induction l with
    | nil => intro c _; rfl
    | cons a l ih =>
      intro c hl
      simp only [List.map_cons, Dict.update, List.foldl_cons] at ih ⊢
      rw [ih _ (fun x hx => hl x (by simp [hx])), Dict.get?_set, item, if_neg (hl a (by simp))]
  exact this _ _ h

/-- The density saved with a mixture is its mass over the sum of the volumes of its parts. -/
theorem save_density (P : Params) (nm : Str) (ps : Parts) (c : Cfg) (h0 : (ps.toList.map fun p => p.2 / p.1.density P).sum ≠ 0) :
    ∃ e, Dict.get? (save P (.mix nm ps) c).1 (pymcaName nm) = some e ∧
      e.density * (ps.toList.map fun p => p.2 / p.1.density P).sum = (ps.toList.map Prod.snd).sum := by
  have hv : ∀ ps : Parts, ps.volumes P = ps.toList.map fun p => p.2 / p.1.density P := by
    intro ps
    induction ps using Parts.rec (motive_1 := fun _ => True) with
    | nil => simp [Parts.volumes, Parts.toList]
    | cons m w r _ ih => simp [Parts.volumes, Parts.toList, ih]
    | _ => trivial
  refine ⟨_, by simp only [save]; rw [Dict.get?_set, if_pos rfl], ?_⟩
  simp only [Mat.density, hv]
  exact div_mul_cancel₀ _ h0

/-! ## What the format cannot hold -/

/-- A name that looks like a formula is all that is read: the configuration does not matter. -/
theorem formula_name_only (P : Params) (n : Nat) (cfg cfg' : Cfg) (nm : Str) (d : Option ℚ) (h : FormulaText nm) :
    load P n cfg (pymcaName nm) d = load P n cfg' (pymcaName nm) d := by
  cases n with
  | zero => rfl
  | succ k =>
    have h' : FormulaText (nameFrom (pymcaName nm)) := by rwa [nameFrom_pymcaName]
    rw [load_formula P k cfg _ d h', load_formula P k cfg' _ d h']

/-- So of all compounds whose name looks like a given formula, at most one is restored. -/
theorem formula_name_one (P : Params) (n : Nat) (c : Cfg) (d : Option ℚ) (nm : Str) (h : FormulaText nm)
    (els els' : List (Str × ℚ)) (ρ ρ' : ℚ)
    (h1 : load P n (save P (.cmpd nm els ρ) c).1 (pymcaName nm) d = some (.cmpd nm els ρ))
    (h2 : load P n (save P (.cmpd nm els' ρ') c).1 (pymcaName nm) d = some (.cmpd nm els' ρ')) :
    els = els' ∧ ρ = ρ' := by
  rw [formula_name_only P n _ (save P (.cmpd nm els' ρ') c).1 nm d h, h2] at h1
  simpa using (Option.some.inj h1).symm

/-- A compound or mixture whose name stands for a pure element is loaded as that element, or not at
all. -/
theorem pure_name_element (P : Params) (n : Nat) (cfg : Cfg) (e nm : Str) (d : Option ℚ) (h : PureText e nm) (m : Mat)
    (hl : load P n cfg (pymcaName nm) d = some m) : m = .elem e := by
  cases n with
  | zero => simp [load] at hl
  | succ k =>
    have h' : FormulaText (nameFrom (pymcaName nm)) := by rw [nameFrom_pymcaName]; exact pure_is_formula e nm h
    rw [load_formula P k cfg _ d h', nameFrom_pymcaName, (pureElement_iff e nm).2 h] at hl
    simp only at hl
    split at hl
    · exact (Option.some.inj hl).symm
    · simp at hl

/-- A compound whose name is a formula gets the density that is given along with the name: inside a
mixture that is the density of the mixture, not its own. -/
theorem formula_density (P : Params) (n : Nat) (cfg : Cfg) (nm : Str) (d : ℚ) (hd : d ≠ 0) (h : FormulaText nm)
    (hp : ∀ e, ¬ PureText e nm) (m : Mat) (hl : load P n cfg (pymcaName nm) (some d) = some m) :
    m.density P = d ∧ m.name = nm := by
  cases n with
  | zero => simp [load] at hl
  | succ k =>
    have h' : FormulaText (nameFrom (pymcaName nm)) := by rwa [nameFrom_pymcaName]
    have hpe : pureElement nm = none := by
      cases h : pureElement nm with
      | none => rfl
      | some e => exact absurd ((pureElement_iff e nm).1 h) (hp e)
    rw [load_formula P k cfg _ _ h', nameFrom_pymcaName, hpe] at hl
    simp only [fromFormula, Option.map_eq_some_iff] at hl
    obtain ⟨c, hc, rfl⟩ := hl
    refine ⟨?_, rfl⟩
    simp only [Mat.density]
    unfold Formula.new at hc
    split at hc
    · simp at hc
    · split at hc
      · simp at hc
      · split at hc
        · simp only [Compound.Cmpd.new, Option.map_eq_some_iff] at hc
          obtain ⟨l, _, rfl⟩ := hc
          simp [newDensity, hd]
        · simp at hc

/-- A mixture of elements only comes back as a compound with the same fractions and density. -/
theorem elements_mixture (P : Params) (c : Cfg) (nm : Str) (els : List (Str × ℚ)) (hn : ¬ FormulaText nm)
    (hels : ∀ p ∈ els, IsSymbol p.1 ∧ P.known p.1 = true) (hfr : Fractions els)
    (hρ : (Mat.mix nm (Parts.ofList (els.map fun p => (.elem p.1, p.2)))).density P ≠ 0) (d : Option ℚ) (n : Nat) (h2 : 2 ≤ n) :
    load P n (save P (.mix nm (Parts.ofList (els.map fun p => (.elem p.1, p.2)))) c).1 (pymcaName nm) d =
      some (.cmpd nm els ((Mat.mix nm (Parts.ofList (els.map fun p => (.elem p.1, p.2)))).density P)) := by
  obtain ⟨k, rfl⟩ : ∃ k, n = k + 1 + 1 := ⟨n - 2, by omega⟩
  generalize hps : Parts.ofList (els.map fun p => (Mat.elem p.1, p.2)) = ps at hρ ⊢
  have hl : ps.toList = els.map fun p => (Mat.elem p.1, p.2) := by rw [← hps]; exact toList_ofList _
  have he : Dict.get? (save P (.mix nm ps) c).1 (pymcaName nm) = some (entry P (.mix nm ps)) := by
    simp only [save]
    rw [Dict.get?_set, if_pos rfl, saves_eq]
    rfl
  rw [load_entry P (k + 1) _ _ d (by rw [nameFrom_pymcaName]; exact hn) _ he, nameFrom_pymcaName]
  have hm : (entry P (.mix nm ps)).comps.mapM
      (fun m => load P (k + 1) (save P (.mix nm ps) c).1 m (some (entry P (.mix nm ps)).density)) =
      some (els.map fun p => Mat.elem p.1) := by
    simp only [entry, hl, List.map_map, List.mapM_map]
    refine mapM_some _ els (fun p => Mat.elem p.1) fun p hp => ?_
    have := load_fits P (save P (.mix nm ps) c).1 (.elem p.1) (some ((Mat.mix nm ps).density P)) (hels p hp)
      (by
        intro a ha hna
        obtain rfl : a = .elem p.1 := by simpa [Mat.nodes] using ha
        exact absurd (symbol_formulaText (hels p hp).1) hna) k (by simp [Mat.depth])
    exact this
  rw [hm]
  simp only [entry, build, hl, List.map_map]
  have hs : (els.map (Prod.snd ∘ fun p : Str × ℚ => (Mat.elem p.1, p.2))) = els.map Prod.snd := by
    simp [Function.comp_def]
  rw [hs, shares_one _ hfr.2]
  have hb : bcast (els.map fun p => Mat.elem p.1) (els.map Prod.snd) = some (els.map fun p => (Mat.elem p.1, p.2)) := by
    have := bcast_zip (els.map fun p => (Mat.elem p.1, p.2))
    simpa [Function.comp_def] using this
  rw [hb]
  have hall : (els.map fun p => Mat.elem p.1).all Mat.isElem = true := by simp [Mat.isElem]
  simp only [Option.map_some, hall, if_true, List.map_map]
  have hid : (els.map ((fun p : Mat × ℚ => (p.1.name, p.2)) ∘ fun p => (Mat.elem p.1, p.2))) = els := by
    simp [Function.comp_def, Mat.name]
  rw [hid, gather_distinct id els (by simpa using hfr.1) hfr.2]
  simp [newDensity, hρ]

/-! ## Cases -/

/-- Six elements with round numbers. -/
def someP : Params where
  strict := false
  known s := s ∈ ["H", "C", "O", "Cl", "Fe", "P", "V"].map String.toList
  MM s := if s = "H".toList then 1 else if s = "C".toList then 12 else if s = "O".toList then 16 else 50
  rho s := if s = "Fe".toList then 8 else 1

/-- Linseed oil without oxygen. -/
def oil : Mat := .cmpd "oil".toList [("C".toList, 3 / 4), ("H".toList, 1 / 4)] (9 / 10)
/-- A pigment in oil. -/
def paint : Mat := .mix "paint".toList (.cons oil (2 / 5) (.cons (.elem "Fe".toList) (3 / 5) .nil))
/-- A varnished paint: a mixture in a mixture, the same oil twice. -/
def coat : Mat := .mix "coat".toList (.cons paint (1 / 2) (.cons oil (1 / 2) .nil))

theorem not_formula {s : Str} (h : looksFormula s = false) : ¬ FormulaText s :=
  fun h' => by rw [(looksFormula_iff s).2 h'] at h; cases h

theorem symbol_of {s : Str} (h : pureElement s = some s) : IsSymbol s := ((pureElement_iff s s).1 h).1

theorem coat_fits (d : Option ℚ) : coat.Fits someP d := by
  have hoil : ∀ d, oil.Fits someP d := by
    intro d
    refine Or.inl ⟨not_formula (by decide), ?_, ⟨by decide, by decide +kernel⟩, by decide +kernel⟩
    intro p hp
    fin_cases hp
    · exact ⟨symbol_of (by decide), by decide⟩
    · exact ⟨symbol_of (by decide), by decide⟩
  refine ⟨not_formula (by decide), ⟨⟨not_formula (by decide), ⟨hoil _, ⟨symbol_of (by decide), by decide⟩, trivial⟩,
    ⟨by decide, by decide +kernel⟩, ⟨(oil, 2 / 5), List.mem_cons_self, rfl⟩⟩, hoil _, trivial⟩,
    ⟨by decide, by decide +kernel⟩, ⟨(oil, 1 / 2), by simp [Parts.toList], rfl⟩⟩

/-- The coat on a layer of iron. -/
example (c : Cfg) : load someP 9 (saveAll someP [coat, .elem "Fe".toList] c) (pymcaName coat.name) none = some coat := by
  refine load_saved someP _ c ?_ coat (by simp) none (coat_fits none) 9 (by decide)
  intro a ha b hb hn e
  simp only [List.flatMap_cons, List.flatMap_nil, coat, paint, oil, Mat.nodes, Parts.nodes, List.append_nil,
    List.nil_append, List.cons_append, List.mem_cons, List.not_mem_nil, or_false] at ha hb
  rcases ha with rfl | rfl | rfl | rfl | rfl | rfl <;> rcases hb with rfl | rfl | rfl | rfl | rfl | rfl <;>
    first | rfl | (exfalso; revert e; decide)

/-- Polyvinyl chloride under its usual name looks like the formula of a phosphorus vanadium carbon
compound, and that is what is loaded. -/
theorem pvc_lost : ∃ els ρ, load someP 5
    (save someP (.cmpd "PVC".toList [("C".toList, 24 / 77), ("H".toList, 3 / 77), ("Cl".toList, 50 / 77)] (7 / 5)) []).1
    (pymcaName "PVC".toList) (some (7 / 5)) = some (.cmpd "PVC".toList els ρ) ∧
    els.map Prod.fst = ["P".toList, "V".toList, "C".toList] :=
  ⟨_, _, rfl, rfl⟩

/-- Water (density one) in iron mud. -/
def mud : Mat := .mix "mud".toList (.cons (.cmpd "H2O".toList [("H".toList, 1 / 9), ("O".toList, 8 / 9)] 1) (1 / 2)
  (.cons (.elem "Fe".toList) (1 / 2) .nil))

/-- The names and densities of the parts of a mixture. -/
def partDensities (P : Params) : Option Mat → List (Str × ℚ)
  | some (.mix _ ps) => ps.toList.map fun p => (p.1.name, p.1.density P)
  | _ => []

/-- The water in the mixture comes back with the density of the mixture. -/
theorem water_density_lost : partDensities someP (some mud) = [("H2O".toList, 1), ("Fe".toList, 8)] ∧
    partDensities someP (load someP 5 (save someP mud []).1 (pymcaName "mud".toList) none) =
      [("H2O".toList, 16 / 9), ("Fe".toList, 8)] := by decide +kernel

/-! ## Any configuration -/

/-- What one level finds, more levels find. -/
theorem load_mono (P : Params) (cfg : Cfg) : ∀ (n : Nat) (s : Str) (d : Option ℚ) (m : Mat),
    load P n cfg s d = some m → ∀ k, load P (n + k) cfg s d = some m := by
  intro n
  induction n with
  | zero => intro s d m h; simp [load] at h
  | succ n ih =>
    intro s d m h k
    have e : n + 1 + k = (n + k) + 1 := by omega
    rw [e]
    by_cases hF : FormulaText (nameFrom s)
    · rw [load_formula P _ cfg s d hF] at h ⊢
      exact h
    · cases he : Dict.get? cfg s with
      | none =>
        have : ¬ looksFormula (nameFrom s) = true := fun h' => hF ((looksFormula_iff _).1 h')
        rw [load] at h
        simp [this, he] at h
      | some e =>
        rw [load_entry P _ cfg s d hF e he] at h ⊢
        cases hm : e.comps.mapM (fun m => load P n cfg m (some e.density)) with
        | none => rw [hm] at h; simp at h
        | some lst =>
          rw [hm] at h
          have : e.comps.mapM (fun m => load P (n + k) cfg m (some e.density)) = some lst := by
            clear h
            generalize e.comps = cs at hm
            induction cs generalizing lst with
            | nil => simpa using hm
            | cons a cs ihc =>
              rw [List.mapM_cons] at hm ⊢
              cases ha : load P n cfg a (some e.density) with
              | none => rw [ha] at hm; simp at hm
              | some x =>
                cases hcs : cs.mapM (fun m => load P n cfg m (some e.density)) with
                | none => rw [ha, hcs] at hm; simp at hm
                | some xs =>
                  rw [ha, hcs] at hm
                  rw [ih a _ x ha k, ihc xs hcs]
                  exact hm
          rw [this]
          exact h

/-- An entry that names itself is never loaded: the recursion does not end. -/
theorem load_cyclic (P : Params) (cfg : Cfg) (s : Str) (hs : ¬ FormulaText (nameFrom s)) (e : Entry)
    (he : Dict.get? cfg s = some e) (hc : s ∈ e.comps) (n : Nat) (d : Option ℚ) : load P n cfg s d = none := by
  induction n generalizing d with
  | zero => rfl
  | succ n ih =>
    rw [load_entry P n cfg s d hs e he]
    have : e.comps.mapM (fun m => load P n cfg m (some e.density)) = none := by
      generalize e.comps = cs at hc
      induction cs with
      | nil => simp at hc
      | cons a cs ihc =>
        rw [List.mapM_cons]
        rcases List.mem_cons.1 hc with rfl | hc
        · rw [ih]; rfl
        · cases load P n cfg a (some e.density) with
          | none => rfl
          | some x => rw [ihc hc]; rfl
    rw [this]

/-- Whatever the entry holds, a loaded material has distinct parts whose mass fractions add up to one, as
soon as there is one fraction per part and they do not add up to zero. -/
theorem load_fractions (P : Params) (n : Nat) (cfg : Cfg) (s : Str) (hs : ¬ FormulaText (nameFrom s)) (e : Entry)
    (he : Dict.get? cfg s = some e) (hlen : e.fracs.length = e.comps.length) (h0 : e.fracs.sum ≠ 0) (d : Option ℚ) (m : Mat)
    (hl : load P n cfg s d = some m) :
    m.name = nameFrom s ∧ ((∃ els ρ, m = .cmpd (nameFrom s) els ρ ∧ Fractions els) ∨
      ∃ ps, m = .mix (nameFrom s) ps ∧ Fractions (ps.toList.map fun p => (p.1.name, p.2))) := by
  have hgen : ∀ {α : Type} (key : α → Str) (l : List (α × ℚ)), (l.map Prod.snd).sum ≠ 0 →
      Fractions ((gather key l).map fun p => (key p.1, p.2)) := by
    intro α key l hl
    have ht : (Compound.vals (compose key l)).sum = (l.map Prod.snd).sum := Compound.total_compose key l
    constructor
    · have := Compound.compose_nodup key l
      simp only [Compound.names] at this
      simpa [gather, Compound.normalize, Function.comp_def] using this
    · have h1 : (((gather key l).map fun p => (key p.1, p.2)).map Prod.snd) =
          (Compound.vals (compose key l)).map fun x => x / (Compound.vals (compose key l)).sum := by
        simp [gather, Compound.normalize, Compound.vals, Function.comp_def]
      rw [h1, ht]
      rw [sum_div, ht, div_self hl]
  cases n with
  | zero => simp [load] at hl
  | succ n =>
    rw [load_entry P n cfg s d hs e he] at hl
    cases hm : e.comps.mapM (fun m => load P n cfg m (some e.density)) with
    | none => rw [hm] at hl; simp at hl
    | some lst =>
      rw [hm] at hl
      have hlen2 : lst.length = e.comps.length := mapM_length _ _ _ hm
      simp only [build, bcast] at hl
      rw [if_pos (by simp [shares, hlen, hlen2])] at hl
      simp only [Option.map_some, Option.some.injEq] at hl
      have hz : ((lst.zip (shares e.fracs)).map Prod.snd).sum ≠ 0 := by
        rw [List.map_snd_zip (by simp [shares, hlen, hlen2]), shares, sum_div, div_self h0]
        exact one_ne_zero
      split at hl
      · subst hl
        refine ⟨rfl, Or.inl ⟨_, _, rfl, ?_⟩⟩
        have := hgen id ((lst.zip (shares e.fracs)).map fun p => (p.1.name, p.2)) (by simpa [Function.comp_def] using hz)
        simpa using this
      · subst hl
        refine ⟨rfl, Or.inr ⟨_, rfl, ?_⟩⟩
        have := hgen Mat.name (lst.zip (shares e.fracs)) hz
        rwa [toList_ofList]

end SC.Pymca
