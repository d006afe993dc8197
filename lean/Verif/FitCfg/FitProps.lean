import Verif.FitCfg.Props
/-! # C73: regions and fits at several energies -/
namespace SC.FitCfg
open SC.Py

/-! ## Values per energy -/

/-- **C73.**  One value for all energies, or one for each; any other number of values raises. -/
theorem expand_spec {α : Type} (n : Nat) (a : Arg α) (l : List α) :
    expand n a = some l ↔ match a with
      | .scalar x => l = List.replicate n x
      | .list v => (∃ x, v = [x] ∧ l = List.replicate n x) ∨ (v.length ≠ 1 ∧ v.length = n ∧ l = v) := by
  cases a with
  | scalar x => simp [expand, eq_comm]
  | list v =>
    match v with
    | [] =>
      simp only [expand]
      by_cases h : 0 = n
      · subst h; simp [eq_comm]
      · simp [h]
    | [x] => simp [expand, eq_comm]
    | x :: y :: r =>
      simp only [expand]
      by_cases h : (x :: y :: r).length = n
      · rw [if_pos h]
        simp only [Option.some.injEq]
        constructor
        · intro h'; right; exact ⟨by simp, h, h'.symm⟩
        · rintro (⟨z, hz, _⟩ | ⟨_, _, h'⟩)
          · simp at hz
          · exact h'.symm
      · rw [if_neg h]
        constructor
        · intro h'; cases h'
        · rintro (⟨z, hz, _⟩ | ⟨_, h', _⟩)
          · simp at hz
          · exact absurd h' h

theorem expand_length {α : Type} (n : Nat) (a : Arg α) (l : List α) (h : expand n a = some l) : l.length = n := by
  have := (expand_spec n a l).1 h
  cases a with
  | scalar x => rw [this]; simp
  | list v =>
    rcases this with ⟨x, _, rfl⟩ | ⟨_, h, rfl⟩
    · simp
    · exact h

/-! ## Regions -/

theorem sum_range_slice (f : Nat → Rat) (n a b : Nat) (hb : b ≤ n) :
    ((((List.range n).map f).take b).drop a).sum = (((List.range n).filter fun x => decide (a ≤ x ∧ x < b)).map f).sum := by
  congr 1
  rw [← List.map_take, ← List.map_drop]
  congr 1
  have h1 : (List.range n).take b = List.range b := by rw [List.take_range, Nat.min_eq_left hb]
  rw [h1]
  clear h1
  induction n generalizing b with
  | zero =>
    have : b = 0 := by omega
    subst this; simp
  | succ n ih =>
    rw [List.range_succ, List.filter_append]
    by_cases hbn : b ≤ n
    · rw [ih b hbn]
      have : ¬ (a ≤ n ∧ n < b) := by omega
      simp [this]
    · have hb' : b = n + 1 := by omega
      subst hb'
      rw [List.range_succ]
      have h2 : (List.range n).filter (fun x => decide (a ≤ x ∧ x < n + 1)) = (List.range n).filter (fun x => decide (a ≤ x ∧ x < n)) := by
        apply List.filter_congr
        intro x hx
        have := List.mem_range.1 hx
        apply decide_eq_decide.2
        constructor <;> rintro ⟨h1, h2⟩ <;> exact ⟨h1, by omega⟩
      rw [h2, ← ih n (le_refl n)]
      by_cases ha : a ≤ n
      · rw [List.drop_append_of_le_length (by simpa using ha)]
        simp [ha]
      · rw [List.drop_eq_nil_of_le (by simp; omega), List.drop_eq_nil_of_le (by simp; omega)]
        simp [ha]

/-- **C73.**  The region of a spectrum: the counts in all channels from its start to before its end, divided by the
normalization of the energy. -/
theorem roi_spec (s : Stack) (rois : List (Name × Int × Int)) (norm : Option (Arg Rat)) (ns : List Rat) (hn : expandNorm s.nenergies norm = some ns) :
    ∃ ret, performRoi s rois norm = some ret ∧ ret.map Prod.fst = rois.map Prod.fst ∧
    ∀ (k : Nat) (name : Name) (a b : Nat), rois[k]? = some (name, (a : Int), (b : Int)) → b ≤ s.nchannels →
      ∃ f, ret[k]? = some (name, f) ∧ ∀ (j i : Nat), f j i = div (some ((((List.range s.nchannels).filter fun x => decide (a ≤ x ∧ x < b)).map (s.data i j)).sum)) ns[j]? := by
  unfold performRoi
  rw [hn]
  refine ⟨_, rfl, by simp [Function.comp_def], ?_⟩
  intro k name a b hk hb
  rw [List.getElem?_map, hk]
  refine ⟨_, rfl, fun j i => ?_⟩
  have h1 : bound s.nchannels (b : Int) = b := by unfold bound; rw [if_neg (by omega)]; simp; omega
  simp only [channels]
  by_cases ha : a ≤ s.nchannels
  · have h2 : bound s.nchannels (a : Int) = a := by unfold bound; rw [if_neg (by omega)]; simp; omega
    rw [h1, h2, sum_range_slice _ _ _ _ hb]
  · have h2 : bound s.nchannels (a : Int) = s.nchannels := by unfold bound; rw [if_neg (by omega)]; simp; omega
    rw [h1, h2, List.drop_eq_nil_of_le (by simp), List.filter_eq_nil_iff.2 (by intro x hx; have := List.mem_range.1 hx; simp; omega)]
    rfl

/-- **C73.**  Negative limits count from the end. -/
theorem roi_negative (n : Nat) (i : Int) (h1 : i < 0) (h2 : -n ≤ i) : (bound n i : Int) = n + i := by
  unfold bound
  rw [if_pos h1]
  omega

/-! ## Fits -/

/-- Writing one number. -/
structure Write where
  k : Name
  j : Nat
  i : Nat
  v : Val

def doPut (ret : Dict Name (Nat → Nat → Val)) (w : Write) : Dict Name (Nat → Nat → Val) := put ret w.k w.j w.i w.v

theorem value_put (ret : Dict Name (Nat → Nat → Val)) (w : Write) (k : Name) (j i : Nat) :
    value (doPut ret w) k j i = if w.k = k ∧ j = w.j ∧ i = w.i then w.v else value ret k j i := by
  unfold value doPut put
  rw [Dict.get?_set]
  by_cases h : w.k = k
  · subst h
    rw [if_pos rfl]
    simp
  · rw [if_neg h]
    simp [h]

theorem keys_put (ret : Dict Name (Nat → Nat → Val)) (w : Write) (k : Name) :
    ((doPut ret w).get? k).isSome ↔ w.k = k ∨ (ret.get? k).isSome := by
  unfold doPut put
  rw [Dict.get?_set]
  by_cases h : w.k = k <;> simp [h]

theorem writes_value (ws : List Write) (k : Name) (j i : Nat) (v : Val) (hv : ∀ w ∈ ws, w.k = k → w.j = j → w.i = i → w.v = v)
    (ret : Dict Name (Nat → Nat → Val)) (h : value ret k j i = v ∨ ∃ w ∈ ws, w.k = k ∧ w.j = j ∧ w.i = i) : value (ws.foldl doPut ret) k j i = v := by
  induction ws generalizing ret with
  | nil =>
    rcases h with h | ⟨w, hw, _⟩
    · exact h
    · cases hw
  | cons w ws ih =>
    apply ih (fun w' hw' => hv w' (by simp [hw']))
    rw [value_put]
    by_cases hk : w.k = k ∧ j = w.j ∧ i = w.i
    · left
      rw [if_pos hk]
      exact hv w (by simp) hk.1 hk.2.1.symm hk.2.2.symm
    · rw [if_neg hk]
      rcases h with h | ⟨w', hw', h1, h2, h3⟩
      · left; exact h
      · rcases List.mem_cons.1 hw' with rfl | hw'
        · exact absurd ⟨h1, h2.symm, h3.symm⟩ hk
        · right; exact ⟨w', hw', h1, h2, h3⟩

theorem writes_keys (ws : List Write) (k : Name) (ret : Dict Name (Nat → Nat → Val)) :
    ((ws.foldl doPut ret).get? k).isSome ↔ (∃ w ∈ ws, w.k = k) ∨ (ret.get? k).isSome := by
  induction ws generalizing ret with
  | nil => simp
  | cons w ws ih =>
    rw [List.foldl_cons, ih, keys_put]
    simp only [List.mem_cons, exists_eq_or_imp]
    rw [← or_assoc, or_comm (a := ∃ w ∈ ws, w.k = k)]

/-- What is written for one spectrum. -/
def writesOf (norm : Val) (j i : Nat) (r : Fit) : List Write :=
  r.areas.map (fun x => ⟨x.1, j, i, div (some x.2) norm⟩) ++ [⟨kChisq, j, i, some r.chisq⟩]

theorem store_writes (norm : Val) (j i : Nat) (r : Fit) (ret : Dict Name (Nat → Nat → Val)) :
    store norm j i r ret = (writesOf norm j i r).foldl doPut ret := by
  unfold store writesOf
  rw [List.foldl_append, List.foldl_map]
  rfl

theorem foldl_flat {α β γ : Type} (g : β → γ → β) (f : α → List γ) (l : List α) (b : β) :
    l.foldl (fun b a => (f a).foldl g b) b = (l.flatMap f).foldl g b := by
  induction l generalizing b with
  | nil => rfl
  | cons a l ih => rw [List.foldl_cons, List.flatMap_cons, List.foldl_append, ih]

theorem fitFiles_writes (fit : Config → (Nat → Rat) → Fit) (s : Stack) (cfg : Config) (norm : Val) (j : Nat) (ret : Dict Name (Nat → Nat → Val)) :
    fitFiles fit s cfg norm j ret = ((List.range s.nfiles).flatMap fun i => writesOf norm j i (fit cfg (s.data i j))).foldl doPut ret := by
  unfold fitFiles
  simp only [store_writes]
  exact foldl_flat _ _ _ _

/-- All energies, each with the configuration adapted from the first one. -/
theorem fitEnergies_writes (fit : Config → (Nat → Rat) → Fit) (s : Stack) (h : Rat) (hh : h = 0 ∨ 1 < h) (ml : List (Name × List Name))
    (hs : ∀ x ∈ ml, kM ∉ x.2) (fast : Bool) (es : List Val) (ns : List Rat) (cfg0 : Config) (cfgs : Nat → Config) (js : List Nat)
    (he : ∀ j ∈ js, ∃ e, es[j]? = some (some e) ∧ 0 < e ∧ adapt (some e) h ml none fast cfg0 = some (cfgs j))
    (cfg : Config) (hcfg : cfg = cfg0 ∨ ∃ e, 0 < e ∧ adapt (some e) h ml none fast cfg0 = some cfg) (ret : Dict Name (Nat → Nat → Val)) :
    fitEnergies fit s h ml fast es ns js cfg ret =
      some ((js.flatMap fun j => (List.range s.nfiles).flatMap fun i => writesOf ns[j]? j i (fit (cfgs j) (s.data i j))).foldl doPut ret) := by
  induction js generalizing cfg ret with
  | nil => rfl
  | cons j js ih =>
    obtain ⟨e, he1, he2, he3⟩ := he j (by simp)
    have had : adapt (es[j]?).join h ml none fast cfg = some (cfgs j) := by
      rw [he1]
      simp only [Option.join]
      rcases hcfg with rfl | ⟨e', he', hc⟩
      · exact he3
      · have := adapt_twice e' e h he' he2 hh ml hs fast cfg0 cfg hc
        rw [← he3]
        exact this
    unfold fitEnergies
    rw [had]
    simp only
    rw [ih (fun j' hj' => he j' (by simp [hj'])) (cfgs j) (Or.inr ⟨e, he2, he3⟩), fitFiles_writes, List.flatMap_cons, List.foldl_append]

theorem lookup_mem (l : List (Name × Rat)) (hn : (l.map Prod.fst).Nodup) (k : Name) (a : Rat) (h : (k, a) ∈ l) : l.lookup k = some a := by
  induction l with
  | nil => cases h
  | cons x l ih =>
    obtain ⟨k', a'⟩ := x
    rw [List.map_cons, List.nodup_cons] at hn
    rcases List.mem_cons.1 h with h' | h'
    · cases h'; simp [List.lookup]
    · have : k ≠ k' := by
        rintro rfl
        exact hn.1 (List.mem_map.2 ⟨_, h', rfl⟩)
      rw [List.lookup_cons]
      have hb : (k == k') = false := by simpa using this
      rw [hb]
      exact ih hn.2 h'

/-- **C73.**  Fits at several energies: the result of a group for an energy and a file is the area in the fit of that spectrum with
the configuration adapted to that energy, divided by the normalization of the energy, and zero when that fit does not
have the group; chi squared is not normalized; there are results exactly for the groups of the fits.  The configurations
are adapted one from the other, but each is the original one adapted to its energy. -/
theorem fit_spec (fit : Config → (Nat → Rat) → Fit) (hnd : ∀ c y, ((fit c y).areas.map Prod.fst).Nodup ∧ kChisq ∉ (fit c y).areas.map Prod.fst)
    (s : Stack) (cfg : Config) (energies : Arg Val) (ml : List (Name × List Name)) (hs : ∀ x ∈ ml, kM ∉ x.2) (norm : Option (Arg Rat)) (fast : Bool)
    (h : Rat) (hh : h = 0 ∨ 1 < h) (es : List Val) (hes : expand s.nenergies energies = some es) (ns : List Rat)
    (hns : expandNorm s.nenergies norm = some ns) (cfgs : Nat → Config)
    (he : ∀ j < s.nenergies, ∃ e, es[j]? = some (some e) ∧ 0 < e ∧ adapt (some e) h ml none fast cfg = some (cfgs j)) :
    ∃ ret, performFit fit s cfg energies ml norm fast h = some ret ∧
    (∀ (j i : Nat), j < s.nenergies → i < s.nfiles →
      value ret kChisq j i = some (fit (cfgs j) (s.data i j)).chisq ∧
      ∀ k, k ≠ kChisq → value ret k j i = ((fit (cfgs j) (s.data i j)).areas.lookup k).elim (some 0) fun a => div (some a) ns[j]?) ∧
    ∀ k, (ret.get? k).isSome ↔ ∃ (j i : Nat), j < s.nenergies ∧ i < s.nfiles ∧ (k = kChisq ∨ k ∈ (fit (cfgs j) (s.data i j)).areas.map Prod.fst) := by
  have hmain := fitEnergies_writes fit s h hh ml hs fast es ns cfg cfgs (List.range s.nenergies)
    (fun j hj => he j (List.mem_range.1 hj)) cfg (Or.inl rfl) []
  refine ⟨_, by unfold performFit; rw [hes, hns]; exact hmain, ?_, ?_⟩
  · intro j i hj hi
    have hmem : ∀ w : Write, w ∈ ((List.range s.nenergies).flatMap fun j => (List.range s.nfiles).flatMap fun i => writesOf ns[j]? j i (fit (cfgs j) (s.data i j))) ↔
        w.j < s.nenergies ∧ w.i < s.nfiles ∧ w ∈ writesOf ns[w.j]? w.j w.i (fit (cfgs w.j) (s.data w.i w.j)) := by
      intro w
      have hji : ∀ (j i : Nat), w ∈ writesOf ns[j]? j i (fit (cfgs j) (s.data i j)) → w.j = j ∧ w.i = i := by
        intro j i hw
        unfold writesOf at hw
        rcases List.mem_append.1 hw with hw | hw
        · obtain ⟨x, _, rfl⟩ := List.mem_map.1 hw; exact ⟨rfl, rfl⟩
        · rw [List.mem_singleton.1 hw]; exact ⟨rfl, rfl⟩
      simp only [List.mem_flatMap, List.mem_range]
      constructor
      · rintro ⟨j', hj', i', hi', hw⟩
        obtain ⟨h1, h2⟩ := hji j' i' hw
        subst h1 h2
        exact ⟨hj', hi', hw⟩
      · rintro ⟨h1, h2, h3⟩
        exact ⟨_, h1, _, h2, h3⟩
    constructor
    · apply writes_value
      · intro w hw h1 h2 h3
        obtain ⟨_, _, hw⟩ := (hmem w).1 hw
        rw [h2, h3] at hw
        unfold writesOf at hw
        rcases List.mem_append.1 hw with hw | hw
        · obtain ⟨x, hx, rfl⟩ := List.mem_map.1 hw
          simp only at h1
          exact absurd (List.mem_map.2 ⟨x, hx, h1⟩) (hnd _ _).2
        · rw [List.mem_singleton.1 hw]
      · right
        refine ⟨⟨kChisq, j, i, some (fit (cfgs j) (s.data i j)).chisq⟩, (hmem _).2 ⟨hj, hi, ?_⟩, rfl, rfl, rfl⟩
        simp [writesOf]
    · intro k hk
      apply writes_value
      · intro w hw h1 h2 h3
        obtain ⟨_, _, hw⟩ := (hmem w).1 hw
        rw [h2, h3] at hw
        unfold writesOf at hw
        rcases List.mem_append.1 hw with hw | hw
        · obtain ⟨x, hx, rfl⟩ := List.mem_map.1 hw
          simp only at h1
          subst h1
          rw [lookup_mem _ (hnd _ _).1 x.1 x.2 hx]
          rfl
        · rw [List.mem_singleton.1 hw] at h1
          exact absurd h1.symm hk
      · cases hl : (fit (cfgs j) (s.data i j)).areas.lookup k with
        | none => left; rfl
        | some a =>
          right
          have hm : (k, a) ∈ (fit (cfgs j) (s.data i j)).areas := by
            have := List.lookup_eq_some_iff.1 hl
            obtain ⟨l1, l2, h1, _⟩ := this
            rw [h1]; simp
          refine ⟨⟨k, j, i, div (some a) ns[j]?⟩, (hmem _).2 ⟨hj, hi, ?_⟩, rfl, rfl, rfl⟩
          unfold writesOf
          exact List.mem_append_left _ (List.mem_map.2 ⟨(k, a), hm, rfl⟩)
  · intro k
    rw [writes_keys]
    have h0 : (Dict.get? ([] : Dict Name (Nat → Nat → Val)) k).isSome = false := rfl
    rw [h0]
    simp only [List.mem_flatMap, List.mem_range, Bool.false_eq_true, or_false]
    constructor
    · rintro ⟨w, ⟨j, hj, i, hi, hw⟩, rfl⟩
      refine ⟨j, i, hj, hi, ?_⟩
      unfold writesOf at hw
      rcases List.mem_append.1 hw with hw | hw
      · obtain ⟨x, hx, rfl⟩ := List.mem_map.1 hw
        right; exact List.mem_map.2 ⟨x, hx, rfl⟩
      · rw [List.mem_singleton.1 hw]; left; rfl
    · rintro ⟨j, i, hj, hi, hk⟩
      rcases hk with rfl | hk
      · exact ⟨⟨kChisq, j, i, some (fit (cfgs j) (s.data i j)).chisq⟩, ⟨j, hj, i, hi, by simp [writesOf]⟩, rfl⟩
      · obtain ⟨x, hx, rfl⟩ := List.mem_map.1 hk
        exact ⟨⟨x.1, j, i, div (some x.2) ns[j]?⟩, ⟨j, hj, i, hi, by unfold writesOf; exact List.mem_append_left _ (List.mem_map.2 ⟨x, hx, rfl⟩)⟩, rfl⟩

/-! ## A case -/

/-- A configuration to try. -/
def exCfg : Config := ⟨exLines, [], ⟨0, [], 0, 0, 45, 45, 90⟩, ⟨1, 1, 1, 1⟩, 0, some 1, 1, false⟩

/-- A fit that gives the first energy times the first channel. -/
def exFit (c : Config) (y : Nat → Rat) : Fit := ⟨[(['A'], (((active c.lines).head?.bind (·.energy)).getD 0) * y 0)], y 1⟩

/-- Spectra to try. -/
def exStack : Stack := ⟨1, 2, 3, fun i j c => i + 2 * j + c + 1⟩

example : (performFit exFit exStack exCfg (.list [some 8, some 9]) [] (some (.scalar 2)) false 0).map
    (fun r => [value r ['A'] 0 0, value r ['A'] 1 0, value r kChisq 1 0]) = some [some 4, some (27 / 2), some 4] := by decide +kernel

example : (performRoi exStack [(['r'], 1, 3)] none).map (fun r => r.map fun x => (x.2 0 0, x.2 1 0)) = some [(some 5, some 9)] := by decide +kernel

/-- **C73, deviation.**  After an energy, one that is not finite is fitted with the lines of the previous energy. -/
theorem fit_keeps_energy : ((performFit exFit exStack exCfg (.list [some 8, none]) [] none false 0).map fun r => value r ['A'] 1 0) = some (some 24) ∧
    ((performFit exFit exStack exCfg (.list [none, none]) [] none false 0).map fun r => value r ['A'] 1 0) = some (some 21) := by
  constructor <;> decide +kernel

/-- **C73, deviation.**  Without the flag of the strategy in the configuration only fast fits are possible. -/
theorem strategy_missing (E : Val) (h : Rat) (ml : List (Name × List Name)) (c : Config) (hc : c.strategy = none) :
    adapt E h ml none false c = none := by
  cases hd : adapt E h ml none false c with
  | none => rfl
  | some d =>
    have h1 := (adapt_spec E h ml false c d hd).2.2.2.2.1 rfl
    unfold adapt at hd
    cases hs : adaptSource E h c with
    | none => rw [hs] at hd; cases hd
    | some c1 =>
      rw [hs] at hd
      simp only at hd
      split at hd
      · rename_i hcond
        simp only [Option.some.injEq] at hd
        rw [hd, h1.2, hc] at hcond
        simp at hcond
      · cases hd

/-- **C73.**  An adapted configuration has an energy, a weight and a scatter flag for every line. -/
theorem adapt_lengths (E : Val) (h : Rat) (ml : List (Name × List Name)) (q : Option Quant) (fast : Bool) (c d : Config)
    (hd : adapt E h ml q fast c = some d) :
    d.lines.energy.length = d.lines.flag.length ∧ d.lines.weight.length = d.lines.flag.length ∧ d.lines.scatter.length = d.lines.flag.length := by
  unfold adapt at hd
  cases hs : adaptSource E h c with
  | none => rw [hs] at hd; cases hd
  | some c1 =>
    rw [hs] at hd
    simp only at hd
    split at hd
    · rename_i hcond
      cases hd
      simp only [sameLength, Bool.and_eq_true, beq_iff_eq] at hcond
      exact ⟨hcond.2.1.1, hcond.2.1.2, hcond.2.2⟩
    · cases hd

end SC.FitCfg
