import Verif.CrossSection.Spec
import Verif.Compound.Elemental
/-! # C42: cross-section trees -/
namespace SC.CrossSection
open SC.Compound

set_option linter.unusedSectionVars false
variable {K : Type} [Field K] [LinearOrder K] [IsStrictOrderedRing K]

/-! ## the specification is consistent -/

/-- contributions below a weight and a name -/
def below (w : K) (k : Option String) (ps : List (List String × List K × K)) : List (Option String × K) :=
  ps.map fun p => (if p.1 = [] then k else p.1.getLast?, w * (p.2.1.prod * p.2.2))

theorem total_below_map (w w' : K) (k : Option String) (n : String) (ps : List (List String × List K × K)) :
    below w k (ps.map fun p => (n :: p.1, w' :: p.2.1, p.2.2)) = below (w * w') (some n) ps := by
  simp only [below, List.map_map]
  refine List.map_congr_left fun p _ => ?_
  simp only [Function.comp, List.prod_cons, reduceCtorEq, if_false]
  congr 1
  · cases h : p.1 with
    | nil => simp
    | cons a l => simp [List.getLast?_cons_cons]
  · ring

theorem below_append (w : K) (k : Option String) (a b : List (List String × List K × K)) :
    below w k (a ++ b) = below w k a ++ below w k b := by simp [below]

mutual
theorem total_below (t : Tree K) (w : K) (k : Option String) : total (below w k t.paths) = w * t.value := by
  cases t with
  | leaf v => simp [Tree.paths, below, total, Tree.value]
  | node l => simp only [Tree.paths, Tree.value]; exact total_below_l l w k
theorem total_below_l (l : Branches K) (w : K) (k : Option String) : total (below w k l.paths) = w * l.value := by
  cases l with
  | nil => simp [Branches.paths, below, total, Branches.value]
  | cons n w' t l =>
    simp only [Branches.paths, Branches.value]
    rw [below_append, total_append, total_below_map, total_below t, total_below_l l]; ring
end

theorem contributions_eq (t : Tree K) : t.contributions = below 1 none t.paths := by
  simp only [Tree.contributions, below]
  refine List.map_congr_left fun p _ => ?_
  split
  · rename_i h; simp [h]
  · simp

/-- **C42.**  The weighted sum is the sum over all leaves of the product of the weights on the path
and the leaf. -/
theorem value_eq_contributions (t : Tree K) : t.value = total t.contributions := by
  rw [contributions_eq, total_below, one_mul]

/-! ## splitting per element -/

mutual
theorem parseElements_eq (t : Tree K) (out : Items (Option String) K) (w : K) (k : Option String) :
    parseElements t.toCS out w k = some (addAll id out (below w k t.paths)) := by
  cases t with
  | leaf v => simp [Tree.toCS, parseElements, Tree.paths, below, addAll]
  | node l => simp only [Tree.toCS, parseElements, Tree.paths]; exact parseElementsItems_eq l out w k
theorem parseElementsItems_eq (l : Branches K) (out : Items (Option String) K) (w : K) (k : Option String) :
    parseElementsItems l.toItems out w = some (addAll id out (below w k l.paths)) := by
  cases l with
  | nil => simp [Branches.toItems, parseElementsItems, Branches.paths, below, addAll]
  | cons n w' t l =>
    simp only [Branches.toItems, parseElementsItems, Branches.paths]
    rw [parseElements_eq t, Option.bind_some, parseElementsItems_eq l _ w k, below_append, total_below_map]
    simp only [addAll, List.foldl_append]
end

/-- **C42.**  For every tree, splitting per element gives every element (last name on a path) the
sum of its contributions; the split adds up to the weighted sum. -/
theorem split_elements (t : Tree K) : ∃ out, parseElements t.toCS [] 1 none = some out ∧
    IsTable id out (t.contributions.map Prod.fst) (amount id t.contributions) ∧ total out = t.value := by
  refine ⟨_, parseElements_eq t [] 1 none, ?_, ?_⟩
  · rw [← contributions_eq]; exact compose_table id t.contributions
  · rw [← contributions_eq, value_eq_contributions]; exact total_compose id t.contributions

/-! ## collapsing -/

theorem collapseItems_eq (l : Branches K) (h : l.depth = 0) : collapseItems l.toItems = l.value := by
  cases l with
  | nil => rfl
  | cons n w t l =>
    simp only [Branches.depth] at h
    have h1 : t.depth = 0 := by omega
    have h2 : l.depth = 0 := by omega
    cases t with
    | leaf v =>
      simp only [Branches.toItems, Tree.toCS, collapseItems, collapse, Branches.value, Tree.value]
      rw [collapseItems_eq l h2]
    | node _ => simp [Tree.depth] at h1

/-- **C42, partial.**  Collapsing gives the weighted sum for trees of at most one level.  Missing
because false: two levels and more (`collapse_wrong`). -/
theorem collapse_partial (t : Tree K) (h : t.depth ≤ 1) : collapse t.toCS = t.value := by
  cases t with
  | leaf v => rfl
  | node l => exact collapseItems_eq l (by simp only [Tree.depth] at h; omega)

theorem parseItems_eq (l : Branches K) (h : l.depth ≤ 1) :
    ∃ ws cs, parseItems l.toItems = some (ws, cs) ∧ (List.zipWith (· * ·) ws cs).sum = l.value := by
  cases l with
  | nil => exact ⟨[], [], rfl, rfl⟩
  | cons n w t l =>
    simp only [Branches.depth] at h
    obtain ⟨ws, cs, h1, h2⟩ := parseItems_eq l (by omega)
    refine ⟨w :: ws, t.value :: cs, ?_, ?_⟩
    · simp only [Branches.toItems, parseItems, h1, Option.map_some, collapse_partial t (by omega)]
    · simp [Branches.value, h2]

/-- **C42, partial.**  `csdict_parse` gives weights and cross sections whose weighted sum is that of
the tree, for trees of at most two levels (the trees of elements, compounds and mixtures).  Missing
because false: three levels and more (`parse_wrong`). -/
theorem parse_partial (t : Tree K) (h : t.depth ≤ 2) :
    ∃ ws cs, csdictParse t.toCS = some (ws, cs) ∧ (List.zipWith (· * ·) ws cs).sum = t.value := by
  cases t with
  | leaf v => exact ⟨[1], [v], rfl, by simp [Tree.value]⟩
  | node l => exact parseItems_eq l (by simp only [Tree.depth] at h; omega)

/-- last names and contributions of a node -/
theorem elementalItems_one (l : Branches K) (h : l.depth = 0) (out : Items String K) (w : K) :
    ∃ c : List (String × K), elementalItems l.toItems out w = some (addAll id out c) ∧
      below w none l.paths = c.map fun p => (some p.1, p.2) := by
  cases l with
  | nil => exact ⟨[], rfl, rfl⟩
  | cons n w' t l =>
    simp only [Branches.depth] at h
    cases t with
    | node _ => simp [Tree.depth] at h
    | leaf v =>
      obtain ⟨c, h1, h2⟩ := elementalItems_one l (by omega) (addTo id out n (w * w' * v)) w
      refine ⟨(n, w * w' * v) :: c, ?_, ?_⟩
      · simp only [Branches.toItems, Tree.toCS, elementalItems, h1]; rfl
      · simp only [Branches.paths, Tree.paths]
        rw [below_append, h2]
        simp [below, mul_assoc]

theorem elementalItems_two (l : Branches K) (h : l.depth ≤ 1) (out : Items String K) :
    ∃ c : List (String × K), elementalItems l.toItems out 1 = some (addAll id out c) ∧
      below 1 none l.paths = c.map fun p => (some p.1, p.2) := by
  cases l with
  | nil => exact ⟨[], rfl, rfl⟩
  | cons n w' t l =>
    simp only [Branches.depth] at h
    cases t with
    | leaf v =>
      obtain ⟨c, h1, h2⟩ := elementalItems_two l (by omega) (addTo id out n (1 * w' * v))
      refine ⟨(n, 1 * w' * v) :: c, ?_, ?_⟩
      · simp only [Branches.toItems, Tree.toCS, elementalItems, h1]; rfl
      · simp only [Branches.paths, Tree.paths]
        rw [below_append, h2]
        simp [below]
    | node l' =>
      simp only [Tree.depth] at h
      obtain ⟨c', g1, g2⟩ := elementalItems_one l' (by omega) out w'
      obtain ⟨c, h1, h2⟩ := elementalItems_two l (by omega) (addAll id out c')
      refine ⟨c' ++ c, ?_, ?_⟩
      · simp only [Branches.toItems, Tree.toCS, elementalItems, g1, Option.bind_some, h1]
        simp only [addAll, List.foldl_append]
      · simp only [Branches.paths, Tree.paths]
        rw [below_append, h2, total_below_map, one_mul, List.map_append, ← g2]
        congr 1
        -- the label of a path through a node is below it
        have : ∀ ps : List (List String × List K × K), (∀ p ∈ ps, p.1 ≠ []) → ∀ k k' : Option String,
            below w' k ps = below w' k' ps := by
          intro ps hps k k'
          simp only [below]
          refine List.map_congr_left fun p hp => ?_
          rw [if_neg (hps p hp), if_neg (hps p hp)]
        refine this _ ?_ _ _
        have hne : ∀ l : Branches K, ∀ p ∈ l.paths, p.1 ≠ [] := by
          intro l
          induction l using Branches.rec (motive_1 := fun _ => True) with
          | leaf => trivial
          | node => trivial
          | nil => intro p hp; simp [Branches.paths] at hp
          | cons n w t l _ ih =>
            intro p hp
            simp only [Branches.paths, List.mem_append, List.mem_map] at hp
            rcases hp with ⟨q, _, rfl⟩ | hp
            · simp
            · exact ih p hp
        exact hne l'

/-- **C42, partial.**  `elemental_crosssections` gives every element the sum of its contributions,
for nodes of at most two levels.  Missing because false: three levels and more
(`elemental_wrong`). -/
theorem elemental_partial (l : Branches K) (h : l.depth ≤ 1) :
    ∃ out, elementalItems l.toItems [] 1 = some out ∧ total out = l.value ∧ (names id out).Nodup ∧
      ∀ e, amount id out e = amount id (Tree.node l).contributions (some e) := by
  obtain ⟨c, h1, h2⟩ := elementalItems_two l h []
  have hc : (Tree.node l).contributions = c.map fun p => (some p.1, p.2) := by
    rw [contributions_eq]; exact h2
  refine ⟨_, h1, ?_, compose_nodup id c, ?_⟩
  · have := value_eq_contributions (Tree.node l)
    rw [hc] at this
    show total (compose id c) = _
    rw [total_compose]
    simp only [Tree.value] at this
    rw [this]; simp [total, Function.comp_def]
  · intro e
    show amount id (compose id c) e = _
    rw [compose_amount, hc]
    simp only [amount, List.filter_map, List.map_map]
    congr 1
    have : (fun p : Option String × K => decide (id p.1 = some e)) ∘ (fun p : String × K => (some p.1, p.2))
        = fun p : String × K => decide (id p.1 = e) := by
      funext p; simp
    rw [this]; rfl

/-! ## where the trees come from -/

/-- the tree of a compound -/
def elementBranches (cs : String → K) : Items String K → Branches K
  | [] => .nil
  | (e, w) :: l => .cons e w (.leaf (cs e)) (elementBranches cs l)
/-- the tree of a mixture -/
def mixBranches (cs : String → K) : Items (CPart K) K → Branches K
  | [] => .nil
  | (c, w) :: l => .cons c.name w (.node (elementBranches cs c.mass)) (mixBranches cs l)

theorem elementDict_eq (cs : String → K) (l : Items String K) : elementDict cs l = (elementBranches cs l).toItems := by
  induction l with
  | nil => rfl
  | cons p l ih => obtain ⟨e, w⟩ := p; simp only [elementDict, elementBranches, Branches.toItems, Tree.toCS, ih]
theorem elementBranches_value (cs : String → K) (l : Items String K) : (elementBranches cs l).value = wsum cs l := by
  induction l with
  | nil => rfl
  | cons p l ih => obtain ⟨e, w⟩ := p; simp only [elementBranches, Branches.value, Tree.value, ih]; rfl
theorem elementBranches_depth (cs : String → K) (l : Items String K) : (elementBranches cs l).depth = 0 := by
  induction l with
  | nil => rfl
  | cons p l ih => obtain ⟨e, w⟩ := p; simp [elementBranches, Branches.depth, Tree.depth, ih]

/-- The parts of a mixture that count for a method. -/
def used (scattering : Bool) (m : Items (CPart K) K) : Items (CPart K) K :=
  m.filter fun c => !(scattering && !c.1.isscatterer)

theorem mixDecomposed_eq (scattering : Bool) (cs : String → K) (m : Items (CPart K) K) :
    mixDecomposed scattering cs m = (mixBranches cs (used scattering m)).toItems := by
  induction m with
  | nil => rfl
  | cons p m ih =>
    obtain ⟨c, w⟩ := p
    simp only [mixDecomposed, used, List.filter_cons]
    by_cases h : (scattering && !c.isscatterer) = true
    · rw [if_pos h, if_neg (by simp [h]), ih]; rfl
    · rw [if_neg h, if_pos (by rw [Bool.not_eq_true] at h; rw [h]; rfl)]
      simp only [mixBranches, Branches.toItems, Tree.toCS, elementDict_eq, ih]; rfl

theorem mixBranches_value (cs : String → K) (m : Items (CPart K) K) :
    (mixBranches cs m).value = wsum (fun c => wsum cs c.mass) m := by
  induction m with
  | nil => rfl
  | cons p m ih =>
    obtain ⟨c, w⟩ := p
    simp only [mixBranches, Branches.value, Tree.value, elementBranches_value, ih]; rfl

theorem mixBranches_depth (cs : String → K) (m : Items (CPart K) K) : (mixBranches cs m).depth ≤ 1 := by
  induction m with
  | nil => simp [mixBranches, Branches.depth]
  | cons p m ih =>
    obtain ⟨c, w⟩ := p
    simp only [mixBranches, Branches.depth, Tree.depth, elementBranches_depth]; omega

/-- **C42.**  The decomposed cross section of a compound is a tree of one level (or nothing when it
does not scatter) whose weighted sum is the cross section that is not decomposed. -/
theorem compound_tree (c : CPart K) (scattering : Bool) (cs : String → K) :
    ∃ t : Tree K, c.decomposed scattering cs = t.toCS ∧ t.depth ≤ 1 ∧ c.summed scattering cs = t.value := by
  by_cases h : (scattering && !c.isscatterer) = true
  · exact ⟨.node .nil, by simp only [CPart.decomposed, if_pos h]; rfl, by simp [Tree.depth, Branches.depth],
      by simp only [CPart.summed, if_pos h]; rfl⟩
  · refine ⟨.node (elementBranches cs c.mass), ?_, ?_, ?_⟩
    · simp only [CPart.decomposed, if_neg h, Tree.toCS, elementDict_eq]
    · simp [Tree.depth, elementBranches_depth]
    · simp only [CPart.summed, if_neg h, Tree.value, elementBranches_value, wsum_eq]

theorem mixSummed_eq (scattering : Bool) (cs : String → K) (m : Items (CPart K) K) :
    mixSummed scattering cs m = if used scattering m = [] then none else
      some (wsum (fun c => wsum cs c.mass) (used scattering m)) := by
  have key : ∀ (m : Items (CPart K) K) (r : Option K), m.foldl (fun ret c =>
      if scattering && !c.1.isscatterer then ret
      else
        let eret := (c.1.mass.map fun p => c.2 * p.2 * cs p.1).sum
        match ret with
        | none => some eret
        | some r => some (r + eret)) r = if used scattering m = [] then r else
      some (r.getD 0 + wsum (fun c => wsum cs c.mass) (used scattering m)) := by
    intro m
    induction m with
    | nil => intro r; simp [used]
    | cons p m ih =>
      intro r
      obtain ⟨c, w⟩ := p
      rw [List.foldl_cons, ih]
      by_cases h : (scattering && !c.isscatterer) = true
      · have hu : used scattering ((c, w) :: m) = used scattering m := by
          simp only [used, List.filter_cons]; rw [if_neg (by simp [h])]
        rw [hu, if_pos h]
      · have hu : used scattering ((c, w) :: m) = (c, w) :: used scattering m := by
          simp only [used, List.filter_cons]; rw [if_pos (by rw [Bool.not_eq_true] at h; rw [h]; rfl)]
        have hs : (c.mass.map fun p => w * p.2 * cs p.1).sum = w * wsum cs c.mass := by
          rw [← wsum_scale, ← wsum_eq, List.map_map]; rfl
        rw [hu, if_neg h, if_neg (List.cons_ne_nil _ _), wsum_cons]
        simp only [hs]
        by_cases hn : used scattering m = []
        · rw [if_pos hn, hn]
          cases r <;> simp [wsum_nil]
        · rw [if_neg hn]
          cases r <;> simp [add_assoc]
  have := key m none
  simp only [Option.getD_none, zero_add] at this
  exact this

/-- **C42.**  The decomposed cross section of a mixture is a tree of two levels whose weighted sum
is the cross section that is not decomposed, as long as some part counts. -/
theorem mixture_tree (scattering : Bool) (cs : String → K) (m : Items (CPart K) K) (hu : used scattering m ≠ []) :
    ∃ t : Tree K, CS.dict (mixDecomposed scattering cs m) = t.toCS ∧ t.depth ≤ 2 ∧
      mixSummed scattering cs m = some t.value := by
  refine ⟨.node (mixBranches cs (used scattering m)), ?_, ?_, ?_⟩
  · simp only [Tree.toCS, mixDecomposed_eq]
  · simp only [Tree.depth]; have := mixBranches_depth cs (used scattering m); omega
  · rw [mixSummed_eq, if_neg hu, Tree.value, mixBranches_value]

/-- **C42, finding.**  When no part of a mixture scatters, the scattering cross section is `None`
instead of zero. -/
theorem mixture_none (cs : String → K) (m : Items (CPart K) K) (h : ∀ c ∈ m, c.1.isscatterer = false) :
    mixSummed true cs m = none := by
  rw [mixSummed_eq, if_pos]
  simp only [used, List.filter_eq_nil_iff]
  intro c hc
  simp [h c hc]

/-- The contributions of all lines of all elements. -/
def lineTerms (cs : String → Items String K) (l : Items String K) : List (String × K) :=
  l.flatMap fun p => (cs p.1).map fun q => (q.1, p.2 * q.2)

/-- **C42.**  Per line, the cross section of a compound is the sum over its elements, weighted with
the mass fractions. -/
theorem compound_lines (c : CPart K) (cs : String → Items String K) :
    IsTable id (c.lines cs) (names id (lineTerms cs c.mass)) (amount id (lineTerms cs c.mass)) := by
  have : c.lines cs = compose id (lineTerms cs c.mass) := by
    simp only [CPart.lines, compose, lineTerms]
    generalize ([] : Items String K) = d
    generalize c.mass = l
    induction l generalizing d with
    | nil => rfl
    | cons p l ih => rw [List.foldl_cons, ih, List.flatMap_cons, List.foldl_append, List.foldl_map]
  rw [this]; exact compose_table id _

/-- **C42.**  Per line, the cross section of a mixture is the sum over the elements of its parts,
weighted with both mass fractions. -/
theorem mixture_lines (m : Items (CPart K) K) (cs : String → Items String K) :
    IsTable id (mixLines cs m)
      (names id (m.flatMap fun c => (lineTerms cs c.1.mass).map fun q => (q.1, c.2 * q.2)))
      (amount id (m.flatMap fun c => (lineTerms cs c.1.mass).map fun q => (q.1, c.2 * q.2))) := by
  have : mixLines cs m = compose id (m.flatMap fun c => (lineTerms cs c.1.mass).map fun q => (q.1, c.2 * q.2)) := by
    simp only [mixLines, compose]
    generalize ([] : Items String K) = d
    induction m generalizing d with
    | nil => rfl
    | cons c m ih =>
      rw [List.foldl_cons, ih, List.flatMap_cons, List.foldl_append]
      congr 1
      generalize c.1.mass = l
      induction l generalizing d with
      | nil => rfl
      | cons p l ih2 =>
        simp only [lineTerms, List.flatMap_cons, List.map_append, List.foldl_append] at ih2 ⊢
        rw [List.foldl_cons, ih2]
        congr 1
        simp only [List.map_map, List.foldl_map, Function.comp, mul_assoc]
  rw [this]; exact compose_table id _

/-! ## where it goes wrong -/

/-- one compound in a mixture, `n` levels -/
def chain : Nat → Tree ℚ
  | 0 => .leaf 1
  | n + 1 => .node (.cons "a" (1 / 2) (chain n) .nil)

/-- **C42, finding.**  Collapsing a tree of two levels adds the weights instead of multiplying. -/
theorem collapse_wrong : collapse (chain 2).toCS = 1 ∧ (chain 2).value = 1 / 4 := by
  constructor <;> norm_num [chain, Tree.toCS, Branches.toItems, collapse, collapseItems, Tree.value, Branches.value]

/-- **C42, finding.**  `csdict_parse` is wrong from three levels on. -/
theorem parse_wrong : csdictParse (chain 3).toCS = some ([1 / 2], [1]) ∧ (chain 3).value = 1 / 8 := by
  constructor <;> norm_num [chain, Tree.toCS, Branches.toItems, csdictParse, parseItems, collapse, collapseItems,
    Tree.value, Branches.value]

/-- **C42, finding.**  `elemental_crosssections` drops the outer weight from three levels on. -/
theorem elemental_wrong : ∀ l, chain 3 = .node l → elementalItems l.toItems [] 1 = some [("a", 1 / 4)] := by
  intro l h
  cases h
  norm_num [chain, Tree.toCS, Branches.toItems, elementalItems, addTo]

/-! ## concrete cases -/

/-- a mixture of two compounds with a common element -/
def mixTree : Branches ℚ :=
  .cons "c1" (1 / 4) (.node (.cons "Fe" (1 / 2) (.leaf 8) (.cons "O" (1 / 2) (.leaf 4) .nil)))
  (.cons "c2" (3 / 4) (.node (.cons "O" 1 (.leaf 4) .nil)) .nil)
example : (Tree.node mixTree).depth ≤ 2 := by simp [mixTree, Tree.depth, Branches.depth]
example : (Tree.node mixTree).value = 9 / 2 := by norm_num [mixTree, Tree.value, Branches.value]
example : parseElements (Tree.node mixTree).toCS [] 1 none = some [(some "Fe", 1), (some "O", 7 / 2)] := by
  norm_num [mixTree, Tree.toCS, Branches.toItems, parseElements, parseElementsItems, addTo,
    show ("Fe" : String) ≠ "O" by decide]
example : csdictParse (Tree.node mixTree).toCS = some ([1 / 4, 3 / 4], [6, 4]) := by
  norm_num [mixTree, Tree.toCS, Branches.toItems, csdictParse, parseItems, collapse, collapseItems]
example : used true [((⟨"w", true, [("O", 1)]⟩ : CPart ℚ), 1)] ≠ [] := by simp [used]
example : mixSummed false (fun _ => 4) [((⟨"w", true, [("O", 1)]⟩ : CPart ℚ), 1 / 2), (⟨"v", false, [("H", 1)]⟩, 1 / 2)]
    = some 4 := by norm_num [mixSummed]

end SC.CrossSection
