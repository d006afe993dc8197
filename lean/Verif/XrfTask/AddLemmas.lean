import Verif.XrfTask.LazyLemmas
/-! # Lemmas on the addition of detectors -/
namespace SC.XrfTask
open SC.Py SC.Naming SC.Grid

/-- The slices of a data set. -/
def get2 (st : Stacks) (g : Grp) (k : Str) : Option (List Arg) := (Dict.get? st g).bind fun d => Dict.get? d k

/-- The names of data sets of a group. -/
def labels (st : Stacks) (g : Grp) : List Str := Dict.keys ((Dict.get? st g).getD [])

/-- Names occur once. -/
def StWF (st : Stacks) : Prop := Dict.WF st ∧ ∀ g d, Dict.get? st g = some d → Dict.WF d

/-- New slices of a sum. -/
def init (nstack : Nat) (ctrs : List Str) (k : Str) : List Arg := List.replicate nstack (.slice (addFun ctrs k) false [])

/-- One more detector in a data set. -/
def step (nstack : Nat) (ctrs : List Str) (k : Str) (acc : Option (List Arg)) (l : List Arg) : Option (List Arg) :=
  appendAll (acc.getD (init nstack ctrs k)) l

theorem addFun_red (ctrs : List Str) (k : Str) : ∃ F, red (addFun ctrs k) = some F := by
  unfold addFun
  split
  · exact ⟨_, rfl⟩
  · split
    · exact ⟨_, rfl⟩
    · split
      · exact ⟨_, rfl⟩
      · exact ⟨_, rfl⟩

theorem addLabels_spec {nstack : Nat} {ctrs fixed : List Str} {d1 : List (Str × List Arg)} {d d' : Dict Str (List Arg)}
    (h1 : (d1.map Prod.fst).Nodup) (hd : Dict.WF d) (h : addLabels nstack ctrs fixed d1 d = some d') :
    Dict.WF d' ∧ ∀ k, Dict.get? d' k = if k ∈ fixed then Dict.get? d k else match Dict.get? (d1 : Dict Str (List Arg)) k with
      | none => Dict.get? d k
      | some l => step nstack ctrs k (Dict.get? d k) l := by
  induction d1 generalizing d with
  | nil =>
    simp only [addLabels, Option.some.injEq] at h
    subst h
    exact ⟨hd, fun k => by simp [Dict.get?]⟩
  | cons kl r ih =>
    obtain ⟨k0, l0⟩ := kl
    simp only [List.map_cons, List.nodup_cons] at h1
    have hr : Dict.get? (r : Dict Str (List Arg)) k0 = none := (Dict.get?_none _ _).mpr h1.1
    simp only [addLabels] at h
    by_cases hk : k0 ∈ fixed
    · rw [if_pos hk] at h
      obtain ⟨w, e⟩ := ih h1.2 hd h
      refine ⟨w, fun k => ?_⟩
      rw [e k]
      by_cases hkf : k ∈ fixed
      · simp [hkf]
      · have : k0 ≠ k := fun h => hkf (h ▸ hk)
        simp only [hkf, if_false]
        have e2 : Dict.get? ((k0, l0) :: r : Dict Str (List Arg)) k = Dict.get? (r : Dict Str (List Arg)) k := by
          simp [Dict.get?, this]
        rw [e2]
    · rw [if_neg hk] at h
      cases ha : appendAll ((Dict.get? d k0).getD (List.replicate nstack (.slice (addFun ctrs k0) false []))) l0 with
      | none => simp [ha] at h
      | some new =>
        rw [ha] at h
        simp only at h
        obtain ⟨w, e⟩ := ih h1.2 (Dict.wf_set d hd k0 new) h
        refine ⟨w, fun k => ?_⟩
        rw [e k]
        by_cases hkf : k ∈ fixed
        · have : k ≠ k0 := fun h => hk (h ▸ hkf)
          simp only [hkf, if_true, Dict.get?_set]
          simp [Ne.symm this]
        · simp only [hkf, if_false]
          by_cases hkk : k0 = k
          · subst hkk
            rw [hr]
            simp only [Dict.get?_set, Dict.get?, if_true]
            rw [step, init, ha]
          · have e2 : Dict.get? ((k0, l0) :: r : Dict Str (List Arg)) k = Dict.get? (r : Dict Str (List Arg)) k := by
              simp [Dict.get?, hkk]
            rw [e2]
            have e3 : Dict.get? (Dict.set d k0 new) k = Dict.get? d k := by
              rw [Dict.get?_set]; simp [hkk]
            rw [e3]

theorem addOne_absent {nstack : Nat} {ctrs : List Str} {k1 dest : Grp} {st : Stacks} {fixed : Dict Grp (List Str)}
    (h : Dict.get? st k1 = none) : addOne nstack ctrs k1 dest st fixed = some (st, fixed) := by
  simp [addOne, h]

theorem addOne_spec {nstack : Nat} {ctrs : List Str} {k1 dest : Grp} {st st' : Stacks} {fixed fixed' : Dict Grp (List Str)} {d1 : Dict Str (List Arg)}
    (hst : StWF st) (hd : Dict.get? st k1 = some d1) (h : addOne nstack ctrs k1 dest st fixed = some (st', fixed')) :
    k1 ≠ dest ∧ StWF st' ∧ fixed' = Dict.set fixed dest ((Dict.get? fixed dest).getD (labels st dest)) ∧
    (∀ g, g ≠ dest → Dict.get? st' g = if g = k1 then none else Dict.get? st g) ∧
    ∀ k, get2 st' dest k = if k ∈ (Dict.get? fixed dest).getD (labels st dest) then get2 st dest k else match Dict.get? d1 k with
      | none => get2 st dest k
      | some l => step nstack ctrs k (get2 st dest k) l := by
  unfold addOne at h
  rw [hd] at h
  simp only at h
  by_cases hk : k1 = dest
  · simp [hk] at h
  · rw [if_neg hk] at h
    cases ha : addLabels nstack ctrs ((Dict.get? fixed dest).getD (Dict.keys ((Dict.get? st dest).getD []))) d1 ((Dict.get? st dest).getD []) with
    | none => simp [ha] at h
    | some d2 =>
      rw [ha] at h
      simp only [Option.some.injEq, Prod.mk.injEq] at h
      obtain ⟨h1, h2⟩ := h
      have hwd : Dict.WF ((Dict.get? st dest).getD []) := by
        cases hg : Dict.get? st dest with
        | none => simp [Dict.WF, Dict.keys]
        | some d => exact hst.2 _ _ hg
      obtain ⟨w, e⟩ := addLabels_spec (hst.2 _ _ hd) hwd ha
      have hget : ∀ g, Dict.get? st' g = if g = k1 then none else if g = dest then some d2 else Dict.get? st g := by
        intro g
        rw [← h1, Dict.get?_del, Dict.get?_set]
        simp only [eq_comm]
      refine ⟨hk, ⟨?_, ?_⟩, h2.symm, ?_, ?_⟩
      · rw [← h1]; exact Dict.wf_del _ (Dict.wf_set _ hst.1 _ _) _
      · intro g d hg
        rw [hget] at hg
        split at hg
        · simp at hg
        · split at hg
          · simp only [Option.some.injEq] at hg; subst hg; exact w
          · exact hst.2 _ _ hg
      · intro g hg
        rw [hget]; simp [hg]
      · intro k
        have e1 : get2 st' dest k = Dict.get? d2 k := by
          simp [get2, hget, Ne.symm hk]
        have e2 : Dict.get? ((Dict.get? st dest).getD []) k = get2 st dest k := by
          unfold get2
          cases Dict.get? st dest <;> rfl
        rw [e1, e k, e2]
        rfl

/-- The data sets that are added to a data set, in order. -/
def contributors (l : List (Grp × Grp)) (st : Stacks) (g : Grp) (k : Str) : List (List Arg) :=
  l.filterMap fun kd => if kd.2 = g then get2 st kd.1 k else none

theorem get2_congr {st st' : Stacks} {g : Grp} (h : Dict.get? st g = Dict.get? st' g) (k : Str) : get2 st g k = get2 st' g k := by
  simp [get2, h]

theorem labels_congr {st st' : Stacks} {g : Grp} (h : Dict.get? st g = Dict.get? st' g) : labels st g = labels st' g := by
  simp [labels, h]

theorem addLoop_spec {nstack : Nat} {ctrs : List Str} {l : List (Grp × Grp)} {st st' : Stacks} {fixed fixed' : Dict Grp (List Str)}
    (hst : StWF st) (hnd : (l.map Prod.fst).Nodup) (hdis : ∀ kd ∈ l, kd.2 ∉ l.map Prod.fst)
    (h : addLoop nstack ctrs l st fixed = some (st', fixed')) :
    StWF st' ∧ (∀ g, g ∉ l.map Prod.snd → Dict.get? fixed' g = Dict.get? fixed g) ∧
    (∀ g ∈ l.map Prod.fst, Dict.get? st' g = none) ∧
    (∀ g, g ∉ l.map Prod.fst → g ∉ l.map Prod.snd → Dict.get? st' g = Dict.get? st g) ∧
    ∀ g, g ∉ l.map Prod.fst → ∀ k, get2 st' g k = if k ∈ (Dict.get? fixed g).getD (labels st g) then get2 st g k
      else (contributors l st g k).foldl (step nstack ctrs k) (get2 st g k) := by
  induction l generalizing st fixed with
  | nil =>
    simp only [addLoop, Option.some.injEq, Prod.mk.injEq] at h
    obtain ⟨rfl, rfl⟩ := h
    refine ⟨hst, fun _ _ => rfl, by simp, fun _ _ _ => rfl, fun g _ k => by simp [contributors]⟩
  | cons kd r ih =>
    obtain ⟨k1, dest⟩ := kd
    simp only [List.map_cons, List.nodup_cons] at hnd
    have hdis' : ∀ kd ∈ r, kd.2 ∉ r.map Prod.fst := fun kd hkd hm => hdis kd (by simp [hkd]) (by simp [hm])
    have hdk : ∀ kd ∈ r, kd.2 ≠ k1 := fun kd hkd hm => hdis kd (by simp [hkd]) (by simp [hm])
    have hdest : dest ∉ r.map Prod.fst := fun hm => hdis (k1, dest) (by simp) (by simp [hm])
    have hdest1 : dest ≠ k1 := fun hm => hdis (k1, dest) (by simp) (by simp [hm])
    simp only [addLoop] at h
    cases hk : Dict.get? st k1 with
    | none =>
      rw [addOne_absent hk] at h
      simp only at h
      obtain ⟨a1, a2, a3, a4, a5⟩ := ih hst hnd.2 hdis' h
      have hk1s : k1 ∉ r.map Prod.snd := by
        intro hm
        obtain ⟨kd, hkd, e⟩ := List.mem_map.mp hm
        exact hdk kd hkd e
      refine ⟨a1, fun g hg => a2 g (fun hm => hg (by simp [hm])), fun g hg => ?_, fun g h1 h2 => a4 g (fun hm => h1 (by simp [hm])) (fun hm => h2 (by simp [hm])), fun g hg k => ?_⟩
      · simp only [List.map_cons, List.mem_cons] at hg
        by_cases hgr : g ∈ r.map Prod.fst
        · exact a3 g hgr
        · rcases hg with rfl | hg
          · rw [a4 g hgr hk1s, hk]
          · exact absurd hg hgr
      · rw [a5 g (fun hm => hg (by simp [hm])) k]
        have : contributors ((k1, dest) :: r) st g k = contributors r st g k := by
          have : get2 st k1 k = none := by simp [get2, hk]
          simp [contributors, List.filterMap_cons, this]
        rw [this]
    | some d1 =>
      cases ha : addOne nstack ctrs k1 dest st fixed with
      | none => simp [ha] at h
      | some p =>
        obtain ⟨st1, fixed1⟩ := p
        rw [ha] at h
        simp only at h
        obtain ⟨-, b1, b2, b3, b4⟩ := addOne_spec hst hk ha
        obtain ⟨a1, a2, a3, a4, a5⟩ := ih b1 hnd.2 hdis' h
        have hk1s : k1 ∉ r.map Prod.snd := by
          intro hm
          obtain ⟨kd, hkd, e⟩ := List.mem_map.mp hm
          exact hdk kd hkd e
        have hsame : ∀ kd ∈ r, ∀ k, get2 st1 kd.1 k = get2 st kd.1 k := by
          intro kd hkd k
          refine get2_congr ?_ k
          have h1 : kd.1 ≠ k1 := fun e => hnd.1 (List.mem_map.mpr ⟨kd, hkd, e⟩)
          have h2 : kd.1 ≠ dest := fun e => hdest (List.mem_map.mpr ⟨kd, hkd, e⟩)
          rw [b3 _ h2, if_neg h1]
        refine ⟨a1, fun g hg => ?_, fun g hg => ?_, fun g h1 h2 => ?_, fun g hg k => ?_⟩
        · simp only [List.map_cons, List.mem_cons, not_or] at hg
          rw [a2 g hg.2, b2, Dict.get?_set, if_neg (Ne.symm hg.1)]
        · simp only [List.map_cons, List.mem_cons] at hg
          by_cases hgr : g ∈ r.map Prod.fst
          · exact a3 g hgr
          · rcases hg with rfl | hg
            · rw [a4 g hgr hk1s, b3 _ (Ne.symm hdest1), if_pos rfl]
            · exact absurd hg hgr
        · simp only [List.map_cons, List.mem_cons, not_or] at h1 h2
          rw [a4 g h1.2 h2.2, b3 _ h2.1, if_neg h1.1]
        · simp only [List.map_cons, List.mem_cons, not_or] at hg
          rw [a5 g hg.2 k]
          have hc : contributors r st1 g k = contributors r st g k := by
            refine List.filterMap_congr fun kd hkd => ?_
            rw [hsame kd hkd]
          rw [hc]
          by_cases hgd : g = dest
          · subst hgd
            have e1 : (Dict.get? fixed1 g).getD (labels st1 g) = (Dict.get? fixed g).getD (labels st g) := by
              rw [b2, Dict.get?_set, if_pos rfl]; rfl
            rw [e1, b4 k]
            by_cases hkf : k ∈ (Dict.get? fixed g).getD (labels st g)
            · simp [hkf]
            · simp only [hkf, if_false]
              have e2 : contributors ((k1, g) :: r) st g k = (match Dict.get? d1 k with
                | none => contributors r st g k
                | some l => l :: contributors r st g k) := by
                have : get2 st k1 k = Dict.get? d1 k := by simp [get2, hk]
                simp only [contributors, List.filterMap_cons, if_true, this]
                cases Dict.get? d1 k <;> rfl
              rw [e2]
              cases Dict.get? d1 k <;> rfl
          · have e0 : Dict.get? st1 g = Dict.get? st g := by rw [b3 _ hgd, if_neg hg.1]
            have e1 : (Dict.get? fixed1 g).getD (labels st1 g) = (Dict.get? fixed g).getD (labels st g) := by
              rw [b2, Dict.get?_set, if_neg (Ne.symm hgd), labels_congr e0]
            rw [e1, get2_congr e0]
            have e2 : contributors ((k1, dest) :: r) st g k = contributors r st g k := by
              simp [contributors, List.filterMap_cons, Ne.symm hgd]
            rw [e2]

theorem addLoop_append (nstack : Nat) (ctrs : List Str) (l m : List (Grp × Grp)) (st : Stacks) (fixed : Dict Grp (List Str)) :
    addLoop nstack ctrs (l ++ m) st fixed = (addLoop nstack ctrs l st fixed).bind fun p => addLoop nstack ctrs m p.1 p.2 := by
  induction l generalizing st fixed with
  | nil => rfl
  | cons kd r ih =>
    obtain ⟨k1, dest⟩ := kd
    simp only [List.cons_append, addLoop]
    cases addOne nstack ctrs k1 dest st fixed with
    | none => rfl
    | some p => exact ih _ _

/-- Slices of a sum with their arguments. -/
def slices (f : Fun) (args : List (List Arg)) : List Arg := args.map fun a => .slice f false a

theorem appendAll_slices {f : Fun} {F : List Px → Px} (hf : red f = some F) (args : List (List Arg)) (l : List Arg) (h : l.length = args.length) :
    appendAll (slices f args) l = some (slices f (List.zipWith (fun a x => a ++ contrib f x) args l)) := by
  induction args generalizing l with
  | nil =>
    have : l = [] := by simpa using h
    subst this; rfl
  | cons a args ih =>
    cases l with
    | nil => simp at h
    | cons x l =>
      simp only [slices, List.map_cons, appendAll, appendArg_red f F hf] at *
      rw [ih l (by simpa using h)]
      rfl

/-- The arguments at position `i` of several data sets. -/
def argsAt (f : Fun) (cs : List (List Arg)) (i : Nat) : List Arg := cs.flatMap fun l => (l[i]?).elim [] (contrib f)

theorem zipWith_range (f : Fun) (n : Nat) (g : Nat → List Arg) (l : List Arg) (h : l.length = n) :
    List.zipWith (fun a x => a ++ contrib f x) ((List.range n).map g) l = (List.range n).map fun i => g i ++ (l[i]?).elim [] (contrib f) := by
  apply List.ext_getElem
  · simp [h]
  · intro i h1 h2
    simp only [List.length_zipWith, List.length_map, List.length_range, h, min_self] at h1
    simp [List.getElem_zipWith, h ▸ h1]

theorem foldl_step_slices {nstack : Nat} {ctrs : List Str} {k : Str} (cs : List (List Arg)) (g : Nat → List Arg) (h : ∀ l ∈ cs, l.length = nstack) :
    cs.foldl (step nstack ctrs k) (some (slices (addFun ctrs k) ((List.range nstack).map g))) =
      some (slices (addFun ctrs k) ((List.range nstack).map fun i => g i ++ argsAt (addFun ctrs k) cs i)) := by
  induction cs generalizing g with
  | nil => simp [argsAt]
  | cons l cs ih =>
    obtain ⟨F, hF⟩ := addFun_red ctrs k
    have hl := h l (by simp)
    simp only [List.foldl_cons, step, Option.getD_some]
    rw [appendAll_slices hF _ _ (by simp [hl]), zipWith_range _ _ _ _ hl, ih _ (fun m hm => h m (by simp [hm]))]
    congr 3
    funext i
    simp [argsAt, List.append_assoc]

theorem init_slices (nstack : Nat) (ctrs : List Str) (k : Str) : init nstack ctrs k = slices (addFun ctrs k) ((List.range nstack).map fun _ => []) := by
  apply List.ext_getElem
  · simp [init, slices]
  · intro i h1 h2; simp [init, slices]

theorem foldl_step_none {nstack : Nat} {ctrs : List Str} {k : Str} (cs : List (List Arg)) (h : ∀ l ∈ cs, l.length = nstack) (hne : cs ≠ []) :
    cs.foldl (step nstack ctrs k) none = some (slices (addFun ctrs k) ((List.range nstack).map fun i => argsAt (addFun ctrs k) cs i)) := by
  cases cs with
  | nil => simp at hne
  | cons l cs =>
    have e : step nstack ctrs k none l = step nstack ctrs k (some (init nstack ctrs k)) l := rfl
    have := foldl_step_slices (nstack := nstack) (ctrs := ctrs) (k := k) (l :: cs) (fun _ => []) h
    rw [← init_slices] at this
    rw [List.foldl_cons, e, ← List.foldl_cons (f := step nstack ctrs k), this]
    simp

end SC.XrfTask
