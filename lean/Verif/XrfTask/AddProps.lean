import Verif.XrfTask.AddLemmas
import Verif.XrfTask.LazyProps
import Mathlib.Data.List.Induction
/-! # Properties of the addition of detectors -/
namespace SC.XrfTask
open SC.Py SC.Naming SC.Grid

/-- A detector. -/
def detG (n : Int) : Grp := ⟨['d', 'e', 't', 'e', 'c', 't', 'o', 'r'] ++ fmt02 n, n, 0⟩
/-- A sum of detectors. -/
def sumDet (n : Int) : Grp := ⟨['d', 'e', 't', 'e', 'c', 't', 'o', 'r', 'S'] ++ SC.Xia.strInt n, n, 1⟩

/-- Detectors with results; the sum S1 was fitted already. -/
def st0 : Stacks :=
  [(counters, [(['i', '0'], [fileSlice ['i', '0']])]),
   (detG 0, [(['x', 'm'], [fileSlice ['a']]), (['F', 'e'], [fileSlice ['a']])]),
   (detG 1, [(['x', 'm'], [fileSlice ['c']]), (['F', 'e'], [fileSlice ['c']]), (['Z', 'n'], [fileSlice ['c']])]),
   (detG 2, [(['F', 'e'], [fileSlice ['c']])]),
   (sumDet 1, [(['F', 'e'], [fileSlice ['b']])])]

theorem getElem_slices (f : Fun) (n : Nat) (g : Nat → List Arg) (i : Nat) (h : i < n) :
    (slices f ((List.range n).map g))[i]? = some (.slice f false (g i)) := by
  simp [slices, h]

/-- Adding detectors to their destinations: the detectors disappear, the other groups stay, data sets
that a destination had already are left alone, and a new data set has for image `i` one slice with, in
order, the slices of image `i` of every detector that has the data set (sums of sums are merged). -/
theorem addDetectors_spec (nstack : Nat) (ctrs : List Str) (sumto : Dict Grp Grp) (st st' : Stacks)
    (hst : StWF st) (hk : Dict.WF sumto) (hdis : ∀ kd ∈ sumto, kd.2 ∉ Dict.keys sumto)
    (hlen : ∀ kd ∈ sumto, ∀ k l, get2 st kd.1 k = some l → l.length = nstack)
    (h : addDetectors nstack ctrs sumto st = some st') :
    (∀ g ∈ Dict.keys sumto, Dict.get? st' g = none) ∧
    (∀ g, g ∉ Dict.keys sumto → g ∉ sumto.map Prod.snd → Dict.get? st' g = Dict.get? st g) ∧
    ∀ g ∈ sumto.map Prod.snd, ∀ k,
      (k ∈ labels st g → get2 st' g k = get2 st g k) ∧
      (k ∉ labels st g → contributors sumto st g k = [] → get2 st' g k = none) ∧
      (k ∉ labels st g → contributors sumto st g k ≠ [] → ∃ l, get2 st' g k = some l ∧ l.length = nstack ∧
        ∀ i, i < nstack → l[i]? = some (.slice (addFun ctrs k) false (argsAt (addFun ctrs k) (contributors sumto st g k) i))) := by
  unfold addDetectors at h
  cases hl : addLoop nstack ctrs sumto st [] with
  | none => simp [hl] at h
  | some p =>
    obtain ⟨s, f⟩ := p
    simp only [hl, Option.map_some, Option.some.injEq] at h
    subst h
    obtain ⟨-, -, a3, a4, a5⟩ := addLoop_spec hst hk hdis hl
    refine ⟨a3, a4, fun g hg k => ?_⟩
    have hgk : g ∉ sumto.map Prod.fst := by
      obtain ⟨kd, hkd, rfl⟩ := List.mem_map.mp hg
      exact hdis kd hkd
    have e := a5 g hgk k
    rw [show (Dict.get? ([] : Dict Grp (List Str)) g) = none from rfl, Option.getD_none] at e
    have hn : k ∉ labels st g → get2 st g k = none := by
      intro hk
      unfold labels at hk
      unfold get2
      cases hs : Dict.get? st g with
      | none => rfl
      | some d => rw [hs] at hk; exact (Dict.get?_none _ _).mpr hk
    refine ⟨fun hk => by rw [e, if_pos hk], fun hk hc => by rw [e, if_neg hk, hc, hn hk]; rfl, fun hk hc => ?_⟩
    rw [e, if_neg hk, hn hk, foldl_step_none _ _ hc]
    · exact ⟨_, rfl, by simp [slices], fun i hi => getElem_slices _ _ _ _ hi⟩
    · intro l hl
      obtain ⟨kd, hkd, e⟩ := List.mem_filterMap.mp hl
      split at e
      · exact hlen kd hkd k l e
      · simp at e

/-- Detectors 0, 1 and 2 go to S1: their counters are added, the fitted iron stays. -/
example : (addDetectors 1 [['x', 'm']] [(detG 0, sumDet 1), (detG 1, sumDet 1), (detG 2, sumDet 1)] st0).map Dict.keys = some [counters, sumDet 1] ∧
    ((addDetectors 1 [['x', 'm']] [(detG 0, sumDet 1), (detG 1, sumDet 1), (detG 2, sumDet 1)] st0).bind fun st => get2 st (sumDet 1) ['x', 'm']).bind
      (fun l => (value w0 0 (l.getD 0 .none)).map Img.list) = some [[some 7, some 8]] ∧
    ((addDetectors 1 [['x', 'm']] [(detG 0, sumDet 1), (detG 1, sumDet 1), (detG 2, sumDet 1)] st0).bind fun st => get2 st (sumDet 1) ['F', 'e']).bind
      (fun l => (value w0 0 (l.getD 0 .none)).map Img.list) = some [[none, some 10]] := by
  refine ⟨by decide +kernel, by decide +kernel, by decide +kernel⟩

/-- The destinations are never read before they are complete, so that adding cannot fail. -/
def Ready (nstack : Nat) (ctrs : List Str) (st : Stacks) (fixed : Dict Grp (List Str)) : Prop :=
  (∀ g k l, get2 st g k = some l → l.length = nstack) ∧
  ∀ g fx, Dict.get? fixed g = some fx → ∀ k, k ∉ fx → ∀ l, get2 st g k = some l → ∃ args : List (List Arg), l = slices (addFun ctrs k) args

theorem addLabels_total {nstack : Nat} {ctrs fixed : List Str} (d1 : List (Str × List Arg)) (d : Dict Str (List Arg))
    (h1 : ∀ kl ∈ d1, kl.2.length = nstack) (h2 : ∀ k l, Dict.get? d k = some l → l.length = nstack)
    (h3 : ∀ k, k ∉ fixed → ∀ l, Dict.get? d k = some l → ∃ args : List (List Arg), l = slices (addFun ctrs k) args) :
    ∃ d', addLabels nstack ctrs fixed d1 d = some d' ∧ (∀ k l, Dict.get? d' k = some l → l.length = nstack) ∧
      ∀ k, k ∉ fixed → ∀ l, Dict.get? d' k = some l → ∃ args : List (List Arg), l = slices (addFun ctrs k) args := by
  induction d1 generalizing d with
  | nil => exact ⟨d, rfl, h2, h3⟩
  | cons kl r ih =>
    obtain ⟨k0, l0⟩ := kl
    have hl0 : l0.length = nstack := h1 (k0, l0) (by simp)
    simp only [addLabels]
    by_cases hk : k0 ∈ fixed
    · rw [if_pos hk]
      exact ih d (fun x hx => h1 x (by simp [hx])) h2 h3
    · rw [if_neg hk]
      obtain ⟨F, hF⟩ := addFun_red ctrs k0
      have : ∃ args : List (List Arg), args.length = nstack ∧
          (Dict.get? d k0).getD (List.replicate nstack (.slice (addFun ctrs k0) false [])) = slices (addFun ctrs k0) args := by
        cases hd : Dict.get? d k0 with
        | none => exact ⟨(List.range nstack).map fun _ => [], by simp, init_slices nstack ctrs k0⟩
        | some l =>
          obtain ⟨args, rfl⟩ := h3 k0 hk l hd
          exact ⟨args, by simpa [slices] using h2 k0 _ hd, rfl⟩
      obtain ⟨args, ha1, ha2⟩ := this
      rw [ha2, appendAll_slices hF _ _ (by rw [ha1, hl0])]
      refine ih _ (fun x hx => h1 x (by simp [hx])) ?_ ?_
      · intro k l hl
        rw [Dict.get?_set] at hl
        split at hl
        · simp only [Option.some.injEq] at hl
          subst hl
          simp [slices, ha1, hl0]
        · exact h2 k l hl
      · intro k hkf l hl
        rw [Dict.get?_set] at hl
        split at hl
        · next e =>
          simp only [Option.some.injEq] at hl
          subst hl e
          exact ⟨_, rfl⟩
        · exact h3 k hkf l hl

theorem addLoop_total {nstack : Nat} {ctrs : List Str} (l : List (Grp × Grp)) (st : Stacks) (fixed : Dict Grp (List Str))
    (hst : StWF st) (hr : Ready nstack ctrs st fixed) (hl : ∀ kd ∈ l, kd.1 ≠ kd.2) :
    ∃ p, addLoop nstack ctrs l st fixed = some p := by
  induction l generalizing st fixed with
  | nil => exact ⟨_, rfl⟩
  | cons kd r ih =>
    obtain ⟨k1, dest⟩ := kd
    have hne : k1 ≠ dest := hl (k1, dest) (by simp)
    simp only [addLoop]
    cases hk : Dict.get? st k1 with
    | none =>
      rw [addOne_absent hk]
      exact ih st fixed hst hr (fun x hx => hl x (by simp [hx]))
    | some d1 =>
      have hd1 : ∀ kl ∈ d1, kl.2.length = nstack := by
        rintro ⟨k, l⟩ hkl
        refine hr.1 k1 k l ?_
        simp only [get2, hk, Option.bind_some]
        exact Dict.get?_of_mem (hst.2 _ _ hk) hkl
      have hg : ∀ k, Dict.get? ((Dict.get? st dest).getD []) k = get2 st dest k := by
        intro k
        unfold get2
        cases Dict.get? st dest <;> rfl
      obtain ⟨d2, e1, e2, e3⟩ := addLabels_total (nstack := nstack) (ctrs := ctrs)
        (fixed := (Dict.get? fixed dest).getD (Dict.keys ((Dict.get? st dest).getD []))) d1 ((Dict.get? st dest).getD []) hd1
        (fun k l h => hr.1 dest k l (by rw [← hg]; exact h)) (by
          intro k hkf l h
          cases hf : Dict.get? fixed dest with
          | none =>
            rw [hf] at hkf
            simp only [Option.getD_none] at hkf
            have := (Dict.get?_none _ _).mpr hkf
            rw [h] at this
            simp at this
          | some fx =>
            rw [hf] at hkf
            exact hr.2 dest fx hf k hkf l (by rw [← hg]; exact h))
      have ha : addOne nstack ctrs k1 dest st fixed = some (Dict.del (Dict.set st dest d2) k1,
          Dict.set fixed dest ((Dict.get? fixed dest).getD (Dict.keys ((Dict.get? st dest).getD [])))) := by
        simp only [addOne, hk, hne, if_false, e1]
      have hst' := (addOne_spec hst hk ha).2.1
      rw [ha]
      simp only
      refine ih _ _ hst' ⟨?_, ?_⟩ (fun x hx => hl x (by simp [hx]))
      · intro g k l h
        simp only [get2, Dict.get?_del, Dict.get?_set] at h
        split at h
        · simp at h
        · split at h
          · exact e2 k l (by simpa using h)
          · exact hr.1 g k l h
      · intro g fx hfx k hkf l h
        simp only [get2, Dict.get?_del, Dict.get?_set] at h
        rw [Dict.get?_set] at hfx
        split at h
        · simp at h
        · split at h
          · next e =>
            rw [if_pos e, Option.some.injEq] at hfx
            subst hfx
            exact e3 k hkf l (by simpa using h)
          · next e =>
            rw [if_neg e] at hfx
            exact hr.2 g fx hfx k hkf l h

/-- Adding succeeds when all data sets have one slice per image and no group is added to itself. -/
theorem addDetectors_total (nstack : Nat) (ctrs : List Str) (sumto : Dict Grp Grp) (st : Stacks)
    (hst : StWF st) (hlen : ∀ g k l, get2 st g k = some l → l.length = nstack) (hne : ∀ kd ∈ sumto, kd.1 ≠ kd.2) :
    ∃ st', addDetectors nstack ctrs sumto st = some st' := by
  obtain ⟨p, hp⟩ := addLoop_total (nstack := nstack) (ctrs := ctrs) sumto st [] hst ⟨hlen, by simp [Dict.get?]⟩ hne
  exact ⟨p.1, by simp [addDetectors, hp]⟩

example : (addDetectors 1 [] [(detG 0, sumDet 1), (sumDet 1, sumDet 1)] st0) = none ∧
    (addDetectors 1 [] [(detG 0, sumDet 1), (detG 1, sumDet 2), (sumDet 1, sumDet 3), (sumDet 2, sumDet 3)] st0).isSome = true := by
  constructor
  · rfl
  · decide +kernel

/-- What a group adds to the total: its own data set, or those of its detectors. -/
def parts (singles : List (Grp × Grp)) (st : Stacks) (k : Str) (g : Grp) : List (List Arg) :=
  if k ∈ labels st g then (get2 st g k).toList else contributors singles st g k

/-- Detectors are added to groups and the groups to a total: a new data set of the total has, for image
`i`, the slices of image `i` of everything that was measured, each once: the data sets that a group had
already, else those of its detectors. -/
theorem addDetectors_total_group (nstack : Nat) (ctrs : List Str) (singles : Dict Grp Grp) (groups : List Grp) (total : Grp) (st st' : Stacks)
    (hst : StWF st) (hk : Dict.WF singles) (hdis : ∀ kd ∈ singles, kd.2 ∉ Dict.keys singles)
    (hgr : groups.Nodup) (hg : ∀ g ∈ groups, g ∉ Dict.keys singles)
    (ht : total ∉ groups) (ht1 : total ∉ Dict.keys singles) (ht2 : total ∉ singles.map Prod.snd)
    (hlen : ∀ g k l, get2 st g k = some l → l.length = nstack)
    (h : addDetectors nstack ctrs (singles ++ groups.map fun g => (g, total)) st = some st') (k : Str) (hkt : k ∉ labels st total) :
    (∀ g, g ∈ Dict.keys singles ∨ g ∈ groups → get2 st' g k = none) ∧
    (groups.flatMap (parts singles st k) = [] → get2 st' total k = none) ∧
    (groups.flatMap (parts singles st k) ≠ [] → ∃ l, get2 st' total k = some l ∧ l.length = nstack ∧
      ∀ i, i < nstack → l[i]? = some (.slice (addFun ctrs k) false (argsAt (addFun ctrs k) (groups.flatMap (parts singles st k)) i))) := by
  unfold addDetectors at h
  rw [addLoop_append] at h
  cases h1 : addLoop nstack ctrs singles st [] with
  | none => simp [h1] at h
  | some p =>
    obtain ⟨s1, f1⟩ := p
    rw [h1, Option.bind_some] at h
    simp only at h
    obtain ⟨a1, a2, a3, a4, a5⟩ := addLoop_spec hst hk hdis h1
    cases h2 : addLoop nstack ctrs (groups.map fun g => (g, total)) s1 f1 with
    | none => simp [h2] at h
    | some p =>
      obtain ⟨s2, f2⟩ := p
      simp only [h2, Option.map_some, Option.some.injEq] at h
      subst h
      have hfst : (groups.map fun g => (g, total)).map Prod.fst = groups := by simp [Function.comp_def]
      obtain ⟨b1, b2, b3, b4, b5⟩ := addLoop_spec a1 (by rw [hfst]; exact hgr) (by
        intro kd hkd
        obtain ⟨g, -, rfl⟩ := List.mem_map.mp hkd
        rw [hfst]; exact ht) h2
      have hf1 : Dict.get? f1 total = none := by rw [a2 total ht2]; rfl
      have ht0 : Dict.get? s1 total = Dict.get? st total := a4 total ht1 ht2
      have hnone : get2 st total k = none := by
        unfold labels at hkt
        unfold get2
        cases hs : Dict.get? st total with
        | none => rfl
        | some d => rw [hs] at hkt; exact (Dict.get?_none _ _).mpr hkt
      have e := b5 total (by rw [hfst]; exact ht) k
      rw [hf1, Option.getD_none, labels_congr ht0, if_neg hkt, get2_congr ht0, hnone] at e
      -- the data sets of the groups after the first round
      have hmid : ∀ g ∈ groups, get2 s1 g k = if k ∈ labels st g then get2 st g k else
          (contributors singles st g k).foldl (step nstack ctrs k) none := by
        intro g hgm
        have := a5 g (hg g hgm) k
        rw [show (Dict.get? ([] : Dict Grp (List Str)) g) = none from rfl, Option.getD_none] at this
        rw [this]
        by_cases hkl : k ∈ labels st g
        · simp [hkl]
        · simp only [hkl, if_false]
          congr 1
          unfold labels at hkl
          unfold get2
          cases hs : Dict.get? st g with
          | none => rfl
          | some d => rw [hs] at hkl; exact (Dict.get?_none _ _).mpr hkl
      have hclen : ∀ g, ∀ l ∈ contributors singles st g k, l.length = nstack := by
        intro g l hl
        obtain ⟨kd, hkd, e⟩ := List.mem_filterMap.mp hl
        split at e
        · exact hlen kd.1 k l e
        · simp at e
      have hcontr : contributors (groups.map fun g => (g, total)) s1 total k = groups.filterMap fun g => get2 s1 g k := by
        simp [contributors, List.filterMap_map, Function.comp_def]
      rw [hcontr] at e
      -- one round over the groups
      have key : ∀ gs : List Grp, (∀ g ∈ gs, g ∈ groups) →
          (gs.filterMap (fun g => get2 s1 g k) = [] ↔ gs.flatMap (parts singles st k) = []) ∧
          (∀ l ∈ gs.filterMap (fun g => get2 s1 g k), l.length = nstack) ∧
          ∀ i, i < nstack → argsAt (addFun ctrs k) (gs.filterMap fun g => get2 s1 g k) i = argsAt (addFun ctrs k) (gs.flatMap (parts singles st k)) i := by
        intro gs
        induction gs with
        | nil => intro _; simp
        | cons g gs ih =>
          intro hgs
          obtain ⟨i1, i2, i3⟩ := ih (fun x hx => hgs x (by simp [hx]))
          have hm := hmid g (hgs g (by simp))
          simp only [List.filterMap_cons, List.flatMap_cons, parts]
          by_cases hkl : k ∈ labels st g
          · rw [if_pos hkl] at hm
            cases hs : get2 st g k with
            | none =>
              simp only [hm, hs, hkl, if_true, Option.toList_none, List.nil_append]
              exact ⟨i1, i2, i3⟩
            | some l =>
              simp only [hm, hs, hkl, if_true, Option.toList_some, List.singleton_append]
              refine ⟨by simp, ?_, ?_⟩
              · intro m hmm
                rcases List.mem_cons.mp hmm with rfl | hmm
                · exact hlen g k _ hs
                · exact i2 m hmm
              · intro i hi
                have := i3 i hi
                simp only [argsAt, List.flatMap_cons] at this ⊢
                rw [this]
          · rw [if_neg hkl] at hm
            by_cases hc : contributors singles st g k = []
            · rw [hc] at hm
              simp only [List.foldl_nil] at hm
              simp only [hm, hkl, if_false, hc, List.nil_append]
              exact ⟨i1, i2, i3⟩
            · rw [foldl_step_none _ (hclen g) hc] at hm
              simp only [hm, hkl, if_false]
              refine ⟨by simp [hc], ?_, ?_⟩
              · intro m hmm
                rcases List.mem_cons.mp hmm with rfl | hmm
                · simp [slices]
                · exact i2 m hmm
              · intro i hi
                have := i3 i hi
                simp only [argsAt, List.flatMap_cons, List.flatMap_append] at this ⊢
                rw [this, getElem_slices _ _ _ _ hi]
                simp [contrib, argsAt]
      obtain ⟨k1, k2, k3⟩ := key groups (fun _ h => h)
      refine ⟨fun g hgg => ?_, fun hn => ?_, fun hn => ?_⟩
      · by_cases hgm : g ∈ groups
        · have := b3 g (by rw [hfst]; exact hgm)
          simp [get2, this]
        · rcases hgg with hgg | hgg
          · have h0 := a3 g hgg
            have h3 := b4 g (by rw [hfst]; exact hgm) (by
              intro hm
              obtain ⟨x, hx, e⟩ := List.mem_map.mp hm
              obtain ⟨y, -, rfl⟩ := List.mem_map.mp hx
              simp only at e
              exact ht1 (e ▸ hgg))
            simp [get2, h3, h0]
          · exact absurd hgg hgm
      · rw [e, k1.mpr hn]; rfl
      · rw [e, foldl_step_none _ k2 (fun h0 => hn (k1.mp h0))]
        refine ⟨_, rfl, by simp [slices], fun i hi => ?_⟩
        rw [getElem_slices _ _ _ _ hi, k3 i hi]

/-- Iron: S1 had been fitted, S2 is made from the detectors 1 and 2. -/
example : ((addDetectors 1 [] [(detG 0, sumDet 1), (detG 1, sumDet 2), (detG 2, sumDet 2), (sumDet 1, sumDet 3), (sumDet 2, sumDet 3)] st0).bind
      fun st => get2 st (sumDet 3) ['F', 'e']).bind (fun l => (value w0 0 (l.getD 0 .none)).map Img.list) = some [[none, some 22]] := by
  decide +kernel

/-- The image of merged sums is the sum of the images. -/
theorem value_flat_sum (w : World) (i : Nat) (as : List Arg) (imgs : List Img) (r c : Nat)
    (h : as.mapM (value w i) = some imgs) (hne : imgs ≠ []) (hs : ∀ j ∈ imgs, j.rows = r ∧ j.cols = c) :
    value w i (.slice .sum false (as.flatMap (contrib .sum))) = some ⟨r, c, fun a b => sumPx (imgs.map fun j => j.px a b)⟩ := by
  induction as using List.reverseRecOn generalizing imgs with
  | nil => simp at h; exact absurd h.symm (by simpa using hne)
  | append_singleton as a ih =>
    rw [mapM_append] at h
    cases h1 : as.mapM (value w i) with
    | none => simp [h1] at h
    | some l =>
      cases h2 : value w i a with
      | none => simp [h1, h2] at h
      | some y =>
        simp [h1, h2] at h
        subst h
        rw [List.flatMap_append, List.flatMap_singleton]
        have hy := hs y (by simp)
        by_cases hl : l = []
        · subst hl
          have has : as = [] := by simpa using (mapM_length _ _ _ h1).symm
          subst has
          simp only [List.flatMap_nil, List.nil_append]
          have e : ∀ a b, sumPx (([y] : List Img).map fun j => j.px a b) = y.px a b := fun a b => sumPx_single _
          have e3 : (fun a b => sumPx (([y] : List Img).map fun j => j.px a b)) = fun a b => y.px a b := by funext a b; exact e a b
          rw [e3]
          have e2 : (⟨r, c, fun a b => y.px a b⟩ : Img) = y := by rw [← hy.1, ← hy.2]
          rw [e2]
          have single : contrib .sum a = [a] → value w i (.slice .sum false (contrib .sum a)) = some y := by
            intro hc
            rw [hc, value_red w i .sum _ rfl]
            simp only [List.mapM_cons, List.mapM_nil, h2]
            simp only [Option.pure_def, Option.bind_eq_bind, Option.bind_some]
            rw [reduce_of (r := r) (c := c) (by simp) (by simpa using hy)]
            simp only [List.map_cons, List.map_nil, sumPx_single]
            rw [← hy.1, ← hy.2]
          cases a with
          | slice g v as =>
            by_cases hg : Fun.sum = g
            · subst hg
              cases v with
              | true => rw [value_red_unpack w i .sum _ rfl] at h2; simp at h2
              | false => simp only [contrib, if_true]; exact h2
            · exact single (by simp [contrib, hg])
          | _ => exact single rfl
        · have h3 := ih l h1 hl (fun j hj => hs j (by simp [hj]))
          have h4 := append_value w i .sum sumPx addPx rfl sumPx_append (fun l y => by rw [sumPx_single]) (as.flatMap (contrib .sum)) a _ _ y h3 h2
            ⟨hy.1.symm, hy.2.symm⟩ (appendArg_red .sum _ rfl false _ a)
          rw [h4]
          congr 2
          funext p q
          simp [sumPx_append, sumPx_single]

/-- So the pixels of a sum of peak areas or counters, whatever the nesting of groups, are the sums over
all data sets that were added. -/
theorem sum_value (w : World) (i : Nat) (cs : List (List Arg)) (as : List Arg) (imgs : List Img) (r c : Nat)
    (hcs : cs.map (fun l => l[i]?) = as.map some) (h : as.mapM (value w i) = some imgs) (hne : imgs ≠ []) (hs : ∀ j ∈ imgs, j.rows = r ∧ j.cols = c) :
    ∃ z, value w i (.slice .sum false (argsAt .sum cs i)) = some z ∧ z.rows = r ∧ z.cols = c ∧ ∀ a b,
      (z.px a b = none ↔ ∃ j ∈ imgs, j.px a b = none) ∧
      ((∀ j ∈ imgs, j.px a b ≠ none) → z.px a b = some ((imgs.map fun j => (j.px a b).getD 0).sum)) := by
  have e : argsAt .sum cs i = as.flatMap (contrib .sum) := by
    clear h
    induction cs generalizing as with
    | nil =>
      have : as = [] := by simpa using hcs
      subst this; rfl
    | cons l cs ih =>
      cases as with
      | nil => simp at hcs
      | cons a as =>
        simp only [List.map_cons, List.cons.injEq] at hcs
        have := ih as hcs.2
        simp only [argsAt, List.flatMap_cons] at this ⊢
        rw [this, hcs.1]
        rfl
  have hv := value_flat_sum w i as imgs r c h hne hs
  rw [e, hv]
  refine ⟨_, rfl, rfl, rfl, fun a b => ?_⟩
  -- a sum over the images themselves
  have key : ∀ l : List Img, (sumPx (l.map fun j => j.px a b) = none ↔ ∃ j ∈ l, j.px a b = none) ∧
      ((∀ j ∈ l, j.px a b ≠ none) → sumPx (l.map fun j => j.px a b) = some ((l.map fun j => (j.px a b).getD 0).sum)) := by
    intro l
    induction l with
    | nil => simp [sumPx]
    | cons j l ih =>
      have e : sumPx ((j :: l).map fun j => j.px a b) = addPx (j.px a b) (sumPx (l.map fun j => j.px a b)) := by
        rw [List.map_cons, ← List.singleton_append, sumPx_append, sumPx_single]
      rw [e]
      cases hj : j.px a b with
      | none => simp [addPx, hj]
      | some v =>
        cases hs : sumPx (l.map fun j => j.px a b) with
        | none =>
          rw [hs] at ih
          have := ih.1.mp rfl
          refine ⟨by simp [addPx, this], fun hall => ?_⟩
          obtain ⟨k, hk, hk2⟩ := this
          exact absurd hk2 (hall k (by simp [hk]))
        | some t =>
          rw [hs] at ih
          have h0 : ¬ ∃ j ∈ l, j.px a b = none := fun h => by have := ih.1.mpr h; simp at this
          refine ⟨by simp [addPx, hj]; simpa using h0, fun hall => ?_⟩
          have := ih.2 (fun k hk => hall k (by simp [hk]))
          simp only [Option.some.injEq] at this
          simp [addPx, hj, this]
  exact key imgs

example : (value w0 0 (.slice .sum false (argsAt .sum [[.slice .sum false [fileSlice ['a'], fileSlice ['c']]], [fileSlice ['c']]] 0))).map Img.list =
    some [[some 13, some 14]] := by decide +kernel

/-- Which function joins the detectors. -/
theorem addFun_spec (ctrs : List Str) (k : Str) :
    (k ∈ ctrs → addFun ctrs k = .sum) ∧
    (k ∉ ctrs → k.head? = some 'w' → addFun ctrs k = .nanmean) ∧
    (k ∉ ctrs → k.head? ≠ some 'w' → (∃ p s, k = p ++ ['c', 'h', 'i', 's', 'q'] ++ s) → addFun ctrs k = .nanmax) ∧
    (k ∉ ctrs → k.head? ≠ some 'w' → (¬ ∃ p s, k = p ++ ['c', 'h', 'i', 's', 'q'] ++ s) → addFun ctrs k = .sum) := by
  have hw : ['w'].isPrefixOf k = true ↔ k.head? = some 'w' := by
    cases k with
    | nil => simp
    | cons c t => rw [List.isPrefixOf_iff_prefix, List.cons_prefix_cons, List.head?_cons, Option.some.injEq]; exact ⟨fun h => h.1.symm, fun h => ⟨h.symm, List.nil_prefix⟩⟩
  have hsub : ∀ t : Str, hasSub ['c', 'h', 'i', 's', 'q'] t = true ↔ ∃ p s, t = p ++ ['c', 'h', 'i', 's', 'q'] ++ s := by
    intro t
    induction t with
    | nil => simp [hasSub]
    | cons c t ih =>
      rw [hasSub, Bool.or_eq_true, ih, List.isPrefixOf_iff_prefix]
      constructor
      · rintro (⟨s, hs⟩ | ⟨p, s, hs⟩)
        · exact ⟨[], s, by simpa using hs.symm⟩
        · exact ⟨c :: p, s, by simp [hs]⟩
      · rintro ⟨p, s, hs⟩
        cases p with
        | nil => exact Or.inl ⟨s, by simpa using hs.symm⟩
        | cons d p =>
          simp only [List.cons_append, List.cons.injEq] at hs
          exact Or.inr ⟨p, s, by simpa using hs.2⟩
  unfold addFun
  refine ⟨fun h => by simp [h], fun h h2 => ?_, fun h h2 h3 => ?_, fun h h2 h3 => ?_⟩
  · rw [if_neg h, if_pos (hw.mpr h2)]
  · rw [if_neg h, if_neg (fun h' => h2 (hw.mp h')), if_pos ((hsub k).mpr h3)]
  · rw [if_neg h, if_neg (fun h' => h2 (hw.mp h')), if_neg (fun h' => h3 ((hsub k).mp h'))]

/-- A peak of tungsten is no mass fraction ("W-L"), a mass fraction is ("wFe-K"). -/
example : addFun [] ['W', '-', 'L'] = .sum ∧ addFun [] ['w', 'F', 'e', '-', 'K'] = .nanmean ∧ addFun [] ['m', 'y', 'c', 'h', 'i', 's', 'q'] = .nanmax ∧
    addFun [['w', '1']] ['w', '1'] = .sum := by decide +kernel

end SC.XrfTask
