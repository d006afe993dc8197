import Verif.XrfTask.ExportProps
/-! # Properties of the whole task -/
namespace SC.XrfTask
open SC.Py SC.Naming SC.Grid

/-- The flux signals: a linear function of the counter for image `i` with the parameters of image `i`. -/
theorem addFlux_get2 {n : Nat} {flux trans : Option Str} {op0 opt : Nat → Rat × Rat} {st st' : Stacks} (hst : StWF st) (h : addFlux n flux trans op0 opt st = some st') :
    StWF st' ∧ (∀ g k, ¬ (g = counters ∧ k ∈ [flux0Name, fluxtName, transName, absName]) → get2 st' g k = get2 st g k) ∧
    (∀ c, flux = some c → get2 st' counters flux0Name = some ((List.range n).map fun i => .slice (.linear (op0 i).1 (op0 i).2) true [.dset countersName c])) ∧
    (∀ c, trans = some c → get2 st' counters fluxtName = some ((List.range n).map fun i => .slice (.linear (opt i).1 (opt i).2) true [.dset countersName c]) ∧
      get2 st' counters transName = some ((List.range n).map fun _ => .slice .transmission true [.dset countersName fluxtName, .dset countersName flux0Name]) ∧
      get2 st' counters absName = some ((List.range n).map fun _ => .slice .absorbance true [.dset countersName transName])) ∧
    (flux = none → get2 st' counters flux0Name = get2 st counters flux0Name) := by
  have n1 : flux0Name ≠ fluxtName := by decide
  have n2 : flux0Name ≠ transName := by decide
  have n3 : flux0Name ≠ absName := by decide
  have n4 : fluxtName ≠ transName := by decide
  have n5 : fluxtName ≠ absName := by decide
  have n6 : transName ≠ absName := by decide
  unfold addFlux at h
  split at h
  · next hn =>
    simp only [Option.some.injEq] at h
    subst h
    refine ⟨hst, fun _ _ _ => rfl, fun c hc => ?_, fun c hc => ?_, fun _ => rfl⟩
    · rw [hn.1] at hc; simp at hc
    · rw [hn.2] at hc; simp at hc
  · split at h
    · simp at h
    · next d hd =>
      simp only [Option.some.injEq] at h
      have key : ∀ (d' : Dict Str (List Arg)), Dict.WF d' → (∀ k, k ∉ [flux0Name, fluxtName, transName, absName] → Dict.get? d' k = Dict.get? d k) →
          st' = Dict.set st counters d' → StWF st' ∧ (∀ g k, ¬ (g = counters ∧ k ∈ [flux0Name, fluxtName, transName, absName]) → get2 st' g k = get2 st g k) ∧
          ∀ k, get2 st' counters k = Dict.get? d' k := by
        intro d' hw hk e
        subst e
        refine ⟨⟨Dict.wf_set _ hst.1 _ _, fun g e he => ?_⟩, fun g k hgk => ?_, fun k => ?_⟩
        · rw [Dict.get?_set] at he
          split at he
          · simp only [Option.some.injEq] at he
            subst he
            exact hw
          · exact hst.2 _ _ he
        · unfold get2
          rw [Dict.get?_set]
          split
          · next e =>
            subst e
            rw [hd, Option.bind_some, Option.bind_some]
            exact hk k (fun hm => hgk ⟨rfl, hm⟩)
          · rfl
        · unfold get2
          rw [Dict.get?_set, if_pos rfl, Option.bind_some]
      have hwd : Dict.WF d := hst.2 _ _ hd
      have hgd : ∀ k, get2 st counters k = Dict.get? d k := fun k => by unfold get2; rw [hd, Option.bind_some]
      cases flux with
      | none =>
        cases trans with
        | none => simp_all
        | some c =>
          simp only at h
          obtain ⟨a, b, e⟩ := key _ (Dict.wf_set _ (Dict.wf_set _ (Dict.wf_set _ hwd _ _) _ _) _ _) (fun k hk => by
            simp only [List.mem_cons, List.not_mem_nil, or_false, not_or] at hk
            simp only [Dict.get?_set, Ne.symm hk.2.1, Ne.symm hk.2.2.1, Ne.symm hk.2.2.2, if_false]) h.symm
          refine ⟨a, b, by simp, fun c' hc' => ?_, fun _ => ?_⟩
          · simp only [Option.some.injEq] at hc'
            subst hc'
            refine ⟨?_, ?_, ?_⟩ <;> rw [e] <;> simp [Dict.get?_set, Ne.symm n4, Ne.symm n5, Ne.symm n6]
          · rw [e, hgd]
            simp [Dict.get?_set, Ne.symm n1, Ne.symm n2, Ne.symm n3]
      | some c0 =>
        cases trans with
        | none =>
          simp only at h
          obtain ⟨a, b, e⟩ := key _ (Dict.wf_set _ hwd _ _) (fun k hk => by
            simp only [List.mem_cons, List.not_mem_nil, or_false, not_or] at hk
            simp only [Dict.get?_set, Ne.symm hk.1, if_false]) h.symm
          refine ⟨a, b, fun c' hc' => ?_, by simp, by simp⟩
          simp only [Option.some.injEq] at hc'
          subst hc'
          rw [e]
          simp [Dict.get?_set]
        | some c =>
          simp only at h
          obtain ⟨a, b, e⟩ := key _ (Dict.wf_set _ (Dict.wf_set _ (Dict.wf_set _ (Dict.wf_set _ hwd _ _) _ _) _ _) _ _) (fun k hk => by
            simp only [List.mem_cons, List.not_mem_nil, or_false, not_or] at hk
            simp only [Dict.get?_set, Ne.symm hk.1, Ne.symm hk.2.1, Ne.symm hk.2.2.1, Ne.symm hk.2.2.2, if_false]) h.symm
          refine ⟨a, b, fun c' hc' => ?_, fun c' hc' => ?_, by simp⟩
          · simp only [Option.some.injEq] at hc'
            subst hc'
            rw [e]
            simp [Dict.get?_set, Ne.symm n1, Ne.symm n2, Ne.symm n3]
          · simp only [Option.some.injEq] at hc'
            subst hc'
            refine ⟨?_, ?_, ?_⟩ <;> rw [e] <;> simp [Dict.get?_set, Ne.symm n4, Ne.symm n5, Ne.symm n6]

/-- What the task does with its stacks: image `j` of every signal is that of position `σ[j]`, with the
value its slice has in the finished file, and the axis is ascending. -/
theorem execute_saved {C I : Type} (x : Input C I) (st : Stacks) (axis : List Rat) (info : List (List I)) (h5 : Dict (Str × Str) (List Img))
    (hp : prepareStacks x = some st) (hst : StWF st)
    (hinj : ∀ g g' k, (get2 st g k).isSome → (get2 st g' k).isSome → g.name = g'.name → g = g')
    (h : execute x = some (axis, info, h5)) :
    ∃ (σ : List Nat) (rc : Option (Nat × Nat)), σ.Perm (List.range x.axis.length) ∧ axis.Pairwise (· ≤ ·) ∧
      (∀ (j i : Nat), σ[j]? = some i → axis[j]? = x.axis[i]?) ∧
      ∀ g k l, get2 st g k = some l → ∃ imgs, Dict.get? h5 (g.name, k) = some imgs ∧ imgs.length = x.axis.length ∧
        ∀ (j i : Nat), σ[j]? = some i → ∃ rc' a d z, rc = some rc' ∧ l[i]? = some a ∧
          value ⟨x.files, x.stats, x.transmission, x.absorbance, lastShape x.images, h5⟩ j a = some d ∧
          imgs[j]? = some z ∧ z.rows = rc'.1 ∧ z.cols = rc'.2 ∧ d.cols = rc'.2 ∧ ∀ p q, p < rc'.1 → z.px p q = if p < d.rows then d.px p q else some 0 := by
  unfold execute at h
  rw [hp] at h
  simp only at h
  split at h
  · simp at h
  · next ax inf st' hs =>
    obtain ⟨σ, s1, s2, s3, s4, -, s6, s7⟩ := sort_spec _ _ _ _ _ _ hst hs
    split at h
    · simp at h
    · next w o hw =>
      simp only [Option.some.injEq, Prod.mk.injEq] at h
      obtain ⟨rfl, rfl, rfl⟩ := h
      have hsome : ∀ g k, (get2 st' g k).isSome → (get2 st g k).isSome := by
        intro g k hk
        cases hg : get2 st g k with
        | none => rw [(s7 g k).1 hg] at hk; simp at hk
        | some l => rfl
      obtain ⟨e1, -, e3⟩ := export_spec st' _ _ _ s6 rfl (fun g g' k hg hg' e => hinj g g' k (hsome _ _ hg) (hsome _ _ hg') e) hw
      have hweq : w = ⟨x.files, x.stats, x.transmission, x.absorbance, lastShape x.images, w.h5⟩ := by
        obtain ⟨a1, a2, a3, a4, a5⟩ := e3
        cases w
        simp only at a1 a2 a3 a4 a5
        subst a1 a2 a3 a4 a5
        rfl
      refine ⟨σ, o, s1, s2, s4, fun g k l hl => ?_⟩
      obtain ⟨l', h1, h2, h3⟩ := (s7 g k).2 l hl
      obtain ⟨imgs, i1, i2, i3⟩ := e1 g k l' h1
      refine ⟨imgs, i1, by rw [i2, h2, s1.length_eq, List.length_range], fun j i hj => ?_⟩
      obtain ⟨a, a1, a2⟩ := h3 j i hj
      obtain ⟨rc', d, z, b1, b2, b3, b4⟩ := i3 j a a2
      rw [hweq] at b2
      exact ⟨rc', a, d, z, b1, a1, b2, b3, b4⟩

/-! ## the stacks -/

/-- The corrections of a detector after the fit. -/
def corrArgs {C I : Type} (x : Input C I) (fl : Flags) (g : Grp) (i : Nat) : List Arg :=
  [if fl.fluxafter then .dset countersName flux0Name else .none, if fl.fluxafter then .ref (x.refs.getD i none) else .none,
    if fl.dtafter = true ∧ g.category ≠ 1 then .xia i else .none, if fl.dtafter = true ∧ g.category ≠ 1 then .num g.number else .none]

/-- The names of the signals that are calculated from counters. -/
def fluxNames : List Str := [flux0Name, fluxtName, transName, absName]

/-- Before detectors are added: counters, flux and the corrected fit results. -/
theorem stacks_spec {C I : Type} (x : Input C I) (dets : Detectors) (pairs : List (Grp × C)) (im0 : Image) (r : List Image) (st : Stacks)
    (himg : x.images = im0 :: r) (hl : ∀ im ∈ x.images, CtrWF im.counters) (hcfg : x.cfgs ≠ [])
    (hfit : ∀ i g c fs, x.fit i g c = some fs → (fs.map Prod.fst).Nodup) (ht : dets.tofit.Nodup)
    (hd : prepareDetectors x.params x.found = some dets) (hp : pairConfigs dets.tofit x.cfgs = some pairs) (hpf : pairs.map Prod.fst = dets.tofit)
    (hcat : ∀ g ∈ dets.tofit, 0 ≤ g.category)
    (h : prepareStacks x = some st) :
    ∃ st0, StWF st0 ∧ (if dets.sumto = [] then st = st0 else addDetectors x.images.length (counterNames x.images) dets.sumto st0 = some st) ∧
      (∀ gc ∈ pairs, ∃ fs, x.fit 0 gc.1 gc.2 = some fs ∧ ∀ k, k ∉ counterNames x.images →
        (k ∈ fs.map Prod.fst → get2 st0 gc.1 k = some ((List.range x.images.length).map fun i => .slice .xrfnorm true (fitSlice x.fit gc.1 gc.2 k i :: corrArgs x (flags x.params dets.addspectra) gc.1 i))) ∧
        (k ∉ fs.map Prod.fst → (get2 st0 gc.1 k).isSome → (ctrFile im0.counters gc.1 k).isSome)) ∧
      (∀ g k, g ∉ dets.tofit → (get2 st0 g k).isSome → (ctrFile im0.counters g k).isSome ∨ (g = counters ∧ k ∈ fluxNames)) ∧
      (∀ k, k ∉ fluxNames → get2 st0 counters k = (ctrFile im0.counters counters k).map fun _ => x.images.map fun im => (ctrFile im.counters counters k).elim .none ctrSlice) ∧
      (∀ c, x.params.fluxnorm = true → x.flux = some c → get2 st0 counters flux0Name =
        some ((List.range x.images.length).map fun i => .slice (.linear (x.op0 i).1 (x.op0 i).2) true [.dset countersName c])) := by
  unfold prepareStacks at h
  rw [hd] at h
  simp only at h
  cases h1 : addCounters x.images.length 0 x.images [] with
  | none => simp [h1] at h
  | some s1 =>
    obtain ⟨c1, c2⟩ := counters_spec x.images im0 r s1 himg hl h1
    rw [h1] at h
    simp only at h
    cases h2 : (if x.params.fluxnorm then addFlux x.images.length x.flux x.trans x.op0 x.opt s1 else some s1) with
    | none => simp [h2] at h
    | some s2 =>
      rw [h2] at h
      simp only at h
      have hs2 : StWF s2 ∧ (∀ g k, ¬ (g = counters ∧ k ∈ fluxNames) → get2 s2 g k = get2 s1 g k) ∧
          (∀ c, x.params.fluxnorm = true → x.flux = some c → get2 s2 counters flux0Name = some ((List.range x.images.length).map fun i => .slice (.linear (x.op0 i).1 (x.op0 i).2) true [.dset countersName c])) := by
        split at h2
        · obtain ⟨f1, f2, f3, -⟩ := addFlux_get2 c1 h2
          exact ⟨f1, f2, fun c _ hc => f3 c hc⟩
        · next hn =>
          simp only [Option.some.injEq] at h2
          subst h2
          exact ⟨c1, fun _ _ _ => rfl, fun c hc => absurd hc hn⟩
      obtain ⟨f1, f2, f3⟩ := hs2
      cases h3 : addFits x.fit x.images.length dets.tofit x.cfgs s2 with
      | none => simp [h3] at h
      | some s3 =>
        rw [h3] at h
        simp only at h
        obtain ⟨g1, g2, g3⟩ := fits_spec x.fit x.images.length dets.tofit x.cfgs pairs s2 s3 (by rw [himg]; simp) hcfg f1 ht hfit hp hpf h3
        have hcnt : counters ∉ dets.tofit := fun hm => by
          have := hcat _ hm
          simp [counters] at this
        generalize hs4 : applyPost x.refs (flags x.params dets.addspectra).fluxafter (flags x.params dets.addspectra).dtafter (counterNames x.images) s3 = s4 at h
        have ap := fun g k => applyPost_spec x.refs (flags x.params dets.addspectra).fluxafter (flags x.params dets.addspectra).dtafter (counterNames x.images) s3 g k
        rw [hs4] at ap
        have hw4 : StWF s4 := by
          rw [← hs4]
          exact applyPost_wf _ _ _ _ g1
        have hcs : ∀ k, get2 s4 counters k = get2 s2 counters k := by
          intro k
          rw [ap, if_neg (by simp [counters]), g2 _ hcnt]
        refine ⟨s4, hw4, ?_, ?_, ?_, ?_, ?_⟩
        · split at h
          · next hn =>
            rw [if_pos hn]
            simpa using h.symm
          · next hn =>
            rw [if_neg hn]
            exact h
        · intro gc hgc
          have hgt : gc.1 ∈ dets.tofit := by rw [← hpf]; exact List.mem_map.mpr ⟨gc, hgc, rfl⟩
          have hne : gc.1 ≠ counters := fun e => hcnt (e ▸ hgt)
          obtain ⟨fs, k1, k2⟩ := g3 gc hgc
          refine ⟨fs, k1, fun k hk => ⟨fun hm => ?_, fun hm hs => ?_⟩⟩
          · rw [ap, if_pos ⟨hcat _ hgt, hk⟩, (k2 k).1 hm, Option.map_some]
            congr 1
            apply List.ext_getElem
            · simp
            · intro i h1 h2
              simp only [List.getElem_mapIdx, List.getElem_map, List.getElem_range, corrArgs]
          · by_contra hc
            have : get2 s2 gc.1 k = none := by
              rw [f2 _ _ (fun h => hne h.1), c2]
              cases hcf : ctrFile im0.counters gc.1 k with
              | none => rfl
              | some f => rw [hcf] at hc; simp at hc
            rw [ap, if_pos ⟨hcat _ hgt, hk⟩, (k2 k).2 hm this] at hs
            simp at hs
        · intro g k hg hs
          by_cases hgk : g = counters ∧ k ∈ fluxNames
          · exact .inr hgk
          · left
            have : (get2 s3 g k).isSome := by
              rw [ap] at hs
              split at hs
              · simpa using hs
              · exact hs
            rw [g2 g hg, f2 _ _ hgk, c2] at this
            simpa using this
        · intro k hk
          rw [hcs, f2 _ _ (fun h => hk h.2), c2]
        · intro c hf hc
          rw [hcs]
          exact f3 c hf hc

theorem pairConfigs_fst {C : Type} {tofit : List Grp} {cfgs : List C} {l : List (Grp × C)} (h : pairConfigs tofit cfgs = some l) : l.map Prod.fst = tofit := by
  by_cases h1 : cfgs.length = 1
  · obtain ⟨c, rfl⟩ := List.length_eq_one_iff.mp h1
    obtain ⟨l', e, e', -⟩ := (pairConfigs_spec tofit [c]).1 c rfl
    rw [h] at e
    cases e
    exact e'
  · by_cases h2 : cfgs.length = tofit.length
    · obtain ⟨l', e, e', -⟩ := (pairConfigs_spec tofit cfgs).2.2 h2
      rw [h] at e
      cases e
      exact e'
    · rw [(pairConfigs_spec tofit cfgs).2.1 h1 h2] at h
      simp at h

/-- The groups of the task. -/
def Known (dets : Detectors) (im0 : Image) (g : Grp) : Prop :=
  (∃ dv ∈ im0.counters, grpOf (.str dv.1) = some g) ∨ g = counters ∨ g ∈ dets.tofit ∨ g ∈ dets.sumto.map Prod.snd

/-- A task: images with counters, configurations for all fits, fits with distinct labels, groups with
distinct names. -/
structure Setup {C I : Type} (x : Input C I) (dets : Detectors) (pairs : List (Grp × C)) (im0 : Image) : Prop where
  first : ∃ r, x.images = im0 :: r
  ctrs : ∀ im ∈ x.images, CtrWF im.counters
  cfgs : x.cfgs ≠ []
  fits : ∀ i g c fs, x.fit i g c = some fs → (fs.map Prod.fst).Nodup
  tofit : dets.tofit.Nodup
  isdets : prepareDetectors x.params x.found = some dets
  ispairs : pairConfigs dets.tofit x.cfgs = some pairs
  cat : ∀ g ∈ dets.tofit, 0 ≤ g.category
  names : ∀ g g', Known dets im0 g → Known dets im0 g' → g.name = g'.name → g = g'
  sums : Dict.WF dets.sumto
  flat : ∀ kd ∈ dets.sumto, kd.2 ∉ Dict.keys dets.sumto
  nocounters : counters ∉ Dict.keys dets.sumto ∧ counters ∉ dets.sumto.map Prod.snd

/-- The incoming flux in a pixel of image `i`: the linear function of image `i` of the counter in the
counter file of image `i`. -/
def FluxAt {C I : Type} (x : Input C I) (im0 : Image) (i p q : Nat) (F : Rat) : Prop :=
  ∃ c im f Y v, x.flux = some c ∧ c ∉ fluxNames ∧ (ctrFile im0.counters counters c).isSome ∧ x.images[i]? = some im ∧ ctrFile im.counters counters c = some f ∧
    x.files f = some Y ∧ p < Y.rows ∧ q < Y.cols ∧ p < (lastShape x.images).1 ∧ q < (lastShape x.images).2 ∧ Y.px p q = some v ∧
    F = (x.op0 i).1 * v + (x.op0 i).2

/-- The normalization to a reference flux. -/
def fluxFactor (r F : Rat) : Rat := if r = 0 then 1 else r / if F = 0 then 1 else F

/-- A corrected value. -/
def correct (fl : Flags) (v r F : Rat) (s : Rat × Rat) : Rat :=
  v * (if fl.fluxafter then fluxFactor r F else 1) * (if fl.dtafter then deadtime s.1 s.2 else 1)

theorem normOf_px {X : Img} {z : Val} {ref : Px} {no : Option Img} (h : normOf X z (.ref ref) = some no) {r : Rat} (hr : ref = some r) {p q : Nat} {v F : Rat}
    (hF : ∀ z', z = .img z' → z'.rows = X.rows → z'.px p q = some F) :
    no.elim (some v) (fun n => mulPx (some v) (n.px p q)) = some (v * fluxFactor r F) := by
  subst hr
  unfold normOf at h
  simp only at h
  split at h
  · next e =>
    simp only [Option.some.injEq] at h e
    subst h e
    simp [fluxFactor]
  · next e =>
    split at h
    · split at h
      · next hs =>
        simp only [Option.some.injEq] at h
        subst h
        have hne : r ≠ 0 := fun h => e (by rw [h])
        have hz := hF _ rfl hs.1
        simp only [Img.map, fluxFactor, hne, if_false, Option.elim_some]
        rw [hz]
        rfl
      · simp at h
    · simp at h

theorem dtcorPx_pair {s : Rat × Rat} (h : 0 ≤ s.2) : dtcorPx s = deadtime s.1 s.2 := dtcorPx_eq s.1 s.2 h

/-- The inverse of `xrfnorm_pixel`: what a corrected slice was made of. -/
theorem corrected_slice {C I : Type} (x : Input C I) (fl : Flags) (w : World) (g : Grp) (c : C) (k : Str) (i j : Nat) (d : Img) (hcat : g.category ≠ 1)
    (h : value w j (.slice .xrfnorm true (fitSlice x.fit g c k i :: corrArgs x fl g i)) = some d) :
    ∃ fs f X, x.fit i g c = some fs ∧ Dict.get? (fs : Dict Str Str) k = some f ∧ w.files f = some X ∧ d.rows = X.rows ∧ d.cols = X.cols ∧
      ∀ p q v r F s, X.px p q = some v → 
        (fl.fluxafter = true → x.refs.getD i none = some r ∧ ∀ z, eval w j (.dset countersName flux0Name) = some (.img z) → z.rows = X.rows → z.px p q = some F) →
        (fl.dtafter = true → ∃ st, w.stats i g.number = some st ∧ st p q = s ∧ 0 ≤ s.2) →
        d.px p q = some (correct fl v r F s) := by
  have h' := value_img h
  simp only [eval, corrArgs, evalList] at h'
  -- the fit
  cases hf : ((x.fit i g c).bind fun fs => Dict.get? (fs : Dict Str Str) k) with
  | none =>
    exfalso
    have e : fitSlice x.fit g c k i = .none := by unfold fitSlice; rw [hf]; rfl
    rw [e] at h'
    simp only [eval, Option.bind_some] at h'
    generalize (eval w j _).bind _ = o at h'
    cases o with
    | none => simp at h'
    | some l => simp [apply, xrfnorm] at h'
  | some f =>
    have e : fitSlice x.fit g c k i = fileSlice f := by unfold fitSlice; rw [hf]; rfl
    obtain ⟨fs, hfs, hk⟩ := Option.bind_eq_some_iff.mp hf
    rw [e] at h'
    cases hX : w.files f with
    | none => simp [fileSlice, eval, evalList, hX] at h'
    | some X =>
      have eX : eval w j (fileSlice f) = some (.img X) := by simp [fileSlice, eval, evalList, hX, apply]
      rw [eX, Option.bind_some] at h'
      refine ⟨fs, f, X, hfs, hk, hX, ?_⟩
      cases hfl : fl.fluxafter with
      | false =>
        cases hdt : fl.dtafter with
        | false =>
          simp only [hfl, hdt, eval, apply, xrfnorm, normOf, dtOf, Option.bind_some, Option.map_some, if_false, Bool.false_eq_true, false_and, Option.some.injEq, Val.img.injEq] at h'
          subst h'
          refine ⟨rfl, rfl, fun p q v r F s hv _ _ => ?_⟩
          simp [correct, hfl, hdt, hv]
        | true =>
          simp only [hfl, hdt, eval, apply, xrfnorm, normOf, dtOf, Option.bind_some, Option.map_some, if_false, if_true, Bool.false_eq_true, true_and, hcat, ne_eq, not_false_eq_true] at h'
          cases hs : w.stats i g.number with
          | none => simp [hs] at h'
          | some st =>
            simp only [hs, Option.map_some, Option.some.injEq, Val.img.injEq] at h'
            subst h'
            refine ⟨rfl, rfl, fun p q v r F s hv _ hst => ?_⟩
            obtain ⟨st', e1, e2, e3⟩ := hst rfl
            simp only [Option.some.injEq] at e1
            subst e1 e2
            simp [correct, hfl, hdt, hv, mulPx, dtcorPx_pair e3]
      | true =>
        cases hz : eval w j (.dset countersName flux0Name) with
        | none => 
          rw [hfl] at h'
          simp only [if_true] at h'
          rw [hz] at h'
          simp at h'
        | some z =>
          rw [hfl] at h'
          simp only [if_true] at h'
          rw [hz] at h'
          simp only [eval, Option.bind_some, Option.map_some] at h'
          cases hdt : fl.dtafter with
          | false =>
            simp only [hdt, eval, apply, xrfnorm, dtOf, Option.bind_some, Option.map_some, if_false, Bool.false_eq_true, false_and] at h'
            cases hno : normOf X z (.ref (x.refs.getD i none)) with
            | none => rw [hno] at h'; simp at h'
            | some no =>
              simp only [hno, Option.map_some, Option.some.injEq, Val.img.injEq] at h'
              subst h'
              refine ⟨rfl, rfl, fun p q v r F s hv hF _ => ?_⟩
              obtain ⟨e1, e2⟩ := hF rfl
              have := normOf_px hno e1 (p := p) (q := q) (v := v) (F := F) (fun z' hz' hr => e2 z' (by rw [hz']) hr)
              simp only [hv, correct, hfl, hdt, if_true, Bool.false_eq_true, if_false, mul_one]
              cases no <;> exact this
          | true =>
            simp only [hdt, eval, apply, xrfnorm, dtOf, Option.bind_some, Option.map_some, if_true, true_and, hcat, ne_eq, not_false_eq_true] at h'
            cases hno : normOf X z (.ref (x.refs.getD i none)) with
            | none => rw [hno] at h'; simp at h'
            | some no =>
              cases hs : w.stats i g.number with
              | none => rw [hno, hs] at h'; simp at h'
              | some st =>
                simp only [hno, hs, Option.map_some, Option.some.injEq, Val.img.injEq] at h'
                subst h'
                refine ⟨rfl, rfl, fun p q v r F s hv hF hst => ?_⟩
                obtain ⟨e1, e2⟩ := hF rfl
                obtain ⟨st', s1, s2, s3⟩ := hst rfl
                simp only [Option.some.injEq] at s1
                subst s1 s2
                have := normOf_px hno e1 (p := p) (q := q) (v := v) (F := F) (fun z' hz' hr => e2 z' (by rw [hz']) hr)
                simp only [hv, correct, hfl, hdt, if_true]
                have e3 : ∀ (o : Px) (u : Rat), o = some u → mulPx o (some (dtcorPx (st p q))) = some (u * deadtime (st p q).1 (st p q).2) := by
                  rintro _ u rfl
                  rw [dtcorPx_pair s3]
                  rfl
                cases no <;> exact e3 _ _ this

/-- The fit result in a pixel of image `i`. -/
def FitAt {C I : Type} (x : Input C I) (g : Grp) (c : C) (k : Str) (i p q : Nat) (v : Rat) : Prop :=
  ∃ fs f X, x.fit i g c = some fs ∧ Dict.get? (fs : Dict Str Str) k = some f ∧ x.files f = some X ∧ p < X.rows ∧ X.px p q = some v

theorem contributors_none {sumto : Dict Grp Grp} {st : Stacks} {g : Grp} {k : Str} (h : g ∉ sumto.map Prod.snd) : contributors sumto st g k = [] := by
  unfold contributors
  rw [List.filterMap_eq_nil_iff]
  intro kd hkd
  rw [if_neg]
  intro e
  exact h (List.mem_map.mpr ⟨kd, hkd, e⟩)

/-- The stacks of the task, with the detectors added. -/
theorem setup_stacks {C I : Type} {x : Input C I} {dets : Detectors} {pairs : List (Grp × C)} {im0 : Image} (S : Setup x dets pairs im0) {st : Stacks}
    (h : prepareStacks x = some st) :
    StWF st ∧ (∀ g g' k, (get2 st g k).isSome → (get2 st g' k).isSome → g.name = g'.name → g = g') ∧
    ∃ st0, StWF st0 ∧ (∀ g, g ∉ Dict.keys dets.sumto → g ∉ dets.sumto.map Prod.snd → ∀ k, get2 st g k = get2 st0 g k) ∧
      (dets.sumto ≠ [] → addDetectors x.images.length (counterNames x.images) dets.sumto st0 = some st) ∧
      (∀ gc ∈ pairs, ∃ fs, x.fit 0 gc.1 gc.2 = some fs ∧ ∀ k, k ∉ counterNames x.images → k ∈ fs.map Prod.fst →
        get2 st0 gc.1 k = some ((List.range x.images.length).map fun i => .slice .xrfnorm true (fitSlice x.fit gc.1 gc.2 k i :: corrArgs x (flags x.params dets.addspectra) gc.1 i))) ∧
      (∀ k, k ∉ fluxNames → get2 st0 counters k = (ctrFile im0.counters counters k).map fun _ => x.images.map fun im => (ctrFile im.counters counters k).elim .none ctrSlice) ∧
      (∀ c, x.params.fluxnorm = true → x.flux = some c → get2 st0 counters flux0Name =
        some ((List.range x.images.length).map fun i => .slice (.linear (x.op0 i).1 (x.op0 i).2) true [.dset countersName c])) ∧
      (∀ g k, g ∉ dets.tofit → (get2 st0 g k).isSome → (ctrFile im0.counters g k).isSome ∨ (g = counters ∧ k ∈ fluxNames)) := by
  obtain ⟨r, hr⟩ := S.first
  obtain ⟨st0, w0, h1, h2, h3, h4, h5⟩ := stacks_spec x dets pairs im0 r st hr S.ctrs S.cfgs S.fits S.tofit S.isdets S.ispairs (pairConfigs_fst S.ispairs) S.cat h
  have hk0 : ∀ g k, (get2 st0 g k).isSome → Known dets im0 g := by
    intro g k hs
    by_cases hg : g ∈ dets.tofit
    · exact .inr (.inr (.inl hg))
    · rcases h3 g k hg hs with h | h
      · left
        by_contra hn
        rw [ctrFile_none k (fun hm => hn (by
          obtain ⟨dv, hdv, e⟩ := List.mem_map.mp hm
          exact ⟨dv, hdv, e⟩))] at h
        simp at h
      · exact .inr (.inl h.1)
  have hfin : StWF st ∧ (∀ g, g ∉ Dict.keys dets.sumto → g ∉ dets.sumto.map Prod.snd → ∀ k, get2 st g k = get2 st0 g k) ∧
      (dets.sumto ≠ [] → addDetectors x.images.length (counterNames x.images) dets.sumto st0 = some st) ∧ ∀ g k, (get2 st g k).isSome → Known dets im0 g := by
    by_cases hs : dets.sumto = []
    · rw [if_pos hs] at h1
      subst h1
      exact ⟨w0, fun _ _ _ _ => rfl, fun h => absurd hs h, hk0⟩
    · rw [if_neg hs] at h1
      have h1' := h1
      unfold addDetectors at h1
      cases hl : addLoop x.images.length (counterNames x.images) dets.sumto st0 [] with
      | none => simp [hl] at h1
      | some p =>
        obtain ⟨s, f⟩ := p
        simp only [hl, Option.map_some, Option.some.injEq] at h1
        subst h1
        obtain ⟨a1, -, a3, a4, a5⟩ := addLoop_spec w0 S.sums S.flat hl
        refine ⟨a1, fun g hg hg' k => get2_congr (a4 g hg hg') k, fun _ => h1', fun g k hgk => ?_⟩
        by_cases hg' : g ∈ dets.sumto.map Prod.snd
        · exact .inr (.inr (.inr hg'))
        · by_cases hg : g ∈ Dict.keys dets.sumto
          · have := a3 g hg
            unfold get2 at hgk
            rw [this] at hgk
            simp at hgk
          · rw [get2_congr (a4 g hg hg') k] at hgk
            exact hk0 g k hgk
  obtain ⟨f1, f2, f3, f4⟩ := hfin
  refine ⟨f1, fun g g' k hg hg' e => S.names g g' (f4 g k hg) (f4 g' k hg') e, st0, w0, f2, f3, fun gc hgc => ?_, h4, h5, h3⟩
  obtain ⟨fs, k1, k2⟩ := h2 gc hgc
  exact ⟨fs, k1, fun k hk hm => (k2 k hk).1 hm⟩

/-- The flux that is saved. -/
theorem saved_flux {C I : Type} {x : Input C I} {im0 : Image} {st : Stacks} {h5 : Dict (Str × Str) (List Img)} {σ : List Nat} {rc : Option (Nat × Nat)}
    (hc : ∀ k, k ∉ fluxNames → get2 st counters k = (ctrFile im0.counters counters k).map fun _ => x.images.map fun im => (ctrFile im.counters counters k).elim .none ctrSlice)
    (hf : ∀ c, x.flux = some c → get2 st counters flux0Name = some ((List.range x.images.length).map fun i => .slice (.linear (x.op0 i).1 (x.op0 i).2) true [.dset countersName c]))
    (hsaved : ∀ g k l, get2 st g k = some l → ∃ imgs, Dict.get? h5 (g.name, k) = some imgs ∧ imgs.length = x.axis.length ∧
        ∀ (j i : Nat), σ[j]? = some i → ∃ rc' a d z, rc = some rc' ∧ l[i]? = some a ∧
          value ⟨x.files, x.stats, x.transmission, x.absorbance, lastShape x.images, h5⟩ j a = some d ∧
          imgs[j]? = some z ∧ z.rows = rc'.1 ∧ z.cols = rc'.2 ∧ d.cols = rc'.2 ∧ ∀ p q, p < rc'.1 → z.px p q = if p < d.rows then d.px p q else some 0)
    {i j p q : Nat} {F : Rat} {rc' : Nat × Nat} (hrc : rc = some rc') (hp : p < rc'.1) (hj : σ[j]? = some i) (h : FluxAt x im0 i p q F) :
    ∀ z, eval ⟨x.files, x.stats, x.transmission, x.absorbance, lastShape x.images, h5⟩ j (.dset countersName flux0Name) = some (.img z) → z.px p q = some F := by
  obtain ⟨c, im, f, Y, v, e1, e2, e3, e4, e5, e6, e7, e8, e9, e10, e11, e12⟩ := h
  intro z hz
  -- the counter
  obtain ⟨f0, hf0⟩ := Option.isSome_iff_exists.mp e3
  have hcl := hc c e2
  rw [hf0, Option.map_some] at hcl
  obtain ⟨imgsC, c1, -, c3⟩ := hsaved counters c _ hcl
  obtain ⟨rcc, a, d, zc, r1, r2, r3, r4, r5, r6, r7, r8⟩ := c3 j i hj
  rw [hrc] at r1
  simp only [Option.some.injEq] at r1
  subst r1
  rw [List.getElem?_map, e4, Option.map_some, e5] at r2
  simp only [Option.some.injEq, Option.elim_some] at r2
  subst r2
  have hd : d = fitShape (lastShape x.images).1 (lastShape x.images).2 Y := by
    have := value_img r3
    simp only [ctrSlice, eval, evalList, e6, Option.map_some, Option.bind_some, apply, Option.some.injEq, Val.img.injEq] at this
    exact this.symm
  have hdpx : p < d.rows ∧ d.px p q = some v := by
    rw [hd]
    unfold fitShape
    split
    · exact ⟨e7, e11⟩
    · refine ⟨e9, ?_⟩
      simp only
      rw [if_pos, e11]
      exact ⟨lt_min e7 e9, lt_min e8 e10⟩
  have hzc : zc.px p q = some v := by rw [r8 p q hp, if_pos hdpx.1]; exact hdpx.2
  -- the flux
  obtain ⟨imgsF, c1', -, c3'⟩ := hsaved counters flux0Name _ (hf c e1)
  obtain ⟨rcc, a, d', zf, s1, s2, s3, s4, s5, s6, s7, s8⟩ := c3' j i hj
  rw [hrc] at s1
  simp only [Option.some.injEq] at s1
  subst s1
  have hin : i < x.images.length := (List.getElem?_eq_some_iff.mp e4).1
  rw [List.getElem?_map, List.getElem?_range hin] at s2
  simp only [Option.map_some, Option.some.injEq] at s2
  subst s2
  have hd' : d' = zc.map fun y => addPx (mulPx (some (x.op0 i).1) y) (some (x.op0 i).2) := by
    have := value_img s3
    have c1n : Dict.get? h5 (countersName, c) = some imgsC := c1
    simp only [eval, evalList, c1n, r4, Option.map_some, Option.bind_some, apply, Option.some.injEq, Val.img.injEq] at this
    exact this.symm
  have hzf : zf.px p q = some F := by
    rw [s8 p q hp, hd']
    have : p < (zc.map fun y => addPx (mulPx (some (x.op0 i).1) y) (some (x.op0 i).2)).rows := by
      show p < zc.rows
      rw [r5]
      exact hp
    rw [if_pos this]
    simp only [Img.map, hzc, mulPx, addPx, e12]
  have c1n : Dict.get? h5 (countersName, flux0Name) = some imgsF := c1'
  simp only [eval, c1n, s4, Option.map_some, Option.bind_some, Option.some.injEq, Val.img.injEq] at hz
  rw [← hz]
  exact hzf

theorem fluxafter_norm {p : Params} {b : Bool} (h : (flags p b).fluxafter = true) : p.fluxnorm = true := by
  simp only [flags, Bool.and_eq_true] at h
  exact h.1

/-- Image `j` of a fit result is that of the image with the `j`-th energy: the fit result of that image,
normalized with the flux and the reference of that image and corrected for the dead time of that detector
in that image. -/
theorem task_detector {C I : Type} (x : Input C I) (dets : Detectors) (pairs : List (Grp × C)) (im0 : Image) (S : Setup x dets pairs im0)
    (axis : List Rat) (info : List (List I)) (h5 : Dict (Str × Str) (List Img)) (h : execute x = some (axis, info, h5)) :
    ∃ (σ : List Nat) (rc : Option (Nat × Nat)), σ.Perm (List.range x.axis.length) ∧ axis.Pairwise (· ≤ ·) ∧ (∀ (j i : Nat), σ[j]? = some i → axis[j]? = x.axis[i]?) ∧
      ∀ gc ∈ pairs, gc.1 ∉ Dict.keys dets.sumto → gc.1 ∉ dets.sumto.map Prod.snd → gc.1.category ≠ 1 →
      ∀ fs k, x.fit 0 gc.1 gc.2 = some fs → k ∈ fs.map Prod.fst → k ∉ counterNames x.images →
      ∃ imgs, Dict.get? h5 (gc.1.name, k) = some imgs ∧ imgs.length = x.axis.length ∧
        ∀ (j i : Nat), σ[j]? = some i → ∃ z rc', rc = some rc' ∧ imgs[j]? = some z ∧ z.rows = rc'.1 ∧ z.cols = rc'.2 ∧
          ∀ p q v r F s, p < z.rows → FitAt x gc.1 gc.2 k i p q v →
            ((flags x.params dets.addspectra).fluxafter = true → x.refs.getD i none = some r ∧ FluxAt x im0 i p q F) →
            ((flags x.params dets.addspectra).dtafter = true → ∃ st, x.stats i gc.1.number = some st ∧ st p q = s ∧ 0 ≤ s.2) →
            z.px p q = some (correct (flags x.params dets.addspectra) v r F s) := by
  obtain ⟨st, hst⟩ : ∃ st, prepareStacks x = some st := by
    unfold execute at h
    cases hp : prepareStacks x with
    | none => simp [hp] at h
    | some st => exact ⟨st, rfl⟩
  obtain ⟨a1, a2, st0, a3, a4, -, a6, a7, a8, a9⟩ := setup_stacks S hst
  obtain ⟨σ, rc, b1, b2, b3, b4⟩ := execute_saved x st axis info h5 hst a1 a2 h
  refine ⟨σ, rc, b1, b2, b3, fun gc hgc hg1 hg2 hcat fs k hfs hk hkc => ?_⟩
  obtain ⟨fs', k1, k2⟩ := a6 gc hgc
  rw [hfs] at k1
  simp only [Option.some.injEq] at k1
  subst k1
  have hget := k2 k hkc hk
  rw [← a4 gc.1 hg1 hg2 k] at hget
  obtain ⟨imgs, i1, i2, i3⟩ := b4 gc.1 k _ hget
  refine ⟨imgs, i1, i2, fun j i hj => ?_⟩
  obtain ⟨rc', a, d, z, r1, r2, r3, r4, r5, r6, r7, r8⟩ := i3 j i hj
  refine ⟨z, rc', r1, r4, r5, r6, fun p q v r F s hp hv hF hs => ?_⟩
  have hin : i < x.images.length := by
    by_contra hn
    rw [List.getElem?_eq_none (by simpa using hn)] at r2
    simp at r2
  rw [List.getElem?_map, List.getElem?_range hin] at r2
  simp only [Option.map_some, Option.some.injEq] at r2
  subst r2
  obtain ⟨fs', f, X, e1, e2, e3, e4, e5, e6⟩ := corrected_slice x (flags x.params dets.addspectra) _ gc.1 gc.2 k i j d hcat r3
  obtain ⟨fs'', f', X', v1, v2, v3, v4, v5⟩ := hv
  rw [e1] at v1
  simp only [Option.some.injEq] at v1
  subst v1
  rw [e2] at v2
  simp only [Option.some.injEq] at v2
  subst v2
  have e3' : x.files f = some X := e3
  rw [e3'] at v3
  simp only [Option.some.injEq] at v3
  subst v3
  have hp' : p < rc'.1 := by rw [← r5]; exact hp
  rw [r8 p q hp', if_pos (by rw [e4]; exact v4)]
  refine e6 p q v r F s v5 (fun hfl => ?_) hs
  obtain ⟨q1, q2⟩ := hF hfl
  refine ⟨q1, fun z' hz' _ => ?_⟩
  have hcs := S.nocounters
  refine saved_flux (st := st) (rc := rc) (fun k hk => ?_) (fun c hc => ?_) b4 r1 hp' hj q2 z' hz'
  · rw [a4 counters hcs.1 hcs.2, a7 k hk]
  · rw [a4 counters hcs.1 hcs.2, a8 c (fluxafter_norm hfl) hc]

/-- The detectors that are added to a group. -/
def members (dets : Detectors) (g : Grp) : List Grp := (dets.sumto.filter fun kd => decide (kd.2 = g)).map Prod.fst

/-- Image `j` of a sum of detectors that were fitted one by one is the sum of the corrected fit results of
the detectors, all of the image with the `j`-th energy. -/
theorem task_sum {C I : Type} (x : Input C I) (dets : Detectors) (pairs : List (Grp × C)) (im0 : Image) (S : Setup x dets pairs im0)
    (axis : List Rat) (info : List (List I)) (h5 : Dict (Str × Str) (List Img)) (h : execute x = some (axis, info, h5)) :
    ∃ (σ : List Nat) (rc : Option (Nat × Nat)), σ.Perm (List.range x.axis.length) ∧ axis.Pairwise (· ≤ ·) ∧ (∀ (j i : Nat), σ[j]? = some i → axis[j]? = x.axis[i]?) ∧
      ∀ (g : Grp) (k : Str) (cfg : Grp → C), members dets g ≠ [] → g ∉ dets.tofit → ctrFile im0.counters g k = none → g ≠ counters →
      (∀ m ∈ members dets g, m.category ≠ 1 ∧ (m, cfg m) ∈ pairs ∧ ∃ fs, x.fit 0 m (cfg m) = some fs ∧ k ∈ fs.map Prod.fst) →
      k ∉ counterNames x.images → k.head? ≠ some 'w' → (¬ ∃ p s, k = p ++ ['c', 'h', 'i', 's', 'q'] ++ s) →
      ∃ imgs, Dict.get? h5 (g.name, k) = some imgs ∧ imgs.length = x.axis.length ∧
        ∀ (j i : Nat), σ[j]? = some i → ∃ z rc', rc = some rc' ∧ imgs[j]? = some z ∧ z.rows = rc'.1 ∧ z.cols = rc'.2 ∧
          ∀ (p q : Nat) (v : Grp → Rat) (r F : Rat) (s : Grp → Rat × Rat), p < z.rows → (∀ m ∈ members dets g, FitAt x m (cfg m) k i p q (v m)) →
            ((flags x.params dets.addspectra).fluxafter = true → x.refs.getD i none = some r ∧ FluxAt x im0 i p q F) →
            ((flags x.params dets.addspectra).dtafter = true → ∀ m ∈ members dets g, ∃ st, x.stats i m.number = some st ∧ st p q = s m ∧ 0 ≤ (s m).2) →
            z.px p q = some (((members dets g).map fun m => correct (flags x.params dets.addspectra) (v m) r F (s m)).sum) := by
  obtain ⟨st, hst⟩ : ∃ st, prepareStacks x = some st := by
    unfold execute at h
    cases hp : prepareStacks x with
    | none => simp [hp] at h
    | some st => exact ⟨st, rfl⟩
  obtain ⟨a1, a2, st0, a3, a4, a5, a6, a7, a8, a9⟩ := setup_stacks S hst
  obtain ⟨σ, rc, b1, b2, b3, b4⟩ := execute_saved x st axis info h5 hst a1 a2 h
  refine ⟨σ, rc, b1, b2, b3, fun g k cfg hmem hgt hgc hgn hm hkc hkw hkq => ?_⟩
  have hsum : dets.sumto ≠ [] := by
    rintro e
    simp [members, e] at hmem
  have hfun := (addFun_spec (counterNames x.images) k).2.2.2 hkc hkw hkq
  -- the slices of a member
  have hsl : ∀ m ∈ members dets g, get2 st0 m k = some ((List.range x.images.length).map fun i =>
      Arg.slice .xrfnorm true (fitSlice x.fit m (cfg m) k i :: corrArgs x (flags x.params dets.addspectra) m i)) := by
    intro m hmm
    obtain ⟨-, h2, fs, h3, h4⟩ := hm m hmm
    obtain ⟨fs', k1, k2⟩ := a6 (m, cfg m) h2
    simp only at k1 k2
    rw [h3] at k1
    simp only [Option.some.injEq] at k1
    subst k1
    exact k2 k hkc h4
  have hcontr : contributors dets.sumto st0 g k = (members dets g).map fun m => (List.range x.images.length).map fun i =>
      Arg.slice .xrfnorm true (fitSlice x.fit m (cfg m) k i :: corrArgs x (flags x.params dets.addspectra) m i) := by
    unfold contributors members at *
    generalize dets.sumto = L at hsl ⊢
    induction L with
    | nil => rfl
    | cons kd L ih =>
      by_cases e : kd.2 = g
      · simp only [List.filterMap_cons, e, if_true]
        have := hsl kd.1 (by simp [e])
        rw [this]
        simp only [List.filter_cons, e, decide_true, if_true, List.map_cons]
        rw [ih (fun m hm => hsl m (by simp only [List.filter_cons, e, decide_true, if_true, List.map_cons, List.mem_cons]; exact .inr hm))]
      · simp only [List.filterMap_cons, e, if_false, List.filter_cons, decide_false, Bool.false_eq_true]
        exact ih (fun m hm => hsl m (by simp only [List.filter_cons, e, decide_false, Bool.false_eq_true, if_false]; exact hm))
  have hgm : g ∈ dets.sumto.map Prod.snd := by
    obtain ⟨m, hmm⟩ := List.exists_mem_of_ne_nil _ hmem
    obtain ⟨kd, hkd, -⟩ := List.mem_map.mp hmm
    rw [List.mem_filter] at hkd
    exact List.mem_map.mpr ⟨kd, hkd.1, by simpa using hkd.2⟩
  have hnl : k ∉ labels st0 g := by
    intro hl
    have : (get2 st0 g k).isSome := by
      unfold labels at hl
      unfold get2
      cases hs : Dict.get? st0 g with
      | none => rw [hs] at hl; simp [Dict.keys] at hl
      | some d => rw [hs] at hl; exact (Dict.get?_isSome d k).mpr hl
    rcases a9 g k hgt this with h | h
    · rw [hgc] at h; simp at h
    · exact hgn h.1
  have hadd := a5 hsum
  -- the slices of the sum
  obtain ⟨l, hl1, hlen, hl2⟩ : ∃ l, get2 st g k = some l ∧ l.length = x.images.length ∧ ∀ i, i < x.images.length → l[i]? = some (.slice .sum false ((members dets g).map fun m =>
      Arg.slice .xrfnorm true (fitSlice x.fit m (cfg m) k i :: corrArgs x (flags x.params dets.addspectra) m i))) := by
    unfold addDetectors at hadd
    cases hl : addLoop x.images.length (counterNames x.images) dets.sumto st0 [] with
    | none => simp [hl] at hadd
    | some pr =>
      obtain ⟨s', f'⟩ := pr
      simp only [hl, Option.map_some, Option.some.injEq] at hadd
      subst hadd
      obtain ⟨-, -, -, -, c5⟩ := addLoop_spec a3 S.sums S.flat hl
      have hgk : g ∉ dets.sumto.map Prod.fst := by
        obtain ⟨kd, hkd, rfl⟩ := List.mem_map.mp hgm
        exact S.flat kd hkd
      have e := c5 g hgk k
      rw [show (Dict.get? ([] : Dict Grp (List Str)) g) = none from rfl, Option.getD_none, if_neg hnl] at e
      have hn : get2 st0 g k = none := by
        unfold labels at hnl
        unfold get2
        cases hs : Dict.get? st0 g with
        | none => rfl
        | some d => rw [hs] at hnl; exact (Dict.get?_none _ _).mpr hnl
      rw [hn, foldl_step_none _ _ (by rw [hcontr]; simpa using hmem)] at e
      · refine ⟨_, e, by simp [slices], fun i hi => ?_⟩
        rw [getElem_slices _ _ _ _ hi, hfun, hcontr]
        congr 2
        unfold argsAt
        rw [List.flatMap_map]
        have : ∀ m ∈ members dets g, ((((List.range x.images.length).map fun i =>
            Arg.slice .xrfnorm true (fitSlice x.fit m (cfg m) k i :: corrArgs x (flags x.params dets.addspectra) m i))[i]?).elim [] (contrib .sum)) =
            [Arg.slice .xrfnorm true (fitSlice x.fit m (cfg m) k i :: corrArgs x (flags x.params dets.addspectra) m i)] := by
          intro m _
          rw [List.getElem?_map, List.getElem?_range hi]
          simp [contrib]
        rw [List.flatMap_congr this]
        exact List.map_eq_flatMap.symm
      · intro l hl
        rw [hcontr] at hl
        obtain ⟨m, -, rfl⟩ := List.mem_map.mp hl
        simp
  obtain ⟨imgs, i1, i2, i3⟩ := b4 g k _ hl1
  refine ⟨imgs, i1, i2, fun j i hj => ?_⟩
  obtain ⟨rc', a, d, z, r1, r2, r3, r4, r5, r6, r7, r8⟩ := i3 j i hj
  refine ⟨z, rc', r1, r4, r5, r6, fun p q v r F s hp hv hF hs => ?_⟩
  have hin : i < x.images.length := by
    rw [← hlen]
    exact (List.getElem?_eq_some_iff.mp r2).1
  rw [hl2 i hin] at r2
  simp only [Option.some.injEq] at r2
  subst r2
  have hp' : p < rc'.1 := by rw [← r5]; exact hp
  -- the images of the members
  have hr := r3
  rw [value_red _ _ .sum _ rfl] at hr
  cases hM : ((members dets g).map fun m => Arg.slice .xrfnorm true (fitSlice x.fit m (cfg m) k i :: corrArgs x (flags x.params dets.addspectra) m i)).mapM
      (value ⟨x.files, x.stats, x.transmission, x.absorbance, lastShape x.images, h5⟩ j) with
  | none => rw [hM] at hr; simp at hr
  | some ds =>
    rw [hM, Option.bind_some] at hr
    obtain ⟨hne, hshape, -⟩ := reduce_some hr
    have one : ∀ m ∈ members dets g, ∀ D, value ⟨x.files, x.stats, x.transmission, x.absorbance, lastShape x.images, h5⟩ j
        (Arg.slice .xrfnorm true (fitSlice x.fit m (cfg m) k i :: corrArgs x (flags x.params dets.addspectra) m i)) = some D →
        p < D.rows ∧ D.px p q = some (correct (flags x.params dets.addspectra) (v m) r F (s m)) := by
      intro m hmm D hD
      obtain ⟨fs', f, X, e1, e2, e3, e4, e5, e6⟩ := corrected_slice x (flags x.params dets.addspectra) _ m (cfg m) k i j D (hm m hmm).1 hD
      obtain ⟨fs'', f', X', v1, v2, v3, v4, v5⟩ := hv m hmm
      rw [e1] at v1
      simp only [Option.some.injEq] at v1
      subst v1
      rw [e2] at v2
      simp only [Option.some.injEq] at v2
      subst v2
      have e3' : x.files f = some X := e3
      rw [e3'] at v3
      simp only [Option.some.injEq] at v3
      subst v3
      refine ⟨by rw [e4]; exact v4, e6 p q (v m) r F (s m) v5 (fun hfl => ?_) (fun hdt => hs hdt m hmm)⟩
      obtain ⟨q1, q2⟩ := hF hfl
      refine ⟨q1, fun z' hz' _ => ?_⟩
      have hcs := S.nocounters
      refine saved_flux (st := st) (rc := rc) (fun k hk => ?_) (fun c hc => ?_) b4 r1 hp' hj q2 z' hz'
      · rw [a4 counters hcs.1 hcs.2, a7 k hk]
      · rw [a4 counters hcs.1 hcs.2, a8 c (fluxafter_norm hfl) hc]
    have all : ∀ (M : List Grp) (ds : List Img), (∀ m ∈ M, m ∈ members dets g) →
        (M.map fun m => Arg.slice .xrfnorm true (fitSlice x.fit m (cfg m) k i :: corrArgs x (flags x.params dets.addspectra) m i)).mapM
          (value ⟨x.files, x.stats, x.transmission, x.absorbance, lastShape x.images, h5⟩ j) = some ds →
        (∀ D ∈ ds, p < D.rows ∧ D.px p q ≠ none) ∧ (ds.map fun D => (D.px p q).getD 0) = M.map fun m => correct (flags x.params dets.addspectra) (v m) r F (s m) := by
      intro M
      induction M with
      | nil =>
        intro ds _ h
        simp only [List.map_nil, List.mapM_nil] at h
        cases h
        simp
      | cons m M ih =>
        intro ds hsub h
        rw [List.map_cons, List.mapM_cons] at h
        cases hv : value ⟨x.files, x.stats, x.transmission, x.absorbance, lastShape x.images, h5⟩ j
            (Arg.slice .xrfnorm true (fitSlice x.fit m (cfg m) k i :: corrArgs x (flags x.params dets.addspectra) m i)) with
        | none => rw [hv] at h; simp at h
        | some D =>
          rw [hv] at h
          cases hr : (M.map fun m => Arg.slice .xrfnorm true (fitSlice x.fit m (cfg m) k i :: corrArgs x (flags x.params dets.addspectra) m i)).mapM
            (value ⟨x.files, x.stats, x.transmission, x.absorbance, lastShape x.images, h5⟩ j) with
          | none => rw [hr] at h; simp at h
          | some ds' =>
            rw [hr] at h
            cases h
            obtain ⟨o1, o2⟩ := one m (hsub m (by simp)) D hv
            obtain ⟨i1, i2⟩ := ih ds' (fun m' hm' => hsub m' (by simp [hm'])) hr
            refine ⟨fun D' hD' => ?_, ?_⟩
            · rcases List.mem_cons.mp hD' with rfl | hD'
              · exact ⟨o1, by rw [o2]; simp⟩
              · exact i1 D' hD'
            · rw [List.map_cons, List.map_cons, i2, o2]
              rfl
    obtain ⟨u1, u2⟩ := all (members dets g) ds (fun _ h => h) hM
    obtain ⟨D0, hD0⟩ := List.exists_mem_of_ne_nil _ hne
    rw [r8 p q hp', if_pos (by rw [← (hshape D0 hD0).1]; exact (u1 D0 hD0).1)]
    rw [(sum_pixel _ j _ ds d hM r3 p q).2 (fun D hD => (u1 D hD).2), u2]

/-! ## a case -/

/-- The first image. -/
def imA : Image := ⟨(1, 2), [([], [(['i', '0'], ['i', 'a'])])]⟩

/-- Two images at descending energies with two detectors: iron in one row of two pixels. -/
def x0 (add : Bool) : Input Char Nat where
  params := ⟨[], add, false, true, false, true⟩
  found := [['0', '0'], ['0', '1']]
  images := [imA, ⟨(1, 2), [([], [(['i', '0'], ['i', 'b'])])]⟩]
  axis := [8, 7]
  info := [[1, 2]]
  flux := some ['i', '0']
  trans := none
  op0 i := if i = 0 then (2, 1) else (3, 0)
  opt _ := (1, 0)
  refs := [some 10, some 12]
  fit i g _ := some [(['F', 'e'], [if g = detG 0 then '0' else '1', if i = 0 then 'a' else 'b'])]
  cfgs := ['c']
  files s := if s = ['i', 'a'] then some ⟨1, 2, fun _ _ => some 2⟩ else if s = ['i', 'b'] then some ⟨1, 2, fun _ _ => some 1⟩
    else if s = ['0', 'a'] then some ⟨1, 2, fun _ b => some (b + 1)⟩ else if s = ['0', 'b'] then some ⟨1, 2, fun _ b => some (b + 3)⟩
    else if s = ['1', 'a'] then some ⟨1, 2, fun _ b => some (b + 5)⟩ else if s = ['1', 'b'] then some ⟨1, 2, fun _ b => some (b + 7)⟩ else none
  stats i n := some fun _ _ => if i = 0 ∧ n = 1 then (4000, 2000) else (2000, 2000)
  transmission _ _ := none
  absorbance _ := none

/-- Its detectors. -/
def dets0 (add : Bool) : Detectors := ⟨[(sumDet 1, [.str ['0', '0'], .str ['0', '1']])], false, [detG 0, detG 1], if add then [(detG 0, sumDet 1), (detG 1, sumDet 1)] else []⟩

theorem setup0 (add : Bool) : Setup (x0 add) (dets0 add) [(detG 0, 'c'), (detG 1, 'c')] imA where
  first := ⟨_, rfl⟩
  ctrs := by
    intro im hm
    simp only [x0, imA, List.mem_cons, List.not_mem_nil, or_false] at hm
    rcases hm with rfl | rfl <;> refine ⟨by decide, fun dv hdv => ?_⟩ <;> simp only [List.mem_cons, List.not_mem_nil, or_false] at hdv <;> subst hdv <;> decide
  cfgs := by simp [x0]
  fits := by
    intro i g c fs h
    simp only [x0, Option.some.injEq] at h
    subst h
    simp
  tofit := by cases add <;> decide +kernel
  isdets := by cases add <;> decide +kernel
  ispairs := by cases add <;> decide +kernel
  cat := by cases add <;> decide +kernel
  names := by
    have key : ∀ g, Known (dets0 add) imA g → g ∈ [counters, detG 0, detG 1, sumDet 1] := by
      rintro g (⟨dv, hdv, hg⟩ | rfl | hg | hg)
      · simp only [imA, List.mem_cons, List.not_mem_nil, or_false] at hdv
        subst hdv
        have : grpOf (.str []) = some counters := rfl
        rw [this, Option.some.injEq] at hg
        subst hg
        simp
      · simp
      · simp only [dets0, List.mem_cons, List.not_mem_nil, or_false] at hg
        rcases hg with rfl | rfl <;> simp
      · cases add <;> simp [dets0] at hg
        subst hg
        simp
    intro g g' hg hg' e
    have := key g hg
    have := key g' hg'
    have all : ∀ a ∈ [counters, detG 0, detG 1, sumDet 1], ∀ b ∈ [counters, detG 0, detG 1, sumDet 1], a.name = b.name → a = b := by decide +kernel
    exact all g ‹_› g' ‹_› e
  sums := by cases add <;> unfold Dict.WF <;> decide +kernel
  flat := by cases add <;> decide +kernel
  nocounters := by cases add <;> decide +kernel

/-- Sorted: the image at 7 keV first.  3·12/3 and 4·12/3 of image 1, 1·10/5 and 2·10/5 of image 0. -/
example : (execute (x0 false)).map (fun r => (r.1, r.2.1)) = some ([7, 8], [[2, 1]]) ∧
    ((execute (x0 false)).bind fun r => (Dict.get? r.2.2 ((detG 0).name, ['F', 'e'])).map fun l => l.map Img.list) = some [[[some 12, some 16]], [[some 2, some 4]]] := by
  constructor <;> decide +kernel

/-- The sum with detector 1, which has 5·10/5·2 and 6·10/5·2 in image 0. -/
example : ((execute (x0 true)).bind fun r => (Dict.get? r.2.2 ((sumDet 1).name, ['F', 'e'])).map fun l => l.map Img.list) =
      some [[[some 40, some 48]], [[some 22, some 28]]] ∧
    ((execute (x0 true)).bind fun r => (Dict.get? r.2.2 ((detG 0).name, ['F', 'e'])).map fun l => l.map Img.list) = none := by
  constructor <;> decide +kernel

example : FluxAt (x0 true) imA 0 0 1 5 ∧ FitAt (x0 true) (detG 1) 'c' ['F', 'e'] 0 0 1 6 ∧ members (dets0 true) (sumDet 1) = [detG 0, detG 1] ∧
    correct (flags (x0 true).params false) 6 10 5 (4000, 2000) = 24 := by
  refine ⟨⟨['i', '0'], imA, ['i', 'a'], ⟨1, 2, fun _ _ => some 2⟩, 2, rfl, by decide, by decide, rfl, by decide, rfl, by decide, by decide, by decide, by decide, rfl, by decide +kernel⟩,
    ⟨[(['F', 'e'], ['1', 'a'])], ['1', 'a'], ⟨1, 2, fun _ b => some (b + 5)⟩, by decide +kernel, by decide, rfl, by decide, by decide +kernel⟩, by decide +kernel, by decide +kernel⟩

end SC.XrfTask
