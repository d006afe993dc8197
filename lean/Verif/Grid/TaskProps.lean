import Verif.Grid.TaskLemmas
import Verif.Grid.GridProps
/-! # C66, tasks on a regular grid

The specification is about pixels: `In`, `sizes`, `Region`, `Pixelwise`, `Done` and `AxDone` of
`Verif/Grid/TaskLemmas.lean`, and `Crop.source` (the pixel of the input for a pixel of the output). -/
namespace SC.Grid
open SC.Numpy SC.Py SC.Naming
open SC.Crop (Sel selShape selSrc npGet_sel toSel toInt source inB_lt)

/-! ## data of one signal -/

/-- The new data of a signal, at once or slice by slice: the processed pixels of the region. -/
theorem new_data {α : Type} (t : Task α) (zero : α) (s : Sig α) (G : Sig α → List Nat → α) (hp : Pixelwise t.process G s)
    (reg : List (Nat × Nat)) (hr : Region t s.data.shape reg)
    (hst : t.sliced = true → t.stackdim < s.data.shape.length ∧ reg.getD t.stackdim (0, 0) = (0, s.data.shape.getD t.stackdim 0)) :
    ∃ y, newData t zero s.data.shape s = some y ∧ Done G reg s y := by
  obtain ⟨l, h1, h2, h3, h4, h5, h6, h7, h8⟩ := region_sel t s.data.shape reg hr
  have hl := h2.length_eq
  unfold newData
  by_cases hs : t.sliced = true
  · obtain ⟨hsd, hrg⟩ := hst hs
    rw [if_pos hs, h4]
    simp only
    rw [h1, if_pos (by simp; omega)]
    obtain ⟨b, b1, b2, b3⟩ := slices_loop t.process G s hp l h2 h3 t.stackdim (by omega) (h8 _ (by omega) (by rw [hrg]))
      (List.range (s.data.shape.getD t.stackdim 0)) ⟨sizes reg, fun _ => zero⟩ (fun i hi => List.mem_range.1 hi) List.nodup_range h5.symm
    refine ⟨b, b1, b2, fun r hr => ?_⟩
    rw [b2] at hr
    rw [b3 r hr, if_pos, h7 r (by rw [hr.length]; simp [sizes])]
    rw [List.mem_range]
    have h9 := inB_lt hr (d := t.stackdim) (by simp [sizes]; omega)
    have e : (sizes reg).getD t.stackdim 0 = (reg.getD t.stackdim (0, 0)).2 - (reg.getD t.stackdim (0, 0)).1 := by
      simp [sizes, List.getD_eq_getElem?_getD, List.getElem?_eq_getElem (show t.stackdim < reg.length by omega)]
    simp only at h9
    rw [e, hrg] at h9
    simpa using h9
  · rw [if_neg hs, h1]
    obtain ⟨x, x1, x2, x3⟩ := npGet_sel s.data l h2
    obtain ⟨y, y1, y2, y3⟩ := hp l x h2 x1
    refine ⟨y, by rw [x1]; exact y1, by rw [y2, x2, h5], fun r hr => ?_⟩
    rw [y2] at hr
    rw [y3 r hr, h7 r (by rw [hr.length, x2, h5]; simp [sizes])]

/-- Slice by slice or at once gives the same. -/
theorem sliced_same {α : Type} (t : Task α) (zero : α) (s : Sig α) (G : Sig α → List Nat → α) (hp : Pixelwise t.process G s)
    (reg : List (Nat × Nat)) (hr : Region t s.data.shape reg) (hsd : t.stackdim < s.data.shape.length)
    (hst : reg.getD t.stackdim (0, 0) = (0, s.data.shape.getD t.stackdim 0)) :
    ∃ a b, newData { t with sliced := true } zero s.data.shape s = some a ∧
      newData { t with sliced := false } zero s.data.shape s = some b ∧ a.shape = b.shape ∧ ∀ r, InB r a.shape → a.get r = b.get r := by
  obtain ⟨a, a1, a2, a3⟩ := new_data { t with sliced := true } zero s G hp reg hr (fun _ => ⟨hsd, hst⟩)
  obtain ⟨b, b1, b2, b3⟩ := new_data { t with sliced := false } zero s G hp reg hr (by simp)
  refine ⟨a, b, a1, b1, by rw [a2, b2], fun r hr => ?_⟩
  rw [a3 r hr, b3 r (by rw [b2, ← a2]; exact hr)]

/-- A function of every value is pixelwise. -/
theorem pointwise_ok {α : Type} (f : α → α) (s : Sig α) : Pixelwise (pointwise f) (fun s p => f (s.data.get p)) s := by
  intro l x hok hx
  obtain ⟨b, b1, _, b3⟩ := npGet_sel s.data l hok
  rw [hx] at b1
  simp only [Option.some.injEq] at b1
  subst b1
  exact ⟨_, rfl, rfl, fun r hr => by simp only [mapArr]; rw [b3 r hr]⟩

/-- An expression of several signals of one shape is pixelwise. -/
theorem combine_ok {α : Type} (f : α → List α → α) (others : Sig α → List (Arr α)) (s : Sig α)
    (hsh : ∀ a ∈ others s, a.shape = s.data.shape) :
    Pixelwise (combine f others) (fun s p => f (s.data.get p) ((others s).map fun a => a.get p)) s := by
  intro l x hok hx
  obtain ⟨b, b1, b2, b3⟩ := npGet_sel s.data l hok
  rw [hx] at b1
  simp only [Option.some.injEq] at b1
  subst b1
  have key : ∀ as : List (Arr α), (∀ a ∈ as, a.shape = s.data.shape) → ∃ bs, (as.mapM fun a => npGet a (l.map Sel.item)) = some bs ∧
      ∀ r, InB r x.shape → (bs.map fun a => a.get r) = as.map fun a => a.get (selSrc l r) := by
    intro as
    induction as with
    | nil => intro _; exact ⟨[], rfl, fun _ _ => rfl⟩
    | cons a as ih =>
      intro h
      obtain ⟨bs, c1, c2⟩ := ih fun a ha => h a (by simp [ha])
      obtain ⟨c, d1, d2, d3⟩ := npGet_sel a l (by rw [h a (by simp)]; exact hok)
      refine ⟨c :: bs, by simp only [List.mapM_cons]; rw [d1, c1]; rfl, fun r hr => ?_⟩
      rw [List.map_cons, List.map_cons, c2 r hr, d3 r (by rw [d2, h a (by simp), ← b2]; exact hr)]
  obtain ⟨bs, c1, c2⟩ := key (others s) hsh
  refine ⟨⟨x.shape, fun r => f (x.get r) (bs.map fun a => a.get r)⟩, by simp only [combine]; rw [c1]; rfl, rfl, fun r hr => ?_⟩
  simp only
  rw [c2 r hr, b3 r hr]

/-- The replace task: the object `np.nan` replaces every NaN, a number the pixels that are equal to it,
and another NaN nothing. -/
theorem replace_spec (new x : Crop.Px) :
    replace1 .npnan new x = (if x = none then new else x) ∧ replace1 (.value none) new x = x ∧
      ∀ q : Rat, replace1 (.value (some q)) new x = if x = some q then new else x := by
  refine ⟨?_, ?_, fun q => ?_⟩
  · unfold replace1
    simp only [Crop.bad_iff, Crop.BadPx]
  · unfold replace1
    simp [Crop.bad_iff, Crop.BadPx]
  · unfold replace1
    simp only [Crop.bad_iff, Crop.BadPx]
    congr 1
    simp only [Option.some.injEq, eq_iff_iff]
    constructor
    · rintro ⟨_, h, rfl⟩; exact h
    · intro h; exact ⟨q, h, rfl⟩

/-! ## the whole task -/

theorem mapM_some {β : Type} : ∀ l : List β, (l.map some).mapM id = some l
  | [] => rfl
  | a :: l => by
    have := mapM_some l
    simp only [List.map_cons, List.mapM_cons]
    rw [this]; rfl

theorem mapM_forall {β γ : Type} (f : β → Option γ) (P : β → γ → Prop) : ∀ l : List β, (∀ x ∈ l, ∃ y, f x = some y ∧ P x y) →
    ∃ ys, l.mapM f = some ys ∧ List.Forall₂ P l ys
  | [], _ => ⟨[], rfl, .nil⟩
  | x :: l, h => by
    obtain ⟨y, h1, h2⟩ := h x (by simp)
    obtain ⟨ys, h3, h4⟩ := mapM_forall f P l fun x hx => h x (by simp [hx])
    exact ⟨y :: ys, by rw [List.mapM_cons, h1, h3]; rfl, .cons h2 h4⟩

/-- What a task can work on: a grid of signals of which the axes, without the axis of signals, are
`axes`. -/
structure Ready {α : Type} (g : Grid α) (axes : List Ax) : Prop where
  axesOf : g.signalAxes = some (axes.map some)
  shapeOf : g.signalShape = some (axes.map fun a => a.vals.length)
  ne : axes ≠ []
  names : (axes.map Ax.name).Nodup
  shapes : ∀ s ∈ g.signals, s.data.shape = axes.map fun a => a.vals.length
  unique : (g.signals.map fun s => (s.parent, s.name)).Nodup

/-- The signals that are not skipped. -/
def kept {α : Type} (t : Task α) (g : Grid α) : List (Sig α) := g.signals.filter fun s => !t.skip s.parent s.name

/-- A group of the output, for the signals of the input group of the same name. -/
structure Group {α : Type} (t : Task α) (g : Grid α) (G : Sig α → List Nat → α) (reg : List (Nat × Nat)) (o : Out α) : Prop where
  /-- one data set per signal that is not skipped, in the same order, with the processed pixels -/
  data : List.Forall₂ (fun s d => d.1 = s.name ∧ Done G reg s d.2) (ofGroup (kept t g) o.name) o.data
  /-- all of them are signals, and nothing else is -/
  signals : (NXdata.names o.attrs).Perm ((ofGroup (kept t g) o.name).map Sig.name)
  /-- when nothing is skipped, the order of signals is that of the input, so also the default signal -/
  order : (∀ s ∈ ofGroup g.signals o.name, t.skip s.parent s.name = false) →
    NXdata.names o.attrs = (ofGroup g.signals o.name).map Sig.name ∧
      o.attrs.signal = ((ofGroup g.signals o.name).map Sig.name).head?
  /-- when some signal is skipped, the last one that is not is the default signal -/
  last : (∃ s ∈ ofGroup g.signals o.name, t.skip s.parent s.name = true) →
    o.attrs.signal = ((ofGroup (kept t g) o.name).map Sig.name).getLast?

/-- A task succeeds on every such grid.  Its axes are those of the region, its groups are those of the
signals that are not skipped, in order, and their data are the processed pixels of the region: the
pixel at `r` and the axis values at `r` come from the same pixel of the input. -/
theorem task_spec {α : Type} (t : Task α) (zero : α) (g : Grid α) (axes : List Ax) (hg : Ready g axes)
    (G : Sig α → List Nat → α) (hp : ∀ s ∈ g.signals, t.skip s.parent s.name = false → Pixelwise t.process G s)
    (reg : List (Nat × Nat)) (hr : Region t (axes.map fun a => a.vals.length) reg)
    (hst : t.sliced = true → t.stackdim < axes.length ∧
      reg.getD t.stackdim (0, 0) = (0, (axes.map fun a => a.vals.length).getD t.stackdim 0)) :
    ∃ outs news, execute t zero g = some (outs, news) ∧ AxesDone axes reg news ∧
      outs.map Out.name = ((kept t g).map Sig.parent).eraseDups ∧ ∀ o ∈ outs, Group t g G reg o := by
  obtain ⟨news, n1, n2⟩ := out_axes t axes reg hr
  have hnn : (news.map Ax.name).Nodup := by rw [axesDone_names n2]; exact hg.names
  have hpos : createAxes news [] = news := by rw [createAxes_eq news [] hnn (by simp)]; rfl
  have hsz := axesDone_sizes n2
  have hne : sizes reg ≠ [] := by
    rw [← hsz]
    intro h
    have : axes.length = 0 := by
      have h1 := congrArg List.length (axesDone_names n2)
      have h2 := congrArg List.length h
      simp only [List.length_map, List.length_nil] at h1 h2
      omega
    exact hg.ne (List.length_eq_zero_iff.1 this)
  obtain ⟨outs, o1, o2⟩ := loop_ok (R := Done G reg) t zero (axes.map fun a => a.vals.length) hne g.signals [] []
    (fun s hs hk => by
      have hshape := hg.shapes s hs
      obtain ⟨y, y1, y2⟩ := new_data t zero s G (hp s hs hk) reg (by rw [hshape]; exact hr) (fun h => by
        rw [hshape]
        simpa using hst h)
      exact ⟨y, by rw [← hshape]; exact y1, y2.1, y2⟩) hg.unique (by simp) ⟨by simp, by simp⟩
  simp only [List.nil_append] at o2
  change OutsOk (Done G reg) outs (kept t g) at o2
  obtain ⟨outs', p1, p2⟩ := mapM_forall (sortOut g.signals) (fun o o' => o'.name = o.name ∧ Group t g G reg o') outs (by
    intro o ho
    have hok := o2.ok o ho
    obtain ⟨o', q1, q2, q3, q4, q5, q6, q7⟩ := sort_ok hok g.signals
    refine ⟨o', q1, q2, ?_⟩
    have hpn : prevNames g.signals o.name = (ofGroup g.signals o.name).map Sig.name := rfl
    refine ⟨by rw [q2, q3]; exact hok.data, by rw [q2]; exact q5, fun hall => ?_, fun hex => ?_⟩
    · rw [q2] at hall ⊢
      have hke : ofGroup (kept t g) o.name = ofGroup g.signals o.name := by
        unfold ofGroup kept
        rw [List.filter_filter]
        apply List.filter_congr
        intro s hs
        by_cases hsp : s.parent = o.name
        · have := hall s (List.mem_filter.2 ⟨hs, by simpa using hsp⟩)
          simp [hsp] at this ⊢
          exact this
        · simp [hsp]
      rw [hke] at q6
      rw [← hpn] at q6 ⊢
      exact q6 (.refl _)
    · rw [q2] at hex ⊢
      rw [q7, hok.signal]
      intro hperm
      have hlen := hperm.length_eq
      rw [hpn, List.length_map, List.length_map] at hlen
      obtain ⟨s, s1, s2⟩ := hex
      have hsub : ofGroup (kept t g) o.name = (ofGroup g.signals o.name).filter fun s => !t.skip s.parent s.name := by
        unfold ofGroup kept
        rw [List.filter_filter, List.filter_filter]
        apply List.filter_congr
        intro s _
        rw [Bool.and_comm]
      rw [hsub] at hlen
      have := List.length_filter_eq_length_iff.1 hlen.symm s s1
      simp [s2] at this)
  refine ⟨outs', news, ?_, n2, ?_, ?_⟩
  · have hsh : axesShape news (news.map Ax.name) = some (sizes reg) := by rw [axesShape_eq news hnn, hsz]
    unfold execute
    rw [hg.axesOf]
    simp only
    rw [mapM_some, hg.shapeOf]
    simp only
    rw [n1]
    simp only
    rw [hpos, hsh]
    simp only
    rw [o1]
    simp only
    rw [p1]; rfl
  · rw [← o2.names]
    clear p1 o1 o2
    induction p2 with
    | nil => rfl
    | cons h _ ih => simp [h.1, ih]
  · clear p1 o1 o2
    induction p2 with
    | nil => simp
    | cons h _ ih =>
      intro o ho
      rcases List.mem_cons.1 ho with rfl | ho
      · exact h.2
      · exact ih o ho

/-- A grid made from NXdata groups of one shape is such a grid, wherever the axis of signals is. -/
theorem grid_ready {α : Type} (signals : List (Sig α)) (axes : List Ax) (sd : Nat) (hsd : sd ≤ axes.length) (dims : List Int) (hne : axes ≠ [])
    (hn : (axes.map Ax.name).Nodup) (hs : ∀ s ∈ signals, s.data.shape = axes.map fun a => a.vals.length)
    (hu : (signals.map fun s => (s.parent, s.name)).Nodup) :
    Ready ⟨signals, pyInsert (axes.map some) sd none, sd, dims⟩ axes := by
  have hpop : ∀ {β : Type} (l : List β) (x : β), sd ≤ l.length → pyPop (l.insertIdx sd x) (sd : Int) = some l := by
    intro β l x h
    have hl : (l.insertIdx sd x).length = l.length + 1 := List.length_insertIdx_of_le_length h x
    rw [pyPop, normIdx, hl, if_pos ⟨by omega, by omega⟩]
    simp
  have hins : pyInsert (axes.map some) (sd : Int) (none : Option Ax) = (axes.map some).insertIdx sd none := by
    have h0 : ¬ ((sd : Int) < 0) := by omega
    simp [pyInsert, h0, hsd]
  refine ⟨?_, ?_, hne, hn, hs, hu⟩
  · simp only [Grid.signalAxes, hins]
    exact hpop _ _ (by simpa using hsd)
  · simp only [Grid.signalShape, Grid.shape, hins, List.map_insertIdx, axSize]
    rw [hpop _ _ (by simpa using hsd)]
    simp [axSize, Function.comp_def]

/-! ## consistency of whatever a task does -/

/-- The data of a group have the dimensions of the axes, or none. -/
def Fit {α : Type} (axShape : List Nat) (o : Out α) : Prop := ∀ d ∈ o.data, d.2.shape = axShape ∨ d.2.shape = []

theorem step_fit {α : Type} (t : Task α) (zero : α) (shape axShape : List Nat) (hax : axShape ≠ []) (s : Sig α) :
    ∀ (outs outs' : List (Out α)), (∀ o ∈ outs, Fit axShape o) → stepSignal t zero shape axShape s outs = some outs' → ∀ o ∈ outs', Fit axShape o
  | [], outs', _, h => by
    simp only [stepSignal] at h
    split at h
    · simp at h
    · next y _ =>
      simp only [Option.map_eq_some_iff] at h
      obtain ⟨o, h, rfl⟩ := h
      intro o' ho'
      rw [List.mem_singleton] at ho'
      subst ho'
      unfold newGroup at h
      split at h
      · simp at h
      · next o1 ho1 =>
        split at h
        · simp at h
        · next hn =>
          simp only [Option.some.injEq] at h
          subst h
          unfold addTo at ho1
          split at ho1
          · simp at ho1
          · simp only [Option.map_eq_some_iff] at ho1
            obtain ⟨st, _, rfl⟩ := ho1
            intro d hd
            simp only [List.nil_append, List.mem_singleton] at hd
            subst hd
            by_cases he : y.shape = []
            · exact Or.inr he
            · exact Or.inl (by by_contra hc; exact hn ⟨he, hc⟩)
  | o :: outs, outs', hf, h => by
    simp only [stepSignal] at h
    split at h
    · split at h
      · simp at h
      · next y _ =>
        simp only [Option.map_eq_some_iff] at h
        obtain ⟨o1, h, rfl⟩ := h
        intro q hq
        rcases List.mem_cons.1 hq with rfl | hq
        · unfold addTo at h
          split at h
          · simp at h
          · next hn =>
            simp only [Option.map_eq_some_iff] at h
            obtain ⟨st, _, rfl⟩ := h
            intro d hd
            rcases List.mem_append.1 hd with hd | hd
            · exact hf o (by simp) d hd
            · rw [List.mem_singleton] at hd
              subst hd
              rw [wantShape, if_pos hax] at hn
              exact Or.inl (by by_contra hc; exact hn ⟨hax, hc⟩)
        · exact hf q (by simp [hq])
    · simp only [Option.map_eq_some_iff] at h
      obtain ⟨os, h, rfl⟩ := h
      intro q hq
      rcases List.mem_cons.1 hq with rfl | hq
      · exact hf q (by simp)
      · exact step_fit t zero shape axShape hax s outs os (fun q hq => hf q (by simp [hq])) h q hq

theorem loop_fit {α : Type} (t : Task α) (zero : α) (shape axShape : List Nat) (hax : axShape ≠ []) :
    ∀ (ss : List (Sig α)) (outs outs' : List (Out α)), (∀ o ∈ outs, Fit axShape o) → signalsLoop t zero shape axShape ss outs = some outs' →
      ∀ o ∈ outs', Fit axShape o
  | [], outs, outs', hf, h => by
    simp only [signalsLoop, Option.some.injEq] at h
    subst h; exact hf
  | s :: ss, outs, outs', hf, h => by
    simp only [signalsLoop] at h
    split at h
    · exact loop_fit t zero shape axShape hax ss outs outs' hf h
    · split at h
      · simp at h
      · next o1 ho1 => exact loop_fit t zero shape axShape hax ss o1 outs' (step_fit t zero shape axShape hax s outs o1 hf ho1) h

/-- Whatever the task, the grid and the region: when it succeeds, every data set has the dimensions of
the axes of the output (or none at all). -/
theorem shapes_fit {α : Type} (t : Task α) (zero : α) (g : Grid α) (outs : List (Out α)) (pos axes : List Ax)
    (hax : ∃ a, g.signalAxes = some (a.map some) ∧ a ≠ [] ∧ outAxes t a = some axes) (hn : (axes.map Ax.name).Nodup) (hne : axes ≠ [])
    (h : execute t zero g = some (outs, pos)) :
    pos = axes ∧ ∀ o ∈ outs, ∀ d ∈ o.data, d.2.shape = (axes.map fun a => a.vals.length) ∨ d.2.shape = [] := by
  obtain ⟨a, a1, a2, a3⟩ := hax
  have hpos : createAxes axes [] = axes := by rw [createAxes_eq axes [] hn (by simp)]; rfl
  unfold execute at h
  rw [a1] at h
  simp only [mapM_some] at h
  split at h
  · next ax sh e1 e2 =>
    simp only [Option.some.injEq] at e1
    subst e1
    rw [a3] at h
    simp only [hpos, axesShape_eq axes hn] at h
    split at h
    · simp at h
    · next o1 ho1 =>
      simp only [Option.map_eq_some_iff, Prod.mk.injEq] at h
      obtain ⟨o2, h2, rfl, rfl⟩ := h
      refine ⟨rfl, ?_⟩
      have hfit := loop_fit t zero sh (axes.map fun a => a.vals.length) (by simpa using hne) g.signals [] o1 (by simp) ho1
      have key : ∀ (l l' : List (Out α)), l.mapM (sortOut g.signals) = some l' → ∀ o' ∈ l', ∃ o ∈ l, o'.data = o.data := by
        intro l
        induction l with
        | nil =>
          intro l' h
          have : l' = [] := by simpa using h.symm
          subst this; simp
        | cons x l ih =>
          intro l' h o' ho'
          rw [List.mapM_cons] at h
          cases hx : sortOut g.signals x with
          | none => rw [hx] at h; simp at h
          | some y =>
            rw [hx] at h
            cases hl : l.mapM (sortOut g.signals) with
            | none => rw [hl] at h; simp at h
            | some ys =>
              rw [hl] at h
              have : l' = y :: ys := by simpa using h.symm
              subst this
              rcases List.mem_cons.1 ho' with rfl | ho'
              · refine ⟨x, by simp, ?_⟩
                unfold sortOut at hx
                simp only [Option.map_eq_some_iff] at hx
                obtain ⟨st, _, rfl⟩ := hx
                rfl
              · obtain ⟨o, m1, m2⟩ := ih ys hl o' ho'
                exact ⟨o, by simp [m1], m2⟩
      intro o ho d hd
      obtain ⟨o', m1, m2⟩ := key o1 o2 h2 o ho
      exact hfit o' m1 d (m2 ▸ hd)
  · simp at h

/-- **Deviation**: a sliced crop task that finds nothing to crop raises, for every signal it should copy
(nxcrop.py 28-35 defines the shape of the output only when there is a region). -/
theorem nothing_to_crop {α : Type} (t : Task α) (zero : α) (shape : List Nat) (s : Sig α) (hc : t.crop = true) (hr : t.roi = none)
    (hs : t.sliced = true) : newData t zero shape s = none := by
  simp [newData, hs, shapeOut, hc, hr]

/-! ## cases -/

def axOf (n : Nat) (c : Char) : Ax := ⟨[c], (List.range n).map fun (i : Nat) => 10 * (i : Rat), 0⟩

def sigOf (p n : Char) (k : Rat) : Sig Rat := ⟨[p], [n], ⟨[2, 3], fun r => k + 10 * (r.getD 0 0 : Nat) + (r.getD 1 0 : Nat)⟩⟩

def gridOf : Grid Rat := ⟨[sigOf 'a' 'u' 100, sigOf 'b' 'u' 200, sigOf 'a' 'v' 300], pyInsert ([axOf 2 'y', axOf 3 'x'].map some) 1 none, 1, [1, 0]⟩

theorem gridOf_ready : Ready gridOf [axOf 2 'y', axOf 3 'x'] :=
  grid_ready _ _ 1 (by simp) _ (by simp) (by decide) (by
    intro s hs
    simp only [List.mem_cons, List.not_mem_nil, or_false] at hs
    rcases hs with rfl | rfl | rfl <;> rfl) (by decide)

def cropTask (sliced : Bool) : Task Rat := ⟨sliced, 0, fun _ _ => false, pointwise (· + 1), true, some [(0, 2), (1, 3)]⟩

theorem cropTask_region (sl : Bool) : Region (cropTask sl) ([axOf 2 'y', axOf 3 'x'].map fun a => a.vals.length) [(0, 2), (1, 3)] :=
  Or.inr ⟨rfl, rfl, .cons (by decide) (.cons (by decide) .nil)⟩

/-- A crop task on two detectors with two counters meets the hypotheses. -/
example (sl : Bool) : ∃ outs news, execute (cropTask sl) 0 gridOf = some (outs, news) ∧
    AxesDone [axOf 2 'y', axOf 3 'x'] [(0, 2), (1, 3)] news ∧ outs.map Out.name = [['a'], ['b']] := by
  obtain ⟨outs, news, h1, h2, h3, _⟩ := task_spec (cropTask sl) 0 gridOf _ gridOf_ready (fun s p => s.data.get p + 1)
    (fun s _ _ => pointwise_ok (· + 1) s) _ (cropTask_region sl) (fun _ => ⟨by simp [cropTask], by simp [cropTask, axOf]⟩)
  exact ⟨outs, news, h1, h2, by rw [h3]; cases sl <;> decide⟩

/-- What it computes. -/
example : ((execute (cropTask true) 0 gridOf).map fun r => r.2.map fun a => a.vals) = some [[0, 10], [10, 20]] ∧
    ((execute (cropTask true) 0 gridOf).map fun r => r.1.map fun o => NXdata.names o.attrs) = some [[['u'], ['v']], [['u']]] ∧
    ((execute (cropTask true) 0 gridOf).map fun r => r.1.map fun o => o.data.map fun d => (d.2.shape, d.2.get [1, 0])) =
      some [[([2, 2], 112), ([2, 2], 312)], [([2, 2], 212)]] := by decide +kernel

/-- **Deviation**: when a signal is skipped, the default signal of the group changes. -/
theorem skip_changes_default : ∃ t : Task Rat, t.skip ['a'] ['w'] = true ∧ t.skip ['a'] ['u'] = false ∧ t.skip ['a'] ['v'] = false ∧
    ((execute t 0 ⟨[sigOf 'a' 'u' 1, sigOf 'a' 'v' 2, sigOf 'a' 'w' 3], pyInsert ([axOf 2 'y', axOf 3 'x'].map some) 0 none, 0, [0, 1]⟩).map
      fun r => r.1.map fun o => o.attrs.signal) = some [some ['v']] :=
  ⟨⟨false, 0, fun _ n => n = ['w'], pointwise id, false, none⟩, by decide, by decide, by decide, by decide +kernel⟩

/-- A region of the user beyond the end of an axis, of the size of the axis, keeps the axis; the task
raises because the data do not fit. -/
theorem shifted_region_raises : ∀ sl : Bool, execute { cropTask sl with roi := some [(0, 2), (1, 4)] } 0 gridOf = none := by
  intro sl
  cases sl
  · exact Option.eq_none_iff_forall_ne_some.2 fun a h => by
      have : (execute { cropTask false with roi := some [(0, 2), (1, 4)] } 0 gridOf).isSome = false := by decide +kernel
      rw [h] at this; simp at this
  · exact Option.eq_none_iff_forall_ne_some.2 fun a h => by
      have : (execute { cropTask true with roi := some [(0, 2), (1, 4)] } 0 gridOf).isSome = false := by decide +kernel
      rw [h] at this; simp at this

/-- Sliced and at once agree for an expression of two signals. -/
example : Pixelwise (combine (fun x l => x / l.headD 1) fun _ => [(sigOf 'b' 'u' 200).data])
    (fun s p => s.data.get p / ([(sigOf 'b' 'u' 200).data].map fun a => a.get p).headD 1) (sigOf 'a' 'u' 100) :=
  combine_ok _ _ _ (by simp [sigOf])

example : replace1 .npnan (some 0) none = some 0 ∧ replace1 (.value none) (some 0) none = none := by decide +kernel

/-- A crop task that finds nothing to crop. -/
example : (execute { cropTask true with roi := none } 0 gridOf).isSome = false ∧
    (execute { cropTask false with roi := none } 0 gridOf).isSome = true := by decide +kernel

end SC.Grid
