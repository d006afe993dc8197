import Verif.Grid.Model
import Verif.Crop.Props
import Verif.NXdata.Props
import Mathlib.Data.List.Induction
/-! Lemmas on the tasks on a grid (C66). -/
namespace SC.Grid
open SC.Numpy SC.Py SC.Naming
open SC.Crop (Sel selShape selSrc npGet_sel toSel toInt toSel_item toSel_shape toSel_ok toSel_src set_ok fulls source inB_split inB_lt insert_self)

/-! ## specification of tasks -/

/-- A region: a first and an end index for every dimension, inside of the shape. -/
def In (reg : List (Nat × Nat)) (shape : List Nat) : Prop := List.Forall₂ (fun ab n => ab.1 ≤ ab.2 ∧ ab.2 ≤ n) reg shape

/-- The sizes of a region. -/
def sizes (reg : List (Nat × Nat)) : List Nat := reg.map fun ab => ab.2 - ab.1

/-- What a task keeps of arrays of this shape: a crop task its region, others everything. -/
def Region {α : Type} (t : Task α) (shape : List Nat) (reg : List (Nat × Nat)) : Prop :=
  (t.crop = false ∧ reg = shape.map fun n => (0, n)) ∨ (t.crop = true ∧ t.roi = some (toInt reg) ∧ In reg shape)

/-- Every selection of the data of `s` is processed pixel by pixel: the pixel that comes from `p` becomes
`G s p`. -/
def Pixelwise {α : Type} (f : Sig α → List Item → Arr α → Option (Arr α)) (G : Sig α → List Nat → α) (s : Sig α) : Prop :=
  ∀ (l : List Sel) (x : Arr α), List.Forall₂ Sel.ok s.data.shape l → npGet s.data (l.map Sel.item) = some x →
    ∃ y, f s (l.map Sel.item) x = some y ∧ y.shape = x.shape ∧ ∀ r, InB r x.shape → y.get r = G s (selSrc l r)

/-- `y` is `G s` on the region. -/
def Done {α : Type} (G : Sig α → List Nat → α) (reg : List (Nat × Nat)) (s : Sig α) (y : Arr α) : Prop :=
  y.shape = sizes reg ∧ ∀ r, InB r y.shape → y.get r = G s (source reg r)

/-! ## selections without integers -/

def NoPick : Sel → Prop
  | .pick _ => False
  | _ => True

def Sel.lo : Sel → Nat
  | .rng a _ => a
  | _ => 0

theorem set_shape : ∀ (s : List Nat) (l : List Sel) (d i : Nat), s.length = l.length → (∀ x ∈ l, NoPick x) → d < s.length →
    selShape s (l.set d (.pick i)) = (selShape s l).eraseIdx d
  | [], [], _, _, _, _, h => by simp at h
  | n :: s, x :: l, 0, i, h, hp, _ => by
    have hx := hp x (by simp)
    cases x <;> simp_all [selShape, NoPick]
  | n :: s, x :: l, d + 1, i, h, hp, hd => by
    have hx := hp x (by simp)
    have ih := set_shape s l d i (by simpa using h) (fun y hy => hp y (by simp [hy])) (by simpa using hd)
    cases x <;> simp_all [selShape, NoPick]

theorem set_src : ∀ (l : List Sel) (r : List Nat) (d i : Nat), r.length + 1 = l.length → (∀ x ∈ l, NoPick x) →
    (h : d < l.length) → Sel.lo l[d] = 0 → selSrc (l.set d (.pick i)) r = selSrc l (r.insertIdx d i)
  | [], _, _, _, _, _, h, _ => by simp at h
  | x :: l, r, 0, i, h, hp, _, h0 => by
    have hx := hp x (by simp)
    cases x <;> simp_all [selSrc, NoPick, Sel.lo]
  | x :: l, [], d + 1, i, h, _, hd, _ => by simp only [List.length_cons, List.length_nil] at h hd; omega
  | x :: l, k :: r, d + 1, i, h, hp, hd, h0 => by
    have hx := hp x (by simp)
    have ih := set_src l r d i (by simpa using h) (fun y hy => hp y (by simp [hy])) (by simpa using hd) (by simpa using h0)
    cases x <;> simp_all [selSrc, NoPick]

theorem shape_length : ∀ (s : List Nat) (l : List Sel), s.length = l.length → (∀ x ∈ l, NoPick x) → (selShape s l).length = s.length
  | [], [], _, _ => rfl
  | n :: s, x :: l, h, hp => by
    have hx := hp x (by simp)
    have ih := shape_length s l (by simpa using h) (fun y hy => hp y (by simp [hy]))
    cases x <;> simp_all [selShape, NoPick]

/-- The loop over the slices. -/
theorem slices_loop {α : Type} (f : Sig α → List Item → Arr α → Option (Arr α)) (G : Sig α → List Nat → α) (s : Sig α)
    (hp : Pixelwise f G s) (l : List Sel) (hok : List.Forall₂ Sel.ok s.data.shape l) (hnp : ∀ x ∈ l, NoPick x) (sd : Nat)
    (hsd : sd < l.length) (hlo : Sel.lo l[sd] = 0) :
    ∀ (is : List Nat) (out : Arr α), (∀ i ∈ is, i < s.data.shape.getD sd 0) → is.Nodup → out.shape = selShape s.data.shape l →
      ∃ b, slicesLoop (f s) s.data (l.map Sel.item) sd is out = some b ∧ b.shape = out.shape ∧
        ∀ r, InB r out.shape → b.get r = if r.getD sd 0 ∈ is then G s (selSrc l r) else out.get r
  | [], out, _, _, _ => ⟨out, rfl, rfl, fun r _ => by simp⟩
  | i :: is, out, hi, hn, ho => by
    have hll : s.data.shape.length = l.length := hok.length_eq
    obtain ⟨x, h1, h2, h3⟩ := npGet_sel s.data (l.set sd (.pick i)) (set_ok _ _ _ _ hok (hi i (by simp)))
    obtain ⟨y, y1, y2, y3⟩ := hp _ _ (set_ok _ _ _ _ hok (hi i (by simp))) h1
    rw [List.map_set] at h1 y1
    have hn := List.nodup_cons.1 hn
    obtain ⟨b, hb, hs, hg⟩ := slices_loop f G s hp l hok hnp sd hsd hlo is (Crop.writeSlice out sd i y)
      (fun k hk => hi k (by simp [hk])) hn.2 ho
    have hys : y.shape = out.shape.eraseIdx sd := by
      rw [y2, h2, set_shape _ _ _ _ hll hnp (by omega), ho]
    refine ⟨b, ?_, hs, fun r hr => ?_⟩
    · simp only [slicesLoop]
      simp only [Sel.item] at h1 y1
      rw [h1]; simp only [y1, if_pos hys, hb]
    · rw [hg r hr]
      have hml : sd < out.shape.length := by rw [ho, shape_length _ _ hll hnp, hll]; exact hsd
      obtain ⟨k, r', hk, hr', rfl⟩ := inB_split (sd := sd) hml hr
      have hrl : sd ≤ r'.length := by rw [hr'.length, List.length_eraseIdx_of_lt hml]; omega
      simp only [Crop.writeSlice, insert_self _ _ _ hrl, List.mem_cons]
      by_cases hik : k = i
      · subst hik
        rw [if_neg hn.1, if_pos rfl, if_pos (Or.inl rfl), List.eraseIdx_insertIdx_self]
        rw [y3 r' (by rw [← y2, hys]; exact hr'), set_src _ _ _ _ ?_ hnp hsd hlo]
        rw [hr'.length, List.length_eraseIdx_of_lt hml, ho, shape_length _ _ hll hnp, hll]; omega
      · by_cases hkm : k ∈ is
        · rw [if_pos hkm, if_pos (Or.inr hkm)]
        · rw [if_neg hkm, if_neg hik, if_neg (by simp [hik, hkm])]

/-! ## regions as selections -/

theorem in_ok : ∀ (reg : List (Nat × Nat)) (s : List Nat), In reg s → List.Forall₂ Sel.ok s (toSel reg)
  | [], [], _ => List.Forall₂.nil
  | ab :: reg, n :: s, h => by
    have h := List.forall₂_cons.1 h
    exact List.Forall₂.cons h.1 (in_ok reg s h.2)
  | [], n :: s, h => by cases h
  | ab :: reg, [], h => by cases h

theorem in_full : ∀ (s : List Nat), In (s.map fun n => (0, n)) s
  | [] => List.Forall₂.nil
  | n :: s => List.Forall₂.cons ⟨Nat.zero_le _, Nat.le_refl _⟩ (in_full s)

theorem sizes_full (s : List Nat) : sizes (s.map fun n => (0, n)) = s := by
  simp [sizes, Function.comp_def]

theorem fulls_length : ∀ s, (fulls s).length = s.length
  | [] => rfl
  | _ :: s => by simp [fulls, fulls_length s]

theorem fulls_nopick : ∀ s, ∀ x ∈ fulls s, NoPick x
  | [], x, h => by simp [fulls] at h
  | n :: s, x, h => by
    rcases List.mem_cons.1 h with h | h
    · rw [h]; trivial
    · exact fulls_nopick s x h

theorem fulls_getElem : ∀ (s : List Nat) (d : Nat) (h : d < (fulls s).length), Sel.lo (fulls s)[d] = 0
  | [], d, h => by simp [fulls] at h
  | n :: s, 0, h => rfl
  | n :: s, d + 1, h => by
    have := fulls_getElem s d (by simpa [fulls] using h)
    simpa [fulls] using this

theorem source_full : ∀ (s r : List Nat), r.length = s.length → source (s.map fun n => (0, n)) r = r
  | [], [], _ => rfl
  | n :: s, i :: r, h => by
    have := source_full s r (by simpa using h)
    simp only [source] at this ⊢
    simp [this]

/-- The region of a task as a selection. -/
theorem region_sel {α : Type} (t : Task α) (shape : List Nat) (reg : List (Nat × Nat)) (h : Region t shape reg) :
    ∃ l : List Sel, indexin t shape.length = l.map Sel.item ∧ List.Forall₂ Sel.ok shape l ∧ (∀ x ∈ l, NoPick x) ∧
      shapeOut t shape = some (sizes reg) ∧ selShape shape l = sizes reg ∧ l.length = reg.length ∧
      (∀ r, r.length = reg.length → selSrc l r = source reg r) ∧
      (∀ d (hd : d < l.length), (reg.getD d (0, 0)).1 = 0 → Sel.lo l[d] = 0) := by
  rcases h with ⟨hc, rfl⟩ | ⟨hc, hr, hin⟩
  · refine ⟨fulls shape, ?_, Crop.fulls_ok shape, fulls_nopick shape, ?_, ?_, ?_, ?_, ?_⟩
    · rw [Crop.fulls_item, indexin, hc]; rfl
    · rw [shapeOut, hc, sizes_full]; rfl
    · rw [Crop.fulls_shape, sizes_full]
    · rw [fulls_length, List.length_map]
    · intro r hr
      rw [List.length_map] at hr
      rw [Crop.fulls_src _ _ hr, source_full _ _ hr]
    · intro d hd _
      exact fulls_getElem _ _ hd
  · have hlen : reg.length = shape.length := hin.length_eq
    refine ⟨toSel reg, ?_, in_ok _ _ hin, ?_, ?_, ?_, ?_, ?_, ?_⟩
    · rw [toSel_item, indexin, hc, if_pos rfl, hr]
    · intro x hx
      obtain ⟨ab, _, rfl⟩ := List.mem_map.1 hx
      trivial
    · rw [shapeOut, hc, if_pos rfl, hr]
      have hle : ∀ ab ∈ reg, ab.1 ≤ ab.2 := by
        clear hr hlen
        induction hin with
        | nil => simp
        | cons h _ ih =>
          intro ab hab
          rcases List.mem_cons.1 hab with rfl | hab
          · exact h.1
          · exact ih ab hab
      simp only [natShape, Crop.croppedShape, toInt, List.map_map]
      rw [if_pos]
      · congr 1
        apply List.map_congr_left
        intro ab hab
        have := hle ab hab
        simp only [Function.comp]
        omega
      · rw [List.all_eq_true]
        intro x hx
        obtain ⟨ab, hab, rfl⟩ := List.mem_map.1 hx
        have := hle ab hab
        simp only [Function.comp, decide_eq_true_eq]
        omega
    · exact toSel_shape _ _ hlen.symm
    · simp [toSel]
    · intro r hr
      exact toSel_src _ _ hr
    · intro d hd h0
      simp only [toSel, List.length_map] at hd
      simp only [toSel, List.getElem_map, Sel.lo]
      rwa [List.getD_eq_getElem?_getD, List.getElem?_eq_getElem hd, Option.getD_some] at h0

/-! ## axes -/

theorem axSlice_in (ax : Ax) (a b : Nat) (h : a ≤ b) (hb : b ≤ ax.vals.length) :
    ∃ v, axSlice ax a b = some v ∧ v.length = b - a ∧ ∀ i < b - a, v[i]? = ax.vals[a + i]? := by
  refine ⟨_, by rw [axSlice, Crop.rng_positions _ _ _ h hb, Option.map_some], by simp, fun i hi => ?_⟩
  simp only [List.map_map, List.getElem?_map, List.getElem?_range hi, Option.map_some, Function.comp]
  rw [List.getD_eq_getElem?_getD, List.getElem?_eq_getElem (show a + i < ax.vals.length by omega)]
  rfl

/-- The axis on the region of one dimension. -/
def AxDone (ax : Ax) (ab : Nat × Nat) (new : Ax) : Prop :=
  new.name = ax.name ∧ new.prec = ax.prec ∧ new.vals.length = ab.2 - ab.1 ∧ ∀ i < ab.2 - ab.1, new.vals[i]? = ax.vals[ab.1 + i]?

theorem cropAxis_in (ax : Ax) (a b : Nat) (h : a ≤ b) (hb : b ≤ ax.vals.length) :
    ∃ new, cropAxis ax ((a : Int), (b : Int)) = some new ∧ AxDone ax (a, b) new := by
  unfold cropAxis
  split
  · obtain ⟨v, h1, h2, h3⟩ := axSlice_in ax a b h hb
    exact ⟨{ ax with vals := v }, by simp [h1], rfl, rfl, h2, h3⟩
  · next he =>
    simp only [ne_eq, not_not] at he
    exact ⟨ax, rfl, rfl, rfl, by simp only; omega, fun i hi => by
      have : a = 0 := by omega
      subst this; simp⟩

inductive AxesDone : List Ax → List (Nat × Nat) → List Ax → Prop
  | nil : AxesDone [] [] []
  | cons {ax ab new axes reg news} : AxDone ax ab new → AxesDone axes reg news → AxesDone (ax :: axes) (ab :: reg) (new :: news)

theorem outAxes_crop : ∀ (axes : List Ax) (reg : List (Nat × Nat)), In reg (axes.map fun a => a.vals.length) →
    ∃ news, ((axes.zip (toInt reg)).mapM fun x => cropAxis x.1 x.2) = some news ∧ AxesDone axes reg news
  | [], [], _ => ⟨[], rfl, .nil⟩
  | ax :: axes, (a, b) :: reg, h => by
    have h := List.forall₂_cons.1 h
    obtain ⟨new, h1, h2⟩ := cropAxis_in ax a b h.1.1 h.1.2
    obtain ⟨news, h3, h4⟩ := outAxes_crop axes reg h.2
    refine ⟨new :: news, ?_, .cons h2 h4⟩
    simp only [toInt, List.map_cons, List.zip_cons_cons, List.mapM_cons] at h3 ⊢
    rw [h1, h3]; rfl
  | [], _ :: _, h => by cases h
  | _ :: _, [], h => by cases h

theorem axesDone_full : ∀ (axes : List Ax), AxesDone axes ((axes.map fun a => a.vals.length).map fun n => (0, n)) axes
  | [] => .nil
  | ax :: axes => .cons ⟨rfl, rfl, rfl, fun i _ => by simp⟩ (axesDone_full axes)

theorem out_axes {α : Type} (t : Task α) (axes : List Ax) (reg : List (Nat × Nat))
    (h : Region t (axes.map fun a => a.vals.length) reg) : ∃ news, outAxes t axes = some news ∧ AxesDone axes reg news := by
  rcases h with ⟨hc, rfl⟩ | ⟨hc, hr, hin⟩
  · exact ⟨axes, by rw [outAxes, hc]; rfl, axesDone_full axes⟩
  · obtain ⟨news, h1, h2⟩ := outAxes_crop axes reg hin
    exact ⟨news, by rw [outAxes, hc, if_pos rfl, hr]; exact h1, h2⟩

theorem axesDone_names {axes : List Ax} {reg news} (h : AxesDone axes reg news) : news.map Ax.name = axes.map Ax.name := by
  induction h with
  | nil => rfl
  | cons h _ ih => simp [h.1, ih]

theorem axesDone_sizes {axes : List Ax} {reg news} (h : AxesDone axes reg news) : (news.map fun a => a.vals.length) = sizes reg := by
  induction h with
  | nil => rfl
  | cons h _ ih => simp only [List.map_cons, sizes] at ih ⊢; rw [ih, h.2.2.1]

theorem createAxes_eq : ∀ (axes pos : List Ax), (axes.map Ax.name).Nodup → (∀ a ∈ axes, a.name ∉ pos.map Ax.name) →
    createAxes axes pos = pos ++ axes
  | [], pos, _, _ => by simp [createAxes]
  | ax :: axes, pos, hn, h => by
    have hn := List.nodup_cons.1 (by simpa using hn : (ax.name :: axes.map Ax.name).Nodup)
    rw [createAxes, if_neg (h ax (by simp)), createAxes_eq axes _ hn.2, List.append_assoc]
    · rfl
    · intro a ha
      rw [List.map_append, List.mem_append]
      rintro (h' | h')
      · exact h a (by simp [ha]) h'
      · simp only [List.map_cons, List.map_nil, List.mem_singleton] at h'
        exact hn.1 (h' ▸ List.mem_map_of_mem ha)

theorem find_name : ∀ (pos : List Ax), (pos.map Ax.name).Nodup → ∀ a ∈ pos, (pos.find? fun b => b.name = a.name) = some a
  | [], _, a, h => by simp at h
  | b :: pos, hn, a, h => by
    have hn := List.nodup_cons.1 (by simpa using hn : (b.name :: pos.map Ax.name).Nodup)
    rcases List.mem_cons.1 h with rfl | h
    · simp
    · rw [List.find?_cons]
      have : ¬ b.name = a.name := fun e => hn.1 (e ▸ List.mem_map_of_mem h)
      simp only [this, decide_false]
      exact find_name pos hn.2 a h

theorem axesShape_eq (pos : List Ax) (hn : (pos.map Ax.name).Nodup) :
    axesShape pos (pos.map Ax.name) = some (pos.map fun a => a.vals.length) := by
  have key : ∀ l : List Ax, (∀ a ∈ l, a ∈ pos) → axesShape pos (l.map Ax.name) = some (l.map fun a => a.vals.length) := by
    intro l
    induction l with
    | nil => intro _; rfl
    | cons a l ih =>
      intro h
      have h1 := ih fun b hb => h b (by simp [hb])
      simp only [axesShape, List.map_cons, List.mapM_cons] at h1 ⊢
      rw [find_name pos hn a (h a (by simp)), h1]; rfl
  exact key pos fun a h => h

/-! ## the groups of the output -/

/-- What an output group is, after the signals `l` of its input group. -/
structure OutOk {α : Type} (R : Sig α → Arr α → Prop) (o : Out α) (l : List (Sig α)) : Prop where
  ne : l ≠ []
  data : List.Forall₂ (fun s d => d.1 = s.name ∧ R s d.2) l o.data
  signal : o.attrs.signal = (l.map Sig.name).getLast?
  aux : o.attrs.aux.getD [] = (l.map Sig.name).dropLast
  dsets : o.attrs.dsets = l.map Sig.name
  inv : NXdata.Inv o.attrs

theorem addTo_ok {α : Type} {R : Sig α → Arr α → Prop} {axShape : List Nat} (hax : axShape ≠ []) {o : Out α} {l : List (Sig α)}
    (ho : OutOk R o l) (s : Sig α) (y : Arr α) (hy : y.shape = axShape) (hR : R s y) (hn : s.name ∉ l.map Sig.name) :
    ∃ o', addTo axShape o s.name y = some o' ∧ o'.name = o.name ∧ OutOk R o' (l ++ [s]) := by
  refine ⟨{ o with attrs := NXdata.addAttrs { o.attrs with dsets := o.attrs.dsets ++ [s.name] } s.name, data := o.data ++ [(s.name, y)] }, ?_, rfl, ?_⟩
  · unfold addTo
    rw [if_neg (by rw [wantShape, if_pos hax]; exact fun h => h.2 hy), NXdata.addSignal, if_pos rfl, if_neg (by rw [ho.dsets]; exact hn)]
    rfl
  · refine ⟨by simp, ?_, ?_, ?_, ?_, ?_⟩
    · exact List.rel_append ho.data (.cons ⟨rfl, hR⟩ .nil)
    · simp [NXdata.addAttrs]
    · have hne : l.map Sig.name ≠ [] := by simpa using ho.ne
      simp only [NXdata.addAttrs, ho.aux, ho.signal, List.map_append, List.map_cons, List.map_nil, List.dropLast_concat]
      have e : (l.map Sig.name).dropLast ++ (l.map Sig.name).getLast?.toList = l.map Sig.name := by
        rw [List.getLast?_eq_some_getLast hne, Option.toList_some, List.dropLast_append_getLast hne]
      rw [e, if_neg hne]; rfl
    · simp [NXdata.addAttrs, ho.dsets]
    · exact NXdata.inv_addAttrs (st := { o.attrs with dsets := o.attrs.dsets ++ [s.name] }) ⟨ho.inv.ne, ho.inv.sig⟩ s.name

theorem newGroup_ok {α : Type} {R : Sig α → Arr α → Prop} {axShape : List Nat} (s : Sig α) (y : Arr α) (hy : y.shape = axShape) (hR : R s y) :
    ∃ o, newGroup axShape s.parent s.name y = some o ∧ o.name = s.parent ∧ OutOk R o [s] := by
  refine ⟨⟨s.parent, ⟨some s.name, none, [s.name]⟩, [(s.name, y)]⟩, ?_, rfl, ?_⟩
  · have : addTo [] (⟨s.parent, NXdata.fresh [], []⟩ : Out α) s.name y = some ⟨s.parent, ⟨some s.name, none, [s.name]⟩, [(s.name, y)]⟩ := by
      simp [addTo, wantShape, NXdata.fresh, NXdata.addSignal, NXdata.addAttrs]
    rw [newGroup, this]
    simp only
    rw [if_neg (fun h => h.2 hy)]
  · exact ⟨by simp, .cons ⟨rfl, hR⟩ .nil, rfl, rfl, rfl, ⟨by simp, by simp⟩⟩

/-- The signals of a group among `l`. -/
def ofGroup {α : Type} (l : List (Sig α)) (p : Str) : List (Sig α) := l.filter fun s => s.parent = p

/-- The groups after the signals `l`. -/
structure OutsOk {α : Type} (R : Sig α → Arr α → Prop) (outs : List (Out α)) (l : List (Sig α)) : Prop where
  names : outs.map Out.name = (l.map Sig.parent).eraseDups
  ok : ∀ o ∈ outs, OutOk R o (ofGroup l o.name)

theorem eraseDups_snoc {β : Type} [BEq β] [LawfulBEq β] (l : List β) (a : β) : (l ++ [a]).eraseDups = if a ∈ l then l.eraseDups else l.eraseDups ++ [a] := by
  rw [List.eraseDups_append]
  by_cases h : a ∈ l
  · simp [List.removeAll, h]
  · simp [List.removeAll, h, List.eraseDups_cons]

theorem nodup_dups {β : Type} [BEq β] [LawfulBEq β] (l : List β) : l.eraseDups.Nodup := by
  induction l using List.reverseRecOn with
  | nil => simp
  | append_singleton l a ih =>
    rw [eraseDups_snoc]
    split
    · exact ih
    · next h =>
      rw [List.nodup_append]
      exact ⟨ih, by simp, fun x hx y hy e => h (by
        rw [List.mem_singleton] at hy
        rw [← hy, ← e]; exact List.mem_eraseDups.1 hx)⟩

theorem ofGroup_snoc {α : Type} (l : List (Sig α)) (s : Sig α) (p : Str) :
    ofGroup (l ++ [s]) p = if s.parent = p then ofGroup l p ++ [s] else ofGroup l p := by
  unfold ofGroup
  rw [List.filter_append]
  split <;> simp_all

theorem step_ok {α : Type} {R : Sig α → Arr α → Prop} (t : Task α) (zero : α) (shape : List Nat) {axShape : List Nat} (hax : axShape ≠ [])
    (s : Sig α) (y : Arr α) (hnew : newData t zero shape s = some y) (hy : y.shape = axShape) (hR : R s y) (l : List (Sig α))
    (hl : ∀ s' ∈ l, s'.parent = s.parent → s'.name ≠ s.name) :
    ∀ (outs : List (Out α)), (∀ o ∈ outs, OutOk R o (ofGroup l o.name)) → (outs.map Out.name).Nodup →
      ((∀ o ∈ outs, o.name ≠ s.parent) → ofGroup l s.parent = []) →
      ∃ outs', stepSignal t zero shape axShape s outs = some outs' ∧
        outs'.map Out.name = (if s.parent ∈ outs.map Out.name then outs.map Out.name else outs.map Out.name ++ [s.parent]) ∧
        ∀ o ∈ outs', OutOk R o (ofGroup (l ++ [s]) o.name)
  | [], _, _, hemp => by
    obtain ⟨o, h1, h2, h3⟩ := newGroup_ok (R := R) s y hy hR
    refine ⟨[o], by simp [stepSignal, hnew, h1], by simp [h2], ?_⟩
    intro o' ho'
    rw [List.mem_singleton.1 ho', h2, ofGroup_snoc, if_pos rfl, hemp (by simp)]
    exact h3
  | o :: outs, hok, hnd, hemp => by
    have hnd := List.nodup_cons.1 (by simpa using hnd : (o.name :: outs.map Out.name).Nodup)
    by_cases hp : o.name = s.parent
    · obtain ⟨o', h1, h2, h3⟩ := addTo_ok hax (hok o (by simp)) s y hy hR (by
        intro hm
        obtain ⟨s', hs', he⟩ := List.mem_map.1 hm
        obtain ⟨m1, m2⟩ := List.mem_filter.1 hs'
        exact hl s' m1 (by rw [← hp]; simpa using m2) he)
      refine ⟨o' :: outs, by simp [stepSignal, hp, hnew, h1], by simp [hp, h2], ?_⟩
      intro q hq
      rcases List.mem_cons.1 hq with rfl | hq
      · rw [h2, ofGroup_snoc, if_pos hp.symm]; exact h3
      · rw [ofGroup_snoc, if_neg]
        · exact hok q (by simp [hq])
        · intro e
          exact hnd.1 (by rw [hp, e]; exact List.mem_map_of_mem hq)
    · obtain ⟨outs', h1, h2, h3⟩ := step_ok t zero shape hax s y hnew hy hR l hl outs (fun q hq => hok q (by simp [hq])) hnd.2
        (fun h => hemp (fun q hq => by
          rcases List.mem_cons.1 hq with rfl | hq
          · exact hp
          · exact h q hq))
      refine ⟨o :: outs', by simp [stepSignal, hp, h1], ?_, ?_⟩
      · rw [List.map_cons, h2, List.map_cons]
        have : s.parent ∈ o.name :: outs.map Out.name ↔ s.parent ∈ outs.map Out.name := by
          simp [Ne.symm hp]
        by_cases hm : s.parent ∈ outs.map Out.name
        · rw [if_pos hm, if_pos (this.2 hm)]
        · rw [if_neg hm, if_neg (fun h => hm (this.1 h))]; rfl
      · intro q hq
        rcases List.mem_cons.1 hq with rfl | hq
        · rw [ofGroup_snoc, if_neg (fun e => hp e.symm)]; exact hok q (by simp)
        · exact h3 q hq

theorem loop_ok {α : Type} {R : Sig α → Arr α → Prop} (t : Task α) (zero : α) (shape : List Nat) {axShape : List Nat} (hax : axShape ≠ []) :
    ∀ (ss l : List (Sig α)) (outs : List (Out α)),
      (∀ s ∈ ss, t.skip s.parent s.name = false → ∃ y, newData t zero shape s = some y ∧ y.shape = axShape ∧ R s y) →
      (ss.map fun s => (s.parent, s.name)).Nodup → (∀ s ∈ ss, ∀ s' ∈ l, s'.parent = s.parent → s'.name ≠ s.name) →
      OutsOk R outs l →
      ∃ outs', signalsLoop t zero shape axShape ss outs = some outs' ∧
        OutsOk R outs' (l ++ ss.filter fun s => !t.skip s.parent s.name)
  | [], l, outs, _, _, _, ho => ⟨outs, rfl, by simpa using ho⟩
  | s :: ss, l, outs, hd, hn, hl, ho => by
    have hn := List.nodup_cons.1 (by simpa using hn : ((s.parent, s.name) :: ss.map fun s => (s.parent, s.name)).Nodup)
    by_cases hs : t.skip s.parent s.name = true
    · obtain ⟨outs', h1, h2⟩ := loop_ok t zero shape hax ss l outs (fun s hs => hd s (by simp [hs])) hn.2
        (fun s hs => hl s (by simp [hs])) ho
      exact ⟨outs', by rw [signalsLoop, if_pos hs]; exact h1, by simpa [hs] using h2⟩
    · have hs' : t.skip s.parent s.name = false := by simpa using hs
      obtain ⟨y, y1, y2, y3⟩ := hd s (by simp) hs'
      obtain ⟨outs1, h1, h2, h3⟩ := step_ok (R := R) t zero shape hax s y y1 y2 y3 l (hl s (by simp)) outs ho.ok
        (by rw [ho.names]; exact nodup_dups _) (by
          intro h
          rw [ofGroup, List.filter_eq_nil_iff]
          intro s1 h1 h2
          have : s1.parent ∈ outs.map Out.name := by rw [ho.names]; simp only [List.mem_eraseDups]; exact List.mem_map_of_mem h1
          obtain ⟨o, ho1, ho2⟩ := List.mem_map.1 this
          exact h o ho1 (by rw [ho2]; simpa using h2))
      have ho1 : OutsOk R outs1 (l ++ [s]) := by
        refine ⟨?_, h3⟩
        rw [h2, ho.names, List.map_append, List.map_cons, List.map_nil, eraseDups_snoc]
        simp only [List.mem_eraseDups]
      obtain ⟨outs', h4, h5⟩ := loop_ok t zero shape hax ss (l ++ [s]) outs1 (fun s hs => hd s (by simp [hs])) hn.2 (by
        intro s1 m1 s2 m2 hp
        rcases List.mem_append.1 m2 with m2 | m2
        · exact hl s1 (by simp [m1]) s2 m2 hp
        · rw [List.mem_singleton] at m2
          intro e
          exact hn.1 (List.mem_map.2 ⟨s1, m1, by rw [← hp, ← e, m2]⟩)) ho1
      refine ⟨outs', by rw [signalsLoop, if_neg hs, h1]; exact h4, ?_⟩
      rw [List.filter_cons, if_pos (by simp [hs'])]
      simpa using h5

/-! ## the order of signals -/

theorem names_of {α : Type} {R : Sig α → Arr α → Prop} {o : Out α} {l : List (Sig α)} (h : OutOk R o l) :
    NXdata.names o.attrs = (l.map Sig.name).getLast?.toList ++ (l.map Sig.name).dropLast := by
  rw [NXdata.names, h.signal, h.aux]

theorem last_perm {β : Type} (l : List β) : (l.getLast?.toList ++ l.dropLast).Perm l := by
  rcases l.eq_nil_or_concat with rfl | ⟨l', x, rfl⟩
  · simp
  · simp only [List.concat_eq_append, List.getLast?_concat, List.dropLast_concat, Option.toList_some, List.singleton_append]
    exact (List.perm_append_singleton x l').symm

theorem sort_ok {α : Type} {R : Sig α → Arr α → Prop} {o : Out α} {l : List (Sig α)} (h : OutOk R o l) (signals : List (Sig α)) :
    ∃ o', sortOut signals o = some o' ∧ o'.name = o.name ∧ o'.data = o.data ∧ o'.attrs.dsets = o.attrs.dsets ∧
      (NXdata.names o'.attrs).Perm (l.map Sig.name) ∧
      ((prevNames signals o.name).Perm (l.map Sig.name) → NXdata.names o'.attrs = prevNames signals o.name ∧ o'.attrs.signal = (prevNames signals o.name).head?) ∧
      (¬ (prevNames signals o.name).Perm (l.map Sig.name) → o'.attrs = o.attrs) := by
  have hne : l.map Sig.name ≠ [] := by simpa using h.ne
  have hsome : ∃ x, o.attrs.signal = some x := ⟨_, by rw [h.signal, List.getLast?_eq_some_getLast hne]⟩
  obtain ⟨x, hx⟩ := hsome
  have hperm : (NXdata.names o.attrs).Perm (l.map Sig.name) := by rw [names_of h]; exact last_perm _
  unfold sortOut NXdata.sortSignals
  rw [hx]
  simp only
  by_cases hp : (prevNames signals o.name).Perm (l.map Sig.name)
  · have hpp : (prevNames signals o.name).Perm (NXdata.names o.attrs) := hp.trans hperm.symm
    rw [if_pos (NXdata.sort_eq_iff.2 hpp)]
    obtain ⟨s1, s2, s3, s4, s5⟩ := NXdata.set_perm h.inv (by rw [hx]; simp) hpp
    exact ⟨_, rfl, rfl, rfl, s3, by rw [s1]; exact hp, fun _ => ⟨s1, s4⟩, fun h => absurd hp h⟩
  · rw [if_neg (fun e => hp ((NXdata.sort_eq_iff.1 e).trans hperm))]
    exact ⟨_, rfl, rfl, rfl, rfl, hperm, fun h => absurd h hp, fun _ => rfl⟩

end SC.Grid
