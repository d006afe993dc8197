import Verif.Grid.Model
import Verif.Crop.Lemmas3
import Verif.Numpy.Lemmas
import Mathlib.Tactic.Linarith
import Mathlib.Tactic.Ring
import Mathlib.Tactic.FieldSimp
import Mathlib.Algebra.Order.Floor.Ring
import Mathlib.Data.Rat.Floor
/-! # Grids made of result groups (C66) -/
namespace SC.Grid
open SC.Numpy SC.Py SC.Naming

/-! ## the groups of a grid -/

theorem gridLoop_spec {α : Type} : ∀ (ds : List (NX α)) (groups : List (Str × List (Sig α))) (axes : List Ax) (sd : Option Int)
    (groups' : List (Str × List (Sig α))) (axes' : List Ax) (sd' : Option Int),
    gridLoop ds groups axes sd = some (groups', axes', sd') → (groups.map Prod.fst).Nodup →
    (∃ gs, groups' = groups ++ gs ∧ gs.map (fun g => some g.1) = (ds.filter fun d => !d.link).map (fun d => (grpOfStr d.name).map Grp.name) ∧
      gs.map Prod.snd = (ds.filter fun d => !d.link).map sigs) ∧
    (groups'.map Prod.fst).Nodup ∧ (axes ≠ [] → axes' = axes) ∧
    (∀ d ∈ ds, d.link = false → d.axes ≠ [] → axesEq axes' d.axes = true ∨ d.axes = axes') ∧
    (axes' = axes ∨ ∃ d ∈ ds, d.link = false ∧ d.axes = axes') ∧
    sd' = if sd.isSome then sd else ((ds.filter fun d => !d.link).findSome? NX.interp).map fun (n : Nat) => (n : Int)
  | [], groups, axes, sd, groups', axes', sd', h, hn => by
    simp only [gridLoop, Option.some.injEq, Prod.mk.injEq] at h
    obtain ⟨rfl, rfl, rfl⟩ := h
    refine ⟨⟨[], by simp⟩, hn, fun _ => rfl, by simp, Or.inl rfl, ?_⟩
    cases sd <;> simp
  | d :: ds, groups, axes, sd, groups', axes', sd', h, hn => by
    unfold gridLoop at h
    cases hl : d.link with
    | true =>
      rw [hl] at h
      simp only [if_true] at h
      obtain ⟨a, b, c, e, e', f⟩ := gridLoop_spec ds _ _ _ _ _ _ h hn
      refine ⟨?_, b, c, ?_, ?_, ?_⟩
      · simpa [List.filter_cons, hl] using a
      · intro x hx hxl
        rcases List.mem_cons.1 hx with rfl | hx
        · simp [hl] at hxl
        · exact e x hx hxl
      · rcases e' with e' | ⟨x, hx, h1, h2⟩
        · exact Or.inl e'
        · exact Or.inr ⟨x, by simp [hx], h1, h2⟩
      · simpa [List.filter_cons, hl] using f
    | false =>
      rw [hl] at h
      simp only [Bool.false_eq_true, if_false] at h
      have hsd : ∀ (s : Option Int), s = (if (if sd.isNone = true then d.interp.map (fun (n : Nat) => (n : Int)) else sd).isSome = true then
          (if sd.isNone = true then d.interp.map (fun (n : Nat) => (n : Int)) else sd) else
          ((ds.filter fun d => !d.link).findSome? NX.interp).map fun (n : Nat) => (n : Int)) →
          s = if sd.isSome then sd else (((d :: ds).filter fun d => !d.link).findSome? NX.interp).map fun (n : Nat) => (n : Int) := by
        intro s hs
        rw [hs]
        cases sd with
        | some v => simp
        | none =>
          simp only [Option.isNone_none, if_true, Option.isSome_none, Bool.false_eq_true, if_false, List.filter_cons, hl,
            Bool.not_false, List.findSome?_cons]
          cases d.interp <;> simp
      cases hg : grpOfStr d.name with
      | none => simp [hg] at h
      | some g =>
        simp only [hg] at h
        by_cases hin : g.name ∈ groups.map Prod.fst
        · simp [hin] at h
        · rw [if_neg hin] at h
          have hn' : ((groups ++ [(g.name, sigs d)]).map Prod.fst).Nodup := by
            rw [List.map_append, List.nodup_append]
            refine ⟨hn, by simp, ?_⟩
            intro x hx y hy hxy
            simp only [List.map_cons, List.map_nil, List.mem_singleton] at hy
            subst hy hxy
            exact hin hx
          have key : ∀ gs : List (Str × List (Sig α)), groups' = groups ++ [(g.name, sigs d)] ++ gs →
              gs.map (fun g => some g.1) = (ds.filter fun d => !d.link).map (fun d => (grpOfStr d.name).map Grp.name) →
              gs.map Prod.snd = (ds.filter fun d => !d.link).map sigs →
              ∃ gs, groups' = groups ++ gs ∧ gs.map (fun g => some g.1) = ((d :: ds).filter fun d => !d.link).map (fun d => (grpOfStr d.name).map Grp.name) ∧
              gs.map Prod.snd = ((d :: ds).filter fun d => !d.link).map sigs := by
            intro gs h1 h2 h3
            refine ⟨(g.name, sigs d) :: gs, by rw [h1]; simp, ?_, ?_⟩
            · simp [List.filter_cons, hl, hg, h2]
            · simp [List.filter_cons, hl, h3]
          by_cases hax : axes ≠ []
          · rw [if_pos hax] at h
            by_cases heq : axesEq axes d.axes = true
            · rw [if_pos heq] at h
              obtain ⟨⟨gs, a1, a2, a3⟩, b, c, e, e', f⟩ := gridLoop_spec ds _ _ _ _ _ _ h hn'
              refine ⟨key gs a1 a2 a3, b, c, ?_, ?_, hsd _ f⟩
              · intro x hx hxl hne
                rcases List.mem_cons.1 hx with rfl | hx
                · left; rw [c hax]; exact heq
                · exact e x hx hxl hne
              · rcases e' with e' | ⟨x, hx, h1, h2⟩
                · exact Or.inl e'
                · exact Or.inr ⟨x, by simp [hx], h1, h2⟩
            · rw [if_neg heq] at h; simp at h
          · rw [if_neg hax] at h
            obtain ⟨⟨gs, a1, a2, a3⟩, b, c, e, e', f⟩ := gridLoop_spec ds _ _ _ _ _ _ h hn'
            refine ⟨key gs a1 a2 a3, b, fun hh => absurd hh hax, ?_, ?_, hsd _ f⟩
            · intro x hx hxl hne
              rcases List.mem_cons.1 hx with rfl | hx
              · right; exact (c hne).symm
              · exact e x hx hxl hne
            · rcases e' with e' | ⟨x, hx, h1, h2⟩
              · exact Or.inr ⟨d, by simp, hl, e'.symm⟩
              · exact Or.inr ⟨x, by simp [hx], h1, h2⟩

theorem nxGrid_inv {α : Type} {ds : List (NX α)} {cfg sd : Option Int} {g : Grid α} (h : nxGrid ds cfg sd = some g) :
    ∃ groups axes p, gridLoop ds [] [] cfg = some (groups, axes, some p) ∧ g.signals = groups.flatMap Prod.snd ∧
      g.axes = pyInsert (axes.map some) (sd.getD p) none ∧ g.stackdim = sd.getD p ∧
      g.stackDims = [sd.getD p, if sd.getD p ≤ p then p + 1 else p] := by
  unfold nxGrid at h
  split at h
  · simp at h
  · next groups axes prev heq =>
    cases prev with
    | none => simp at h
    | some p =>
      simp only [Option.some.injEq] at h
      subst h
      exact ⟨groups, axes, p, heq, rfl, rfl, rfl, rfl⟩

/-- A grid holds the signals of all groups that are not links, in order, on the axes of one of them,
which the others share; the groups are all different. -/
theorem grid_signals {α : Type} (ds : List (NX α)) (cfg sd : Option Int) (g : Grid α) (h : nxGrid ds cfg sd = some g) :
    g.signals = (ds.filter fun d => !d.link).flatMap sigs ∧
    ((ds.filter fun d => !d.link).map fun d => (grpOfStr d.name).map Grp.name).Nodup ∧
    (∃ axes : List Ax, g.axes = pyInsert (axes.map some) g.stackdim none ∧
      (axes = [] ∨ ∃ d ∈ ds, d.link = false ∧ d.axes = axes) ∧
      ∀ d ∈ ds, d.link = false → d.axes ≠ [] → axesEq axes d.axes = true ∨ d.axes = axes) ∧
    (∀ c s, cfg = some c → sd = some s → g.stackdim = s) ∧
    (∀ c, cfg = some c → sd = none → g.stackdim = c) := by
  obtain ⟨groups, axes, p, h1, h2, h3, h4, _⟩ := nxGrid_inv h
  obtain ⟨⟨gs, a1, a2, a3⟩, b, _, e, e', f⟩ := gridLoop_spec ds [] [] cfg _ _ _ h1 (by simp)
  simp only [List.nil_append] at a1
  subst a1
  refine ⟨?_, ?_, ⟨axes, by rw [h3, h4], e', e⟩, ?_, ?_⟩
  · rw [h2, List.flatMap_def, a3, ← List.flatMap_def]
  · rw [← a2]
    have : groups.map (fun g => some g.1) = (groups.map Prod.fst).map some := by simp
    rw [this]
    exact b.map (Option.some_injective _)
  · rintro c s rfl rfl
    rw [h4]; rfl
  · rintro c rfl rfl
    simp only [Option.isSome_some, if_true, Option.some.injEq] at f
    rw [h4, f]; rfl

/-- Two groups for the same detector are refused, whatever they are called. -/
theorem same_detector_refused {α : Type} (pre mid post : List (NX α)) (a b : NX α) (cfg sd : Option Int)
    (ha : a.link = false) (hb : b.link = false) (h : (grpOfStr a.name).map Grp.name = (grpOfStr b.name).map Grp.name) :
    nxGrid (pre ++ a :: mid ++ b :: post) cfg sd = none := by
  cases hg : nxGrid (pre ++ a :: mid ++ b :: post) cfg sd with
  | none => rfl
  | some g =>
    have := (grid_signals _ cfg sd g hg).2.1
    simp only [List.filter_append, List.filter_cons, ha, hb, Bool.not_false, if_true, List.map_append, List.map_cons,
      List.nodup_append] at this
    have h2 := this.2.2 ((grpOfStr a.name).map Grp.name) (by simp) ((grpOfStr b.name).map Grp.name) (by simp)
    exact absurd h h2

/-- Without a configured stack dimension it is that of the first group that has one. -/
theorem stackdim_of_data {α : Type} (ds : List (NX α)) (g : Grid α) (h : nxGrid ds none none = some g) :
    ∃ k : Nat, (ds.filter fun d => !d.link).findSome? NX.interp = some k ∧ g.stackdim = k := by
  obtain ⟨groups, axes, p, h1, h2, h3, h4, _⟩ := nxGrid_inv h
  obtain ⟨_, _, _, _, _, f⟩ := gridLoop_spec ds [] [] none _ _ _ h1 (by simp)
  simp only [Option.isSome_none, Bool.false_eq_true, if_false] at f
  cases hk : (ds.filter fun d => !d.link).findSome? NX.interp with
  | none => simp [hk] at f
  | some k =>
    simp only [hk, Option.map_some, Option.some.injEq] at f
    exact ⟨k, rfl, by rw [h4, f]; rfl⟩

/-! ## the dimensions of a grid -/

theorem pyInsert_nat {β : Type} (l : List β) (k : Nat) (h : k ≤ l.length) (x : β) : pyInsert l k x = l.insertIdx k x := by
  have h0 : ¬ ((k : Int) < 0) := by omega
  simp [pyInsert, h, h0]

theorem pyPop_nat {β : Type} (l : List β) (k : Nat) (h : k < l.length) : pyPop l k = some (l.eraseIdx k) := by
  simp [pyPop, normIdx, h]

/-- The axes and the shape of the signals are what remains of the grid without its axis of signals. -/
theorem signal_axes_back {α : Type} (g : Grid α) (axes : List Ax) (k : Nat) (hk : k ≤ axes.length)
    (ha : g.axes = pyInsert (axes.map some) g.stackdim none) (hs : g.stackdim = k) :
    g.signalAxes = some (axes.map some) ∧ g.signalShape = some (axes.map fun a => a.vals.length) ∧
    g.shape = (axes.map fun a => a.vals.length).insertIdx k g.signals.length := by
  rw [hs, pyInsert_nat _ _ (by simpa using hk)] at ha
  have hl : (List.insertIdx (axes.map some) k none).length = axes.length + 1 := by
    rw [List.length_insertIdx_of_le_length (by simpa using hk)]; simp
  have hsh : g.shape = (axes.map fun a => a.vals.length).insertIdx k g.signals.length := by
    rw [Grid.shape, ha, List.map_insertIdx]
    congr 1
    simp [axSize, Function.comp_def]
  refine ⟨?_, ?_, hsh⟩
  · rw [Grid.signalAxes, hs, ha, pyPop_nat _ _ (by rw [hl]; omega), List.eraseIdx_insertIdx_self]
  · rw [Grid.signalShape, hs, hsh, pyPop_nat _ _ (by rw [List.length_insertIdx_of_le_length (by simpa using hk)]; simp; omega),
      List.eraseIdx_insertIdx_self]

/-- A negative stack dimension: another axis is taken for the axis of signals. -/
theorem negative_stackdim : ∃ (g : Grid Nat) (x y : Ax), g.axes = pyInsert [some x, some y] g.stackdim none ∧ g.stackdim = -1 ∧
    x ≠ y ∧ g.signalAxes = some [some x, none] := by
  refine ⟨⟨[], pyInsert [some ⟨['x'], [0], 0⟩, some ⟨['y'], [0, 1], 0⟩] (-1) none, -1, []⟩, ⟨['x'], [0], 0⟩, ⟨['y'], [0, 1], 0⟩,
    rfl, rfl, by decide, by decide⟩

/-- The dimensions of a grid that are not stack dimensions are those of the signals without the stack
dimension of the signals. -/
theorem other_dims {α : Type} (ds : List (NX α)) (cfg sd : Option Int) (g : Grid α) (h : nxGrid ds cfg sd = some g)
    (p s : Nat) (axes : List Ax) (hp : g.stackDims = [(s : Int), if (s : Int) ≤ p then (p : Int) + 1 else p])
    (ha : g.axes = pyInsert (axes.map some) g.stackdim none) (hs : g.stackdim = s) (hsl : s ≤ axes.length) (hpl : p < axes.length) :
    (otherDims g.axes.length g.stackDims).map (fun i => g.axes.getD i none) = (axes.eraseIdx p).map some := by
  have hlen : g.axes.length = axes.length + 1 := by
    rw [ha, hs, pyInsert_nat _ _ (by simpa using hsl), List.length_insertIdx_of_le_length (by simpa using hsl)]; simp
  have hget : ∀ i : Nat, g.axes.getD i none = if i < s then (axes[i]?) else if i = s then none else axes[i - 1]? := by
    intro i
    rw [ha, hs, pyInsert_nat _ _ (by simpa using hsl), List.getD_eq_getElem?_getD, List.getElem?_insertIdx]
    rcases Nat.lt_trichotomy i s with hi | hi | hi
    · rw [if_pos hi, if_pos hi]
      cases hx : axes[i]? <;> simp [hx]
    · subst hi
      simp [hsl]
    · rw [if_neg (by omega), if_neg (by omega), if_neg (by omega), if_neg (by omega)]
      cases hx : axes[i - 1]? <;> simp [hx]
  -- the position of the stack dimension of the signals in the grid
  have hq : ∃ q : Nat, g.stackDims = [(s : Int), (q : Int)] ∧ q ≠ s ∧ (p < s → q = p) ∧ (s ≤ p → q = p + 1) := by
    by_cases hsp : s ≤ p
    · exact ⟨p + 1, by rw [hp, if_pos (by omega)]; simp, by omega, by omega, by omega⟩
    · exact ⟨p, by rw [hp, if_neg (by omega)], by omega, by omega, by omega⟩
  obtain ⟨q, hq, hqs, hq1, hq2⟩ := hq
  have hod : otherDims g.axes.length g.stackDims = (List.range (axes.length + 1)).filter fun (i : Nat) => decide (i ≠ s ∧ i ≠ q) := by
    rw [otherDims, hlen, hq]
    apply List.filter_congr
    intro i _
    simp
  rw [hod]
  -- all axes without two of them
  have key : ∀ (l : List (Option Ax)) (a b : Nat), l.length = axes.length + 1 → a < b → b < l.length →
      ((List.range (axes.length + 1)).filter fun (i : Nat) => decide (i ≠ a ∧ i ≠ b)).map (fun i => l.getD i none) =
      (l.eraseIdx b).eraseIdx a := by
    intro l a b hl hab hb
    have h1 : List.range (axes.length + 1) = List.range a ++ a :: (List.range' (a + 1) (b - a - 1) ++ b :: List.range' (b + 1) (axes.length - b)) := by
      have e1 : List.range (axes.length + 1) = List.range' 0 (axes.length + 1) := List.range_eq_range'
      have e2 : axes.length + 1 = a + (1 + ((b - a - 1) + (1 + (axes.length - b)))) := by omega
      rw [e1, e2, ← List.range'_append_1, ← List.range'_append_1, ← List.range'_append_1, ← List.range'_append_1,
        List.range_eq_range']
      simp only [List.range'_one, Nat.zero_add, List.singleton_append]
      have e3 : a + 1 + (b - a - 1) = b := by omega
      rw [e3]
    have f1 : (List.range a).filter (fun (i : Nat) => decide (i ≠ a ∧ i ≠ b)) = List.range a := by
      rw [List.filter_eq_self]
      intro i hi
      have := List.mem_range.1 hi
      simp; omega
    have f2 : (List.range' (a + 1) (b - a - 1)).filter (fun (i : Nat) => decide (i ≠ a ∧ i ≠ b)) = List.range' (a + 1) (b - a - 1) := by
      rw [List.filter_eq_self]
      intro i hi
      have := List.mem_range'_1.1 hi
      simp; omega
    have f3 : (List.range' (b + 1) (axes.length - b)).filter (fun (i : Nat) => decide (i ≠ a ∧ i ≠ b)) = List.range' (b + 1) (axes.length - b) := by
      rw [List.filter_eq_self]
      intro i hi
      have := List.mem_range'_1.1 hi
      simp; omega
    rw [h1, List.filter_append, List.filter_cons, List.filter_append, List.filter_cons, f1, f2, f3]
    simp only [ne_eq, not_true_eq_false, false_and, decide_false, Bool.false_eq_true, if_false, and_false]
    apply List.ext_getElem?
    intro i
    rw [List.getElem?_eraseIdx]
    simp only [List.getElem?_eraseIdx, List.map_append, List.getElem?_append, List.length_map, List.length_range, List.length_range',
      List.getElem?_map]
    have hgd : ∀ j, j < l.length → some (l.getD j none) = l[j]? := by
      intro j hj
      simp [List.getD_eq_getElem?_getD, hj]
    by_cases c1 : i < a
    · rw [if_pos c1, if_pos c1, if_pos (by omega), List.getElem?_range c1]
      exact hgd i (by omega)
    · rw [if_neg c1, if_neg c1]
      by_cases c2 : i - a < b - a - 1
      · rw [if_pos c2, if_pos (by omega), List.getElem?_range' c2]
        have : a + 1 + 1 * (i - a) = i + 1 := by omega
        rw [this]
        exact hgd (i + 1) (by omega)
      · rw [if_neg c2, if_neg (by omega)]
        by_cases c3 : i - a - (b - a - 1) < axes.length - b
        · rw [List.getElem?_range' c3]
          have : b + 1 + 1 * (i - a - (b - a - 1)) = i + 1 + 1 := by omega
          rw [this]
          exact hgd (i + 1 + 1) (by omega)
        · rw [List.getElem?_eq_none (by simp; omega), List.getElem?_eq_none (by omega)]
          rfl
  have hins : g.axes = List.insertIdx (axes.map some) s none := by
    rw [ha, hs, pyInsert_nat _ _ (by simpa using hsl)]
  by_cases hsp : s ≤ p
  · rw [key g.axes s q hlen (by have := hq2 hsp; omega) (by have := hq2 hsp; omega), hq2 hsp, hins]
    have : (List.insertIdx (axes.map some) s none).eraseIdx (p + 1) = List.insertIdx ((axes.map some).eraseIdx p) s none := by
      apply List.ext_getElem?
      intro i
      simp only [List.getElem?_eraseIdx, List.getElem?_insertIdx, List.length_map, List.length_eraseIdx]
      grind
    rw [this, List.eraseIdx_insertIdx_self, List.eraseIdx_map]
  · have hsw : ((List.range (axes.length + 1)).filter fun (i : Nat) => decide (i ≠ s ∧ i ≠ q)) =
        (List.range (axes.length + 1)).filter fun (i : Nat) => decide (i ≠ q ∧ i ≠ s) := by
      apply List.filter_congr; intro i _; simp [and_comm]
    rw [hsw, key g.axes q s hlen (by have := hq1 (by omega); omega) (by omega), hins, List.eraseIdx_insertIdx_self, hq1 (by omega),
      List.eraseIdx_map]

/-- The grid of a single signal has no axis of signals, yet it counts two stack dimensions: only one
dimension of a stack of images is left. -/
theorem signal_grid_dims : otherDims 3 (signalStackDims 0 (some 0)) = [2] := by decide

/-! ## all values -/

theorem valuesLoop_spec {α : Type} (n : Nat) (s : List Nat) : ∀ (ds : List (Arr α)) (i : Nat) (ret : Arr α),
    ret.shape = n :: s → (∀ d ∈ ds, d.shape = s) → i + ds.length ≤ n →
    ∃ a, valuesLoop ds i ret = some a ∧ a.shape = n :: s ∧ ∀ r, a.get r =
      match ds[r.headD 0 - i]? with
      | some d => if i ≤ r.headD 0 then d.get r.tail else ret.get r
      | none => ret.get r
  | [], i, ret, h, _, _ => ⟨ret, rfl, h, fun r => by simp⟩
  | d :: ds, i, ret, h, hd, hi => by
    have h1 : setFirst ret i d = some ⟨ret.shape, fun r => if r.headD 0 = i then d.get r.tail else ret.get r⟩ := by
      rw [setFirst]
      split
      · next he => rw [h] at he; simp at he
      · next m t he =>
        rw [h] at he
        simp only [List.cons.injEq] at he
        rw [if_pos ⟨by simp at hi; omega, by rw [hd d (by simp), he.2]⟩]
    obtain ⟨a, ha, hs, hg⟩ := valuesLoop_spec n s ds (i + 1) ⟨ret.shape, fun r => if r.headD 0 = i then d.get r.tail else ret.get r⟩
      h (fun d hd' => hd d (by simp [hd'])) (by simp at hi; omega)
    refine ⟨a, by simp only [valuesLoop, h1, ha], hs, fun r => ?_⟩
    rw [hg r]
    rcases Nat.lt_trichotomy (r.headD 0) i with hr | hr | hr
    · have e1 : r.headD 0 - (i + 1) = 0 := by omega
      have e2 : r.headD 0 - i = 0 := by omega
      rw [e1, e2]
      simp only [List.getElem?_cons_zero]
      rw [if_neg (show ¬ i ≤ r.headD 0 by omega)]
      have e3 : ¬ (r.headD 0 = i) := by omega
      have e4 : ¬ (i + 1 ≤ r.headD 0) := by omega
      cases ds[0]? with
      | none => show (if r.headD 0 = i then _ else _) = _; rw [if_neg e3]
      | some x => show (if i + 1 ≤ r.headD 0 then _ else (if r.headD 0 = i then _ else _)) = _; rw [if_neg e4, if_neg e3]
    · subst hr
      have e1 : ¬ (r.headD 0 + 1 ≤ r.headD 0) := by omega
      simp only [Nat.sub_self, List.getElem?_cons_zero, le_refl, if_true]
      cases ds[r.headD 0 - (r.headD 0 + 1)]? <;> simp
    · have e1 : r.headD 0 - i = (r.headD 0 - (i + 1)) + 1 := by omega
      rw [e1, List.getElem?_cons_succ]
      have e3 : ¬ (r.headD 0 = i) := by omega
      have e4 : i + 1 ≤ r.headD 0 := by omega
      have e5 : i ≤ r.headD 0 := by omega
      cases ds[r.headD 0 - (i + 1)]? with
      | none => show (if r.headD 0 = i then _ else _) = _; rw [if_neg e3]
      | some x => show (if i + 1 ≤ r.headD 0 then _ else (if r.headD 0 = i then _ else _)) = (if i ≤ r.headD 0 then _ else _); rw [if_pos e4, if_pos e5]

/-- All values of a grid with its signals along the first dimension: the stack of the signals. -/
theorem values_stack {α : Type} (g : Grid α) (zero : α) (axes : List Ax) (hs : g.stackdim = 0)
    (ha : g.axes = pyInsert (axes.map some) g.stackdim none) (hd : ∀ s ∈ g.signals, s.data.shape = axes.map fun a => a.vals.length)
    (hne : g.signals ≠ []) :
    ∃ a b, g.values zero = some a ∧ stack (g.signals.map Sig.data) 0 = some b ∧ a.Equiv b := by
  have hsh : g.shape = g.signals.length :: axes.map fun a => a.vals.length := by
    have := (signal_axes_back g axes 0 (by simp) ha hs).2.2
    simpa using this
  obtain ⟨a, h1, h2, h3⟩ := valuesLoop_spec g.signals.length (axes.map fun a => a.vals.length) (g.signals.map Sig.data) 0
    ⟨g.shape, fun _ => zero⟩ hsh (by simpa using hd) (by simp)
  have hst := stack_isAt (ps := g.signals.map Sig.data) (k := 0) (s := axes.map fun a => a.vals.length) (by simpa using hne)
    (by simpa using hd) (by simp)
  cases hb : stack (g.signals.map Sig.data) 0 with
  | none =>
    obtain ⟨p, ps, hps⟩ := List.exists_cons_of_ne_nil (show g.signals.map Sig.data ≠ [] by simpa using hne)
    exfalso
    rw [hps] at hb
    have hall : ∀ q ∈ g.signals.map Sig.data, q.shape = axes.map fun a => a.vals.length := by simpa using hd
    rw [hps] at hall
    have : ((p :: ps).all fun q => q.shape == p.shape) = true := by
      rw [List.all_eq_true]
      intro q hq
      simp [hall q hq, hall p (by simp)]
    simp only [stack, this] at hb
    simp at hb
  | some b =>
    refine ⟨a, b, h1, rfl, ?_⟩
    obtain ⟨p, ps, hps⟩ := List.exists_cons_of_ne_nil (show g.signals.map Sig.data ≠ [] by simpa using hne)
    have hp : p.shape = axes.map fun a => a.vals.length := by
      have : p ∈ g.signals.map Sig.data := by rw [hps]; simp
      obtain ⟨s, hs1, rfl⟩ := List.mem_map.1 this
      exact hd s hs1
    have hbs : b = ⟨(g.signals.map Sig.data).length :: p.shape, fun r => (((g.signals.map Sig.data)[r.getD 0 0]?).getD p).get (r.eraseIdx 0)⟩ := by
      rw [hps] at hb ⊢
      simp only [stack] at hb
      split at hb
      · simpa using hb.symm
      · simp at hb
    subst hbs
    refine ⟨by rw [h2, hp]; simp, fun r hr => ?_⟩
    rw [h2] at hr
    cases r with
    | nil => exact hr.elim
    | cons i r =>
      have hi : i < (g.signals.map Sig.data).length := by simpa using hr.1
      rw [h3]
      simp only [List.headD_cons, Nat.sub_zero, List.getD_cons_zero, List.eraseIdx_cons_zero, List.tail_cons, Nat.zero_le, if_true]
      rw [List.getElem?_eq_getElem hi]
      simp

/-- With the signals along another dimension the values are in the wrong place. -/
theorem values_elsewhere : ∃ (g : Grid Nat) (x y : Ax) (a b : Arr Nat), g.stackdim = 1 ∧
    g.axes = pyInsert [some x, some y] g.stackdim none ∧ (∀ s ∈ g.signals, s.data.shape = [x.vals.length, y.vals.length]) ∧
    g.values 0 = some a ∧ stack (g.signals.map Sig.data) 1 = some b ∧ a.shape = b.shape ∧
    a.get [1, 0, 0] = 10 ∧ b.get [1, 0, 0] = 1 := by
  refine ⟨⟨[⟨[], ['a'], ⟨[2, 1], fun r => r.headD 0⟩⟩, ⟨[], ['b'], ⟨[2, 1], fun r => 10 + r.headD 0⟩⟩],
    pyInsert [some ⟨['x'], [0, 1], 0⟩, some ⟨['y'], [0], 0⟩] 1 none, 1, []⟩, ⟨['x'], [0, 1], 0⟩, ⟨['y'], [0], 0⟩, _, _,
    rfl, rfl, ?_, rfl, rfl, rfl, rfl, rfl⟩
  intro s hs
  simp only [List.mem_cons, List.not_mem_nil, or_false] at hs
  rcases hs with rfl | rfl <;> rfl

/-! ## references -/

/-- The reference is the last signal whose path ends with the given text. -/
theorem reference_last {α : Type} (g : Grid α) (ref : Str) (h : ref ≠ []) (i : Nat) :
    referenceIndex g ref = some i ↔
      (∃ s, g.signals[i]? = some s ∧ ref <:+ ('/' :: s.parent ++ '/' :: s.name)) ∧
      ∀ (j : Nat) (s : Sig α), i < j → g.signals[j]? = some s → ¬ ref <:+ ('/' :: s.parent ++ '/' :: s.name) := by
  have hget : ∀ (j : Nat), (g.signals.map fun s => endsWith s ref)[j]? = some true ↔
      ∃ s, g.signals[j]? = some s ∧ ref <:+ ('/' :: s.parent ++ '/' :: s.name) := by
    intro j
    rw [List.getElem?_map]
    cases hj : g.signals[j]? with
    | none => simp
    | some s => simp [endsWith, List.isSuffixOf_iff_suffix]
  rw [referenceIndex, if_pos h]
  rcases Crop.first_last (g.signals.map fun s => endsWith s ref) with ⟨h1, h2⟩ | ⟨a, b, h1, h2, h3, h4, h5⟩
  · have : nonzeroFrom 0 (g.signals.map fun s => endsWith s ref) = [] := by
      rwa [List.head?_eq_none_iff] at h2
    rw [this]
    constructor
    · intro h; simp at h
    · rintro ⟨hs, _⟩
      exact absurd (List.mem_of_getElem? ((hget i).2 hs)) h1
  · rw [h2]
    constructor
    · intro e
      simp only [Option.some.injEq] at e
      subst e
      refine ⟨(hget b).1 h4, fun j s hj hs hr => ?_⟩
      have := (h5 j ((hget j).2 ⟨s, hs, hr⟩)).2
      omega
    · rintro ⟨hs, hlast⟩
      have h6 := (h5 i ((hget i).2 hs)).2
      rcases Nat.lt_or_eq_of_le h6 with h7 | h7
      · obtain ⟨s, hs1, hs2⟩ := (hget b).1 h4
        exact absurd hs2 (hlast b s h7 hs1)
      · rw [h7]

/-- A reference must be there; without one the first signal is taken. -/
theorem reference_missing {α : Type} (g : Grid α) (ref : Str) (h : ref ≠ []) :
    (referenceIndex g ref = none ↔ ∀ s ∈ g.signals, ¬ ref <:+ ('/' :: s.parent ++ '/' :: s.name)) ∧ referenceIndex g [] = some 0 := by
  refine ⟨?_, rfl⟩
  rw [referenceIndex, if_pos h, List.getLast?_eq_none_iff]
  constructor
  · intro hn s hs hr
    obtain ⟨j, hj, hjs⟩ := List.mem_iff_getElem.1 hs
    have : j ∈ nonzeroFrom 0 (g.signals.map fun s => endsWith s ref) := by
      rw [Crop.mem_nonzeroFrom]
      refine ⟨Nat.zero_le _, ?_⟩
      have hr' : endsWith s ref = true := by rw [endsWith, List.isSuffixOf_iff_suffix]; exact hr
      simp [hj, hjs, hr']
    rw [hn] at this; simp at this
  · intro hs
    rw [List.eq_nil_iff_forall_not_mem]
    intro j hj
    rw [Crop.mem_nonzeroFrom] at hj
    have := List.mem_of_getElem? hj.2
    simp only [List.mem_map] at this
    obtain ⟨s, h1, h2⟩ := this
    exact hs s h1 (by simpa [endsWith, List.isSuffixOf_iff_suffix] using h2)

/-- The text may be the end of another name. -/
theorem reference_end_of_name : referenceIndex (α := Nat) ⟨[⟨['d'], ['A', 'l', '-', 'K'], ⟨[], fun _ => 0⟩⟩, ⟨['d'], ['K'], ⟨[], fun _ => 0⟩⟩,
    ⟨['d'], ['C', 'a', '-', 'K'], ⟨[], fun _ => 0⟩⟩], [], 0, []⟩ ['K'] = some 2 := by decide

theorem pyRound_near (x : Rat) : |x - pyRound x| ≤ 1 / 2 := by
  have h1 : (x.floor : Rat) ≤ x := Rat.floor_le x
  have h2 : x < x.floor + 1 := by have := Rat.lt_floor_add_one x; push_cast at this; exact this
  unfold pyRound
  simp only
  rw [abs_le]
  split
  · constructor <;> linarith
  · split
    · push_cast; constructor <;> linarith
    · split
      · constructor <;> linarith
      · push_cast; constructor <;> linarith

/-- The position of the reference image is one of the stack: for the named positions, and for fractions
that leave half an image at the end. -/
theorem ref_image (n : Nat) (hn : 0 < n) :
    (∀ s i, refImage n (.text s) = some (some i) → ∃ k, normIdx n i = some k) ∧
    (∀ x : Rat, 0 ≤ x → x * n < n - 1 / 2 → ∃ i k, refImage n (.fraction x) = some (some i) ∧ normIdx n i = some k ∧ |x * n - k| ≤ 1 / 2) := by
  constructor
  · intro s i h
    simp only [refImage] at h
    split at h
    · simp only [Option.some.injEq] at h
      subst h; exact ⟨0, by simp [normIdx, hn]⟩
    · split at h
      · simp only [Option.some.injEq] at h
        subst h
        refine ⟨n - 1, ?_⟩
        rw [normIdx, if_neg (by omega), if_pos (by omega)]
        congr 1; omega
      · split at h
        · simp only [Option.some.injEq] at h
          subst h
          refine ⟨n / 2, ?_⟩
          rw [normIdx, if_pos ⟨by omega, by omega⟩]
          rw [Int.toNat_natCast]
        · simp at h
  · intro x h0 h1
    have hx : 0 ≤ x * n := mul_nonneg h0 (by positivity)
    have hr := abs_le.1 (pyRound_near (x * n))
    have a : (-1 : Int) < pyRound (x * n) := by
      have : (-1 : Rat) < pyRound (x * n) := by linarith
      exact_mod_cast this
    have b : pyRound (x * n) < n := by
      have : (pyRound (x * n) : Rat) < n := by linarith
      exact_mod_cast this
    refine ⟨pyRound (x * n), (pyRound (x * n)).toNat, rfl, by rw [normIdx, if_pos ⟨by omega, by omega⟩], ?_⟩
    have c : (((pyRound (x * n)).toNat : Nat) : Rat) = (pyRound (x * n) : Rat) := by
      have : (((pyRound (x * n)).toNat : Nat) : Int) = pyRound (x * n) := by omega
      exact_mod_cast this
    rw [c]
    exact pyRound_near _

/-- A fraction closer to the end gives a position that does not exist. -/
theorem ref_image_beyond (n : Nat) (x : Rat) (h1 : x ≤ 1) (h2 : (n : Rat) - 1 / 2 < x * n) :
    refImage n (.fraction x) = some (some (n : Int)) ∧ normIdx n n = none := by
  have hr := abs_le.1 (pyRound_near (x * n))
  have hxn : x * n ≤ n := by
    have : x * (n : Rat) ≤ 1 * n := mul_le_mul_of_nonneg_right h1 (by positivity)
    linarith
  constructor
  · have a : (n : Int) - 1 < pyRound (x * n) := by
      have : (n : Rat) - 1 < pyRound (x * n) := by linarith
      exact_mod_cast this
    have b : pyRound (x * n) < n + 1 := by
      have : (pyRound (x * n) : Rat) < n + 1 := by linarith
      exact_mod_cast this
    show some (some (pyRound (x * n))) = _
    congr 2; omega
  · rw [normIdx, if_neg (by omega), if_neg (by omega)]

/-! ## cases -/

-- two groups on shared axes
def exX : Ax := ⟨['x'], [0, 1], 1 / 100⟩
def exY : Ax := ⟨['y'], [0, 1, 2], 1 / 100⟩
def exA : NX Nat := ⟨['x', 'i', 'a', '0', '0'], false, [exX, exY], [(['F', 'e'], ⟨[2, 3], fun r => r.sum⟩), (['C', 'a'], ⟨[2, 3], fun r => 7 + r.sum⟩)], some 0⟩
def exB : NX Nat := ⟨['c'], false, [exX, exY], [(['I', '0'], ⟨[2, 3], fun r => 20 + r.sum⟩)], some 0⟩
def exL : NX Nat := { exB with name := ['l'], link := true }

example : (nxGrid [exA, exL, exB] none none).map (fun g => (g.signals.map fun s => (s.parent, s.name), g.shape, g.stackdim, g.stackDims)) =
    some ([(['x', 'i', 'a', '0', '0'], ['F', 'e']), (['x', 'i', 'a', '0', '0'], ['C', 'a']), (['c'], ['I', '0'])], [3, 2, 3], 0, [0, 1]) := by
  decide +kernel

-- the detector of `exA` under another name
example : nxGrid [exA, { exB with name := ['d', 'e', 't', 'e', 'c', 't', 'o', 'r', '0'] }] (some 0) none = none :=
  same_detector_refused [] [] [] exA { exB with name := ['d', 'e', 't', 'e', 'c', 't', 'o', 'r', '0'] } _ _ rfl rfl (by decide)

-- other axes
example : (nxGrid [exA, { exB with axes := [exY, exX] }] none none).isNone = true := by decide +kernel

-- an explicit stack dimension after that of the data
example : (nxGrid [exA, exB] (some 0) (some 2)).map (fun g => (g.shape, otherDims 3 g.stackDims)) = some ([2, 3, 3], [1]) := by
  decide +kernel

example : (nxGrid [exA, exB] (some 0) none).bind (fun g => referenceIndex g ['C', 'a']) = some 1 := by decide +kernel

example : refImage 10 (.fraction (1 / 2)) = some (some 5) ∧ refImage 10 (.fraction (99 / 100)) = some (some 10) ∧
    refImage 5 (.text ['m', 'i', 'd', 'd', 'l', 'e']) = some (some 2) := by decide +kernel

end SC.Grid
