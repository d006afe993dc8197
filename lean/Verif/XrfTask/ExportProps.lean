import Verif.XrfTask.ExportLemmas
import Verif.XrfTask.AddProps
/-! # Properties of sorting and saving stacks -/
namespace SC.XrfTask
open SC.Py SC.Naming SC.Grid

theorem argsort_mem {v : List Rat} {j i : Nat} (h : (argsort v)[j]? = some i) : i < v.length :=
  List.mem_range.mp ((argsort_perm v).mem_iff.mp (List.mem_of_getElem? h))

/-- Sorting moves the images of every signal, the axis and the further axes in the same way: image `j`
comes from position `σ[j]`, every position is used once, and the axis is ascending. -/
theorem sort_spec {I : Type} (axis axis' : List Rat) (info info' : List (List I)) (st st' : Stacks) (hst : StWF st)
    (h : sortStacks axis info st = some (axis', info', st')) :
    ∃ σ : List Nat, σ.Perm (List.range axis.length) ∧ axis'.Pairwise (· ≤ ·) ∧ axis'.length = axis.length ∧
      (∀ (j i : Nat), σ[j]? = some i → axis'[j]? = axis[i]?) ∧
      (∀ (m : Nat) (l : List I), info[m]? = some l → ∃ l' : List I, info'[m]? = some l' ∧ l'.length = σ.length ∧ ∀ (j i : Nat), σ[j]? = some i → l'[j]? = l[i]?) ∧
      StWF st' ∧ ∀ g k, (get2 st g k = none → get2 st' g k = none) ∧
        ∀ l, get2 st g k = some l → ∃ l', get2 st' g k = some l' ∧ l'.length = σ.length ∧ ∀ (j i : Nat), σ[j]? = some i → ∃ a, l[i]? = some a ∧ l'[j]? = some a := by
  unfold sortStacks at h
  simp only at h
  split at h
  · next a b c ha hb hc =>
    simp only [Option.some.injEq, Prod.mk.injEq] at h
    obtain ⟨rfl, rfl, rfl⟩ := h
    obtain ⟨p1, p2⟩ := permute_spec ha
    refine ⟨argsort axis, argsort_perm axis, ?_, ?_, ?_, ?_, mapVals_wf hc hst, ?_⟩
    · have hs := SC.Common.stableSort_sorted (fun i => axis.getD i 0) (List.range axis.length)
      have e : a = (argsort axis).map fun i => axis.getD i 0 := by
        apply List.ext_getElem?
        intro j
        rw [List.getElem?_map]
        cases hj : (argsort axis)[j]? with
        | none =>
          rw [List.getElem?_eq_none_iff] at hj
          rw [Option.map_none, List.getElem?_eq_none_iff, p1]
          exact hj
        | some i =>
          obtain ⟨x, x1, x2⟩ := p2 j i hj
          rw [x2, Option.map_some, List.getD_eq_getElem?_getD, x1]
          rfl
      rw [e, List.pairwise_map]
      exact hs
    · rw [p1, (argsort_perm axis).length_eq, List.length_range]
    · intro j i hj
      obtain ⟨x, x1, x2⟩ := p2 j i hj
      rw [x1, x2]
    · intro m l hl
      have : ∃ l', b[m]? = some l' ∧ permute (argsort axis) l = some l' := by
        clear ha p1 p2 hc
        induction info generalizing b m with
        | nil => simp at hl
        | cons y info ih =>
          simp only [List.mapM_cons] at hb
          cases hy : permute (argsort axis) y with
          | none => simp [hy] at hb
          | some y' =>
            cases hr : info.mapM (permute (argsort axis)) with
            | none => simp [hy, hr] at hb
            | some b' =>
              simp only [hy, hr] at hb
              cases hb
              cases m with
              | zero =>
                simp only [List.getElem?_cons_zero, Option.some.injEq] at hl
                subst hl
                exact ⟨y', rfl, hy⟩
              | succ m => exact ih b' hr m (by simpa using hl)
      obtain ⟨l', e1, e2⟩ := this
      obtain ⟨q1, q2⟩ := permute_spec e2
      refine ⟨l', e1, q1, fun j i hj => ?_⟩
      obtain ⟨x, x1, x2⟩ := q2 j i hj
      rw [x1, x2]
    · intro g k
      refine ⟨(mapVals_get2 hc g k).1, fun l hl => ?_⟩
      obtain ⟨m, e1, e2⟩ := (mapVals_get2 hc g k).2 l hl
      obtain ⟨q1, q2⟩ := permute_spec e1
      exact ⟨m, e2, q1, q2⟩
  · simp at h

/-- Two images at descending energies. -/
def st2 : Stacks := [(detG 0, [(['F', 'e'], [fileSlice ['a'], fileSlice ['c']])])]

example : ∃ st', sortStacks [8, 7] [['x', 'y']] st2 = some ([7, 8], [['y', 'x']], st') ∧ get2 st' (detG 0) ['F', 'e'] = some [fileSlice ['c'], fileSlice ['a']] :=
  ⟨[(detG 0, [(['F', 'e'], [fileSlice ['c'], fileSlice ['a']])])], by
    have : argsort [8, 7] = [1, 0] := by decide +kernel
    unfold sortStacks
    simp only [this]
    rfl, rfl⟩

/-- Images at the same energy stay in order. -/
theorem sort_stable (axis : List Rat) (j j' i i' : Nat) (h : (argsort axis)[j]? = some i) (h' : (argsort axis)[j']? = some i')
    (hij : i < i') (e : axis[i]? = axis[i']?) : j < j' := by
  have hf := SC.Common.stableSort_filter (fun i => axis.getD i 0) (List.range axis.length) (axis.getD i 0)
  have hp : ((List.range axis.length).filter fun a => decide (axis.getD a 0 = axis.getD i 0)).Pairwise (· < ·) := List.pairwise_lt_range.filter _
  rw [← hf, List.pairwise_filter] at hp
  have hk : axis.getD i' 0 = axis.getD i 0 := by rw [List.getD_eq_getElem?_getD, List.getD_eq_getElem?_getD, e]
  by_contra hc
  obtain ⟨hj, ej⟩ := List.getElem?_eq_some_iff.mp h
  obtain ⟨hj', ej'⟩ := List.getElem?_eq_some_iff.mp h'
  rcases Nat.lt_or_ge j' j with hlt | hge
  · have := List.pairwise_iff_getElem.mp hp j' j hj' hj hlt
    unfold argsort at ej ej'
    rw [ej, ej'] at this
    have := this (by simpa using hk) (by simp)
    omega
  · have : j = j' := by omega
    subst this
    rw [ej] at ej'
    omega

example : argsort [8, 7, 8] = [1, 0, 2] := by decide +kernel

/-- Every image of every signal is saved with the value its slice has in the finished file, with the
number of rows of the first saved image; nothing else is saved. -/
theorem export_spec (st : Stacks) (w w' : World) (out' : Option (Nat × Nat)) (hst : StWF st) (hw : w.h5 = [])
    (hinj : ∀ g g' k, (get2 st g k).isSome → (get2 st g' k).isSome → g.name = g'.name → g = g')
    (h : exportGroups st w none = some (w', out')) :
    (∀ g k l, get2 st g k = some l → ∃ imgs, Dict.get? w'.h5 (g.name, k) = some imgs ∧ imgs.length = l.length ∧
      ∀ j a, l[j]? = some a → ∃ rc d z, out' = some rc ∧ value w' j a = some d ∧ imgs[j]? = some z ∧ z.rows = rc.1 ∧ z.cols = rc.2 ∧ d.cols = rc.2 ∧
        ∀ p q, p < rc.1 → z.px p q = if p < d.rows then d.px p q else some 0) ∧
    (∀ name k, (∀ g, (get2 st g k).isSome → g.name ≠ name) → Dict.get? w'.h5 (name, k) = none) ∧
    (w'.files = w.files ∧ w'.stats = w.stats ∧ w'.shape = w.shape ∧ w'.transmission = w.transmission ∧ w'.absorbance = w.absorbance) := by
  obtain ⟨a1, -, a3, a4⟩ := exportGroups_spec hst hinj (by simp [hw, Dict.get?]) h
  refine ⟨fun g k l hl => ?_, fun name k hk => ?_, ?_⟩
  · obtain ⟨imgs, h1, h2, h3⟩ := a3 g k l hl
    refine ⟨imgs, h1, h2, fun j a hj => ?_⟩
    obtain ⟨rc, d, e1, e2, e3, e4⟩ := h3 j a hj
    refine ⟨rc, d, _, e1, e2, e4, ?_, ?_, e3, ?_⟩
    · unfold fitRows
      split
      · rfl
      · split
        · rfl
        · omega
    · rw [← e3]
      unfold fitRows
      split
      · rfl
      · split <;> rfl
    · intro p q hp
      unfold fitRows
      split
      · rfl
      · next h =>
        have : p < d.rows := by omega
        split <;> simp only [this, if_true]
  · rw [a4 (name, k) hk, hw]
    rfl
  · rw [a1.1]
    exact ⟨rfl, rfl, rfl, rfl, rfl⟩

example : ((exportGroups st2 w0 none).map fun r => (Dict.get? r.1.h5 ((detG 0).name, ['F', 'e'])).map fun l => l.map Img.list) =
    some (some [[[some 1, some 2]], [[some 6, some 6]]]) := by decide +kernel

/-- A saved image has the number of columns of the first one, or the task fails. -/
theorem export_columns : exportGroups [(detG 0, [(['F', 'e'], [fileSlice ['a'], fileSlice ['b']])])]
    ⟨fun n => if n = ['a'] then some ⟨2, 2, fun _ _ => some 1⟩ else some ⟨2, 3, fun _ _ => some 1⟩, fun _ _ => none, fun _ _ => none, fun _ => none, (2, 2), []⟩ none = none := by
  rfl

/-- Two groups of one name are written to the same place. -/
theorem export_clash : (exportGroups [(⟨['x'], -1, -1⟩, [(['F', 'e'], [fileSlice ['a']])]), (⟨['x'], 1, 0⟩, [(['F', 'e'], [fileSlice ['c']])])] w0 none).map
    (fun r => ((Dict.get? r.1.h5 (['x'], ['F', 'e'])).map fun l => l.map Img.list)) = some (some [[[some 6, some 6]]]) := by decide +kernel

end SC.XrfTask
