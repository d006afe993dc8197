import Verif.Stack.Lemmas
/-! # C45: stacks of images keep every image apart -/
namespace SC.Stack
open SC.Py
variable {V : Type}

/-! ## arrays in memory and datasets given as objects -/

/-- Writing images one after the other. -/
def writeAllList (k : Nat) : List (Write (Arr V)) → List (Arr V) → Except Err (List (Arr V))
  | [], ds => .ok ds
  | e :: l, ds => match writeList k ds e.2.2 e.1 e.2.1 with
      | .error err => .error err
      | .ok ds' => writeAllList k l ds'

/-- When a write succeeds, and what it raises otherwise. -/
theorem list_write_cases (k n h w : Nat) (ds : List (Arr V)) (hs : ∀ a ∈ ds, IsStack k n h w a) (img : Arr V) (di ii : Nat) :
    ((∃ ds', writeList k ds img di ii = .ok ds') ∧ di < ds.length ∧ ii < n ∧ img.shape = [h, w]) ∨
    (writeList k ds img di ii = .error .index ∧ (ds.length ≤ di ∨ n ≤ ii)) ∨
    (writeList k ds img di ii = .error .value ∧ di < ds.length ∧ ii < n ∧ img.shape ≠ [h, w]) := by
  by_cases hd : di < ds.length
  · have ha := hs ds[di] (List.getElem_mem hd)
    have e : ds[di]? = some ds[di] := List.getElem?_eq_getElem hd
    by_cases hi : ii < n
    · by_cases hsh : img.shape = [h, w]
      · obtain ⟨a', e', -⟩ := writeArr_spec ha img hsh ii hi
        exact .inl ⟨⟨ds.set di a', by rw [writeList, e]; simp [e', Except.map]⟩, hd, hi, hsh⟩
      · refine .inr (.inr ⟨?_, hd, hi, hsh⟩)
        rw [writeList, e]
        simp only [writeArr, writeIndex_eq k ii (isStack_lt ha).1]
        rcases ha with ⟨rfl, e2⟩ | ⟨rfl, e2⟩ | ⟨rfl, e2⟩ <;> simp [setAt, e2, selShape, hi, hsh, Except.map]
    · refine .inr (.inl ⟨?_, .inr (by omega)⟩)
      rw [writeList, e]
      simp only [writeArr, writeIndex_eq k ii (isStack_lt ha).1]
      rcases ha with ⟨rfl, e2⟩ | ⟨rfl, e2⟩ | ⟨rfl, e2⟩ <;> simp [setAt, e2, selShape, hi, Except.map]
  · refine .inr (.inl ⟨?_, .inl (by omega)⟩)
    rw [writeList, List.getElem?_eq_none (by omega)]

theorem writeList_step {k n h w : Nat} {ds : List (Arr V)} (hs : ∀ a ∈ ds, IsStack k n h w a) (img : Arr V)
    (hi : img.shape = [h, w]) {di ii : Nat} (hd : di < ds.length) (hn : ii < n) :
    ∃ ds', writeList k ds img di ii = .ok ds' ∧ ds'.length = ds.length ∧ (∀ a ∈ ds', IsStack k n h w a) ∧
      (∀ d a a', ds[d]? = some a → ds'[d]? = some a' → a'.dtype = a.dtype ∧ ∀ i, SameImage (image k h w i a')
        (if di = d ∧ ii = i then img else image k h w i a)) := by
  have e : ds[di]? = some ds[di] := List.getElem?_eq_getElem hd
  obtain ⟨b, e', b1, b2, b3, b4, b5⟩ := writeArr_spec (hs ds[di] (List.getElem_mem hd)) img hi ii hn
  refine ⟨ds.set di b, by rw [writeList, e]; simp [e', Except.map], by simp, ?_, ?_⟩
  · intro a ha
    rcases List.mem_or_eq_of_mem_set ha with h1 | rfl
    · exact hs a h1
    · exact b1
  · intro d a a' ha ha'
    rw [List.getElem?_set] at ha'
    by_cases h1 : di = d
    · subst h1
      rw [e] at ha
      rw [if_pos rfl, if_pos hd] at ha'
      cases ha; cases ha'
      refine ⟨b2, fun i => ?_⟩
      by_cases h2 : ii = i
      · subst h2; rw [if_pos ⟨rfl, rfl⟩]; exact b4
      · rw [if_neg (fun h => h2 h.2)]; exact b5 i (Ne.symm h2)
    · rw [if_neg h1, ha] at ha'
      cases ha'
      exact ⟨rfl, fun i => by rw [if_neg (fun h => h1 h.1)]; exact sameImage_refl _⟩

theorem writeAllList_spec {k n h w : Nat} (l : List (Write (Arr V))) : ∀ {ds : List (Arr V)},
    (∀ a ∈ ds, IsStack k n h w a) → (∀ e ∈ l, e.1 < ds.length ∧ e.2.1 < n ∧ e.2.2.shape = [h, w]) →
    ∃ ds', writeAllList k l ds = .ok ds' ∧ ds'.length = ds.length ∧ (∀ a ∈ ds', IsStack k n h w a) ∧
      (∀ d a a', ds[d]? = some a → ds'[d]? = some a' → a'.dtype = a.dtype ∧ ∀ i (x : Arr V), SameImage (image k h w i a) x →
        SameImage (image k h w i a') (lastWritten l d i x)) := by
  induction l with
  | nil =>
    intro ds hs _
    refine ⟨ds, rfl, rfl, hs, fun d a a' h1 h2 => ?_⟩
    rw [h1] at h2; cases h2
    exact ⟨rfl, fun i x hx => by simpa [lastWritten] using hx⟩
  | cons e l ih =>
    intro ds hs hl
    obtain ⟨hd, hn, hi⟩ := hl e (by simp)
    obtain ⟨ds1, e1, len1, st1, r1⟩ := writeList_step hs e.2.2 hi hd hn
    obtain ⟨ds2, e2, len2, st2, r2⟩ := ih st1 (fun e' he' => by
      rw [len1]; exact hl e' (by simp [he']))
    refine ⟨ds2, by rw [writeAllList, e1]; exact e2, len2.trans len1, st2, fun d a a' h1 h2 => ?_⟩
    have hdl : d < ds1.length := by
      rw [len1]
      exact (List.getElem?_eq_some_iff.mp h1).1
    obtain ⟨t1, t2⟩ := r1 d a ds1[d] h1 (List.getElem?_eq_getElem hdl)
    obtain ⟨t3, t4⟩ := r2 d ds1[d] a' (List.getElem?_eq_getElem hdl) h2
    refine ⟨t3.trans t1, fun i x hx => ?_⟩
    rw [lastWritten_cons]
    apply t4
    refine (t2 i).trans ?_
    split
    · exact sameImage_refl _
    · exact hx

theorem newSource_stack {k n h w : Nat} {ds : List (Arr V)} (hs : ∀ a ∈ ds, IsStack k n h w a) (hne : ds ≠ []) :
    newSource (some k) ds = .ok ⟨k, n, [h, w], ds⟩ := by
  obtain ⟨a, t, rfl⟩ := List.exists_cons_of_ne_nil hne
  rcases hs a (by simp) with ⟨rfl, e⟩ | ⟨rfl, e⟩ | ⟨rfl, e⟩ <;>
    simp [newSource, checkStackdim, initshape, e, bind, Except.bind]

theorem readimg_stack {k n h w : Nat} {ds : List (Arr V)} (hs : ∀ a ∈ ds, IsStack k n h w a) (m : Nat) (z : List Nat) (di ii : Nat) :
    (∀ hd : di < ds.length, ii < n → ∃ im, Source.readimg ⟨k, m, z, ds⟩ di ii = .ok im ∧ SameImage im (image k h w ii ds[di])) ∧
    (ds.length ≤ di ∨ n ≤ ii → Source.readimg ⟨k, m, z, ds⟩ di ii = .error .index) := by
  constructor
  · intro hd hi
    obtain ⟨im, e, s⟩ := (readArr_spec (hs ds[di] (List.getElem_mem hd)) ii).1 hi
    refine ⟨im, ?_, s⟩
    simp only [Source.readimg, List.getElem?_eq_getElem hd]
    exact e
  · intro h
    by_cases hd : di < ds.length
    · have := (readArr_spec (hs ds[di] (List.getElem_mem hd)) ii).2 (by omega)
      simp only [Source.readimg, List.getElem?_eq_getElem hd]
      exact this
    · simp only [Source.readimg, List.getElem?_eq_none (Nat.not_lt.mp hd)]

/-- Any history of writes, read back: every place has the last image written there, else what was
there before. -/
theorem list_history (k n h w : Nat) (ds : List (Arr V)) (hne : ds ≠ []) (hs : ∀ a ∈ ds, IsStack k n h w a)
    (l : List (Write (Arr V))) (hl : ∀ e ∈ l, e.1 < ds.length ∧ e.2.1 < n ∧ e.2.2.shape = [h, w]) :
    ∃ ds' src, writeAllList k l ds = .ok ds' ∧ newSource (some k) ds' = .ok src ∧ src.nimages = n ∧ src.imgsize = [h, w] ∧
      src.datasets.length = ds.length ∧
      ∀ di ii, (∀ hd : di < ds.length, ii < n → ∃ im, src.readimg di ii = .ok im ∧
          SameImage im (lastWritten l di ii (image k h w ii ds[di]))) ∧
        (ds.length ≤ di ∨ n ≤ ii → src.readimg di ii = .error .index) := by
  obtain ⟨ds', e, len, st, r⟩ := writeAllList_spec l hs hl
  have hne' : ds' ≠ [] := by
    intro h0; rw [h0] at len; exact hne (List.length_eq_zero_iff.mp len.symm)
  refine ⟨ds', ⟨k, n, [h, w], ds'⟩, e, newSource_stack st hne', rfl, rfl, len, fun di ii => ?_⟩
  obtain ⟨r1, r2⟩ := readimg_stack st n [h, w] di ii
  refine ⟨fun hd hi => ?_, fun hh => r2 (by rw [len]; exact hh)⟩
  obtain ⟨im, e1, s1⟩ := r1 (by rw [len]; exact hd) hi
  refine ⟨im, e1, s1.trans ?_⟩
  exact (r di ds[di] _ (List.getElem?_eq_getElem hd) (List.getElem?_eq_getElem (by rw [len]; exact hd))).2 ii _ (sameImage_refl _)

/-- The array of a destination is a stack in the sense of the specification. -/
theorem destshape_stack (k n h w : Nat) (hk : k < 3) (a : Arr V) : destshape k n (h, w) = .ok a.shape ↔ IsStack k n h w a := by
  rw [destshape_eq k n h w hk]
  unfold IsStack
  interval_cases k <;> simp [eq_comm]

/-- Preparing a list of arrays: afterwards all have the wanted shape and type; without `overwrite` nothing
is changed; and the exact reasons for raising. -/
theorem list_prepare (fill : Arr V → List Nat → List Nat → V) (ow : Bool) (ds : List (Arr V)) (shape : List Nat) (dt : Nat) :
    (∀ ds', prepareList fill ow ds shape dt = .ok ds' →
      ds'.length = ds.length ∧ (∀ a ∈ ds', a.shape = shape ∧ a.dtype = dt) ∧ (ow = false → ds' = ds) ∧
      ((∀ a ∈ ds, a.shape = shape) → ds' = ds)) ∧
    (prepareList fill ow ds shape dt = .error .value ↔
      (∃ a ∈ ds, a.dtype ≠ dt) ∨ (ow = false ∧ ∃ a ∈ ds, a.shape ≠ shape)) ∧
    (∀ e, prepareList fill ow ds shape dt = .error e → e = .value) := by
  unfold prepareList
  by_cases h : ds.all (fun a => a.shape == shape && a.dtype == dt) = true
  · rw [if_pos h]
    have h' : ∀ a ∈ ds, a.shape = shape ∧ a.dtype = dt := by simpa [List.all_eq_true] using h
    refine ⟨?_, ?_, by simp⟩
    · rintro ds' ⟨⟩
      exact ⟨rfl, h', fun _ => rfl, fun _ => rfl⟩
    · simp only [reduceCtorEq, false_iff]
      rintro (⟨a, ha, hd⟩ | ⟨-, a, ha, hd⟩)
      · exact hd (h' a ha).2
      · exact hd (h' a ha).1
  · rw [if_neg h]
    have hx : ∃ a ∈ ds, a.shape ≠ shape ∨ a.dtype ≠ dt := by
      simp only [List.all_eq_true, Bool.and_eq_true, beq_iff_eq, not_forall] at h
      obtain ⟨a, ha, hh⟩ := h
      refine ⟨a, ha, ?_⟩
      by_cases h1 : a.shape = shape
      · exact .inr fun h2 => hh ⟨h1, h2⟩
      · exact .inl h1
    by_cases h2 : ds.any (fun a => a.dtype != dt) = true
    · have h3 : ∃ a ∈ ds, a.dtype ≠ dt := by simpa [List.any_eq_true] using h2
      have : (if ow = true then if ds.any (fun a => a.dtype != dt) = true then (Except.error Err.value : Except Err (List (Arr V)))
          else .ok (ds.map fun a => ⟨shape, a.dtype, fill a shape⟩) else .error .value) = .error .value := by
        cases ow <;> simp [h2]
      rw [this]
      exact ⟨by simp, by simp [h3], by simp⟩
    · have h3 : ∀ a ∈ ds, a.dtype = dt := by
        simpa [List.any_eq_true] using h2
      cases ow with
      | true =>
        rw [if_pos rfl, if_neg h2]
        refine ⟨?_, ?_, by simp⟩
        · rintro ds' ⟨⟩
          refine ⟨by simp, ?_, by simp, ?_⟩
          · intro a ha
            obtain ⟨b, hb, rfl⟩ := List.mem_map.mp ha
            exact ⟨rfl, h3 b hb⟩
          · intro hsh
            obtain ⟨a, ha, hh⟩ := hx
            rcases hh with hh | hh
            · exact absurd (hsh a ha) hh
            · exact absurd (h3 a ha) hh
        · simp only [reduceCtorEq, false_and, or_false, false_iff, Bool.true_eq_false]
          rintro ⟨a, ha, hd⟩
          exact hd (h3 a ha)
      | false =>
        rw [if_neg (by simp)]
        refine ⟨by simp, ?_, by simp⟩
        simp only [true_iff, true_and]
        obtain ⟨a, ha, hh⟩ := hx
        rcases hh with hh | hh
        · exact .inr ⟨a, ha, hh⟩
        · exact .inl ⟨a, ha, hh⟩

/-- Two arrays with two images each along the second axis; the second image of the second array is
written, read back, and the first one of it keeps its value. -/
example : ∃ ds' src im im', writeAllList 1 [(1, 1, ⟨[1, 2], 0, fun _ => 5⟩)]
      [(⟨[1, 2, 2], 0, fun _ => 0⟩ : Arr Nat), ⟨[1, 2, 2], 0, fun _ => 1⟩] = .ok ds' ∧
    newSource (some 1) ds' = .ok src ∧ src.readimg 1 1 = .ok im ∧ src.readimg 1 0 = .ok im' ∧
    im.shape = [1, 2] ∧ im.data [0, 1] = 5 ∧ im'.data [0, 1] = 1 :=
  ⟨_, _, _, _, rfl, rfl, rfl, rfl, rfl, rfl, rfl⟩

/-- Two histories of the same place: the last one counts, other places are not affected. -/
example : lastWritten [(0, 1, 'a'), (0, 0, 'b'), (1, 1, 'c'), (0, 1, 'd')] 0 1 'z' = 'd' ∧
    lastWritten [(0, 1, 'a'), (0, 0, 'b'), (1, 1, 'c'), (0, 1, 'd')] 1 0 'z' = 'z' := by decide

/-! ## HDF5 files -/

def writeAllH5 (k : Nat) (names : List Str) : List (Write (Arr V)) → Dict Str (Arr V) → Except Err (Dict Str (Arr V))
  | [], file => .ok file
  | e :: l, file => match writeH5 k names file e.2.2 e.1 e.2.1 with
      | .error err => .error err
      | .ok file' => writeAllH5 k names l file'

/-- The path for new datasets is the first one which has none of them. -/
theorem h5_free (file : Dict Str (Arr V)) (names : List Str) (ext : Str) :
    ∃ num, nonexistingsetnames file names ext = setnames names ext (entryPath num) ∧
      (∀ name ∈ names, Dict.get? file (composesetname ext (entryPath num) name) = none) ∧
      ∀ j < num, ∃ name ∈ names, Dict.get? file (composesetname ext (entryPath j) name) ≠ none := by
  obtain ⟨-, h2, h3⟩ := freeEntry_spec file names ext (file.length + 2) 0 (freeEntry_exists file names ext)
  refine ⟨_, rfl, ?_, ?_⟩
  · intro name hn
    rw [datasetsexist, Bool.not_eq_false', List.all_eq_true] at h2
    simpa using h2 name hn
  · intro j hj
    have := h3 j (by omega) hj
    rw [datasetsexist, Bool.not_eq_true', List.all_eq_false] at this
    obtain ⟨name, a, b⟩ := this
    exact ⟨name, a, by simpa using b⟩

theorem setnames_nodup (names : List Str) (ext path : Str) (h : names.Nodup) : (setnames names ext path).Nodup :=
  List.Nodup.map (fun _ _ h => compose_inj h) h

/-- Without `overwrite`: new datasets of the wanted shape, nothing existing changes. -/
theorem h5_prepare_new (zero : V) (names : List Str) (ext : Str) (shape : List Nat) (dt : Nat) (file : Dict Str (Arr V))
    (hn : names.Nodup) :
    ∃ file' l, prepareH5 zero false names ext shape dt file = .ok (file', l) ∧ l.length = names.length ∧ l.Nodup ∧
      (∀ s ∈ l, Dict.get? file s = none ∧ Dict.get? file' s = some ⟨shape, dt, fun _ => zero⟩) ∧
      ∀ s, s ∉ l → Dict.get? file' s = Dict.get? file s := by
  obtain ⟨num, e, h1, -⟩ := h5_free file names ext
  have hf : ∀ s ∈ nonexistingsetnames file names ext, Dict.get? file s = none := by
    intro s hs
    rw [e, setnames, List.mem_map] at hs
    obtain ⟨name, hn, rfl⟩ := hs
    exact h1 name hn
  have hnd : (nonexistingsetnames file names ext).Nodup := by rw [e]; exact setnames_nodup _ _ _ hn
  obtain ⟨file', e', hk⟩ := createdatasets_spec zero shape dt _ file hnd hf
  refine ⟨file', nonexistingsetnames file names ext, ?_, by rw [e]; simp [setnames], hnd, ?_, ?_⟩
  · simp [prepareH5, e', Except.map]
  · intro s hs
    exact ⟨hf s hs, by rw [hk, if_pos hs]⟩
  · intro s hs
    rw [hk, if_neg hs]

/-- With `overwrite` and without a suffix: datasets that all exist are used again exactly when all
have the wanted shape and type, else new ones are made and the existing ones are kept. -/
theorem h5_prepare_overwrite_partial (zero : V) (names : List Str) (shape : List Nat) (dt : Nat) (file : Dict Str (Arr V))
    (hn : names.Nodup) (hne : names ≠ []) (hall : ∀ name ∈ names, Dict.get? file ('/' :: name) ≠ none) :
    ∃ file' l, prepareH5 zero true names [] shape dt file = .ok (file', l) ∧ l.length = names.length ∧ l.Nodup ∧
      (∀ s, Dict.get? file s ≠ none → Dict.get? file' s = Dict.get? file s) ∧
      (∀ s ∈ l, ∃ a, Dict.get? file' s = some a ∧ a.shape = shape ∧ a.dtype = dt) ∧
      (file' = file ∧ l = names.map ('/' :: ·) ↔
        ∀ name ∈ names, ∃ a, Dict.get? file ('/' :: name) = some a ∧ a.shape = shape ∧ a.dtype = dt) := by
  have comp : ∀ name : Str, composesetname [] ['/'] name = '/' :: name := by intro name; simp [composesetname]
  have hex : datasetsexist file names [] ['/'] = true := by
    obtain ⟨a, t, rfl⟩ := List.exists_cons_of_ne_nil hne
    have := hall a (by simp)
    cases h : Dict.get? file ('/' :: a) with
    | none => exact absurd h this
    | some x => simp [datasetsexist, comp, h]
  have hchk : ∀ l : List Str, (∀ name ∈ l, Dict.get? file ('/' :: name) ≠ none) →
      ∃ b, datasetscheck file [] shape dt l = .ok b ∧
        (b = true ↔ ∀ name ∈ l, ∃ a, Dict.get? file ('/' :: name) = some a ∧ a.shape = shape ∧ a.dtype = dt) := by
    intro l
    induction l with
    | nil => intro _; exact ⟨true, rfl, by simp⟩
    | cons a t ih =>
      intro hl
      obtain ⟨b, e, hb⟩ := ih fun n h => hl n (by simp [h])
      obtain ⟨x, hx⟩ := Option.ne_none_iff_exists'.mp (hl a (by simp))
      by_cases h1 : x.shape = shape
      · by_cases h2 : x.dtype = dt
        · refine ⟨b, by simp [datasetscheck, comp, hx, h1, h2, e], ?_⟩
          simp [hb, hx, h1, h2]
        · exact ⟨false, by simp [datasetscheck, comp, hx, h1, h2], by simp [hx, h2]⟩
      · exact ⟨false, by simp [datasetscheck, comp, hx, h1], by simp [hx, h1]⟩
  obtain ⟨b, eb, hb⟩ := hchk names hall
  cases b with
  | true =>
    have hb' := hb.mp rfl
    refine ⟨file, setnames names [] ['/'], ?_, by simp [setnames], setnames_nodup _ _ _ hn, fun _ _ => rfl, ?_, ?_⟩
    · simp [prepareH5, hex, eb]
    · intro s hs
      rw [setnames, List.mem_map] at hs
      obtain ⟨name, h1, rfl⟩ := hs
      rw [comp]
      exact hb' name h1
    · refine ⟨fun _ => hb', fun _ => ⟨rfl, ?_⟩⟩
      simp [setnames, comp]
  | false =>
    obtain ⟨file', l, e, len, nd, h1, h2⟩ := h5_prepare_new zero names [] shape dt file hn
    refine ⟨file', l, ?_, len, nd, ?_, ?_, ?_⟩
    · rw [← e]; simp [prepareH5, hex, eb]
    · intro s hs
      exact h2 s fun hm => hs (h1 s hm).1
    · intro s hs
      exact ⟨_, (h1 s hs).2, rfl, rfl⟩
    · constructor
      · rintro ⟨-, rfl⟩
        obtain ⟨a, t, rfl⟩ := List.exists_cons_of_ne_nil hne
        exact absurd (h1 ('/' :: a) (by simp)).1 (hall a (by simp))
      · intro hh
        exact absurd (hb.mpr hh) (by simp)

theorem writeH5_step {k n h w : Nat} {names : List Str} {file : Dict Str (Arr V)} (hnd : names.Nodup)
    (hs : ∀ s ∈ names, ∃ a, Dict.get? file s = some a ∧ IsStack k n h w a) (img : Arr V) (hi : img.shape = [h, w])
    {di ii : Nat} (hd : di < names.length) (hn : ii < n) :
    ∃ file', writeH5 k names file img di ii = .ok file' ∧
      (∀ s ∈ names, ∃ a, Dict.get? file' s = some a ∧ IsStack k n h w a) ∧
      (∀ s, s ∉ names → Dict.get? file' s = Dict.get? file s) ∧
      ∀ d s a a', names[d]? = some s → Dict.get? file s = some a → Dict.get? file' s = some a' →
        ∀ i, SameImage (image k h w i a') (if di = d ∧ ii = i then img else image k h w i a) := by
  have e : names[di]? = some names[di] := List.getElem?_eq_getElem hd
  obtain ⟨a0, g0, st0⟩ := hs names[di] (List.getElem_mem hd)
  obtain ⟨b, e', b1, b2, b3, b4, b5⟩ := writeArr_spec st0 img hi ii hn
  refine ⟨Dict.set file names[di] b, ?_, ?_, ?_, ?_⟩
  · rw [writeH5, e]; simp [g0, e', Except.map]
  · intro s hm
    rw [Dict.get?_set]
    split
    · exact ⟨b, rfl, b1⟩
    · exact hs s hm
  · intro s hm
    rw [Dict.get?_set, if_neg]
    rintro rfl
    exact hm (List.getElem_mem hd)
  · intro d s a a' hd' g g' i
    rw [Dict.get?_set] at g'
    obtain ⟨hd2, rfl⟩ := List.getElem?_eq_some_iff.mp hd'
    by_cases hdd : di = d
    · subst hdd
      rw [if_pos rfl] at g'
      rw [g0] at g
      cases g; cases g'
      by_cases h2 : ii = i
      · subst h2; rw [if_pos ⟨rfl, rfl⟩]; exact b4
      · rw [if_neg (fun h => h2 h.2)]; exact b5 i (Ne.symm h2)
    · have : names[di] ≠ names[d] := fun h => hdd ((List.Nodup.getElem_inj_iff hnd).mp h)
      rw [if_neg (by exact this), g] at g'
      cases g'
      rw [if_neg (fun h => hdd h.1)]
      exact sameImage_refl _

theorem writeAllH5_spec {k n h w : Nat} {names : List Str} (hnd : names.Nodup) (l : List (Write (Arr V))) :
    ∀ {file : Dict Str (Arr V)}, (∀ s ∈ names, ∃ a, Dict.get? file s = some a ∧ IsStack k n h w a) →
    (∀ e ∈ l, e.1 < names.length ∧ e.2.1 < n ∧ e.2.2.shape = [h, w]) →
    ∃ file', writeAllH5 k names l file = .ok file' ∧
      (∀ s ∈ names, ∃ a, Dict.get? file' s = some a ∧ IsStack k n h w a) ∧
      (∀ s, s ∉ names → Dict.get? file' s = Dict.get? file s) ∧
      ∀ d s a a', names[d]? = some s → Dict.get? file s = some a → Dict.get? file' s = some a' →
        ∀ i (x : Arr V), SameImage (image k h w i a) x → SameImage (image k h w i a') (lastWritten l d i x) := by
  induction l with
  | nil =>
    intro file hs _
    refine ⟨file, rfl, hs, fun _ _ => rfl, ?_⟩
    intro d s a a' _ g g' i x hx
    rw [g] at g'; cases g'
    simpa [lastWritten] using hx
  | cons e l ih =>
    intro file hs hl
    obtain ⟨hd, hn, hi⟩ := hl e (by simp)
    obtain ⟨f1, e1, st1, o1, r1⟩ := writeH5_step hnd hs e.2.2 hi hd hn
    obtain ⟨f2, e2, st2, o2, r2⟩ := ih st1 (fun e' he' => hl e' (by simp [he']))
    refine ⟨f2, by rw [writeAllH5, e1]; exact e2, st2, fun s hm => (o2 s hm).trans (o1 s hm), ?_⟩
    intro d s a a' hd' g g' i x hx
    obtain ⟨b, gb, -⟩ := st1 s (List.mem_of_getElem? hd')
    rw [lastWritten_cons]
    apply r2 d s b a' hd' gb g'
    refine (r1 d s a b hd' g gb i).trans ?_
    split
    · exact sameImage_refl _
    · exact hx

theorem mapM_get {K A : Type} (f : K → Option A) (l : List K) (h : ∀ s ∈ l, ∃ a, f s = some a) :
    ∃ r, l.mapM f = some r ∧ r.length = l.length ∧ ∀ d (hd : d < l.length), r[d]? = f l[d] := by
  induction l with
  | nil => exact ⟨[], rfl, rfl, fun d hd => absurd hd (by simp)⟩
  | cons s l ih =>
    obtain ⟨r, e, len, hr⟩ := ih fun t ht => h t (by simp [ht])
    obtain ⟨a, ha⟩ := h s (by simp)
    refine ⟨a :: r, ?_, by simp [len], ?_⟩
    · simp [List.mapM_cons, ha, e]
    · intro d hd
      cases d with
      | zero => simp [ha]
      | succ d =>
        simp only [List.getElem?_cons_succ, List.getElem_cons_succ]
        exact hr d (by simpa using hd)

/-- New datasets in an HDF5 file, any history of writes, read back through a source on the same names. -/
theorem h5_history (zero : V) (k n h w : Nat) (hk : k < 3) (names : List Str) (ext : Str) (dt : Nat) (file : Dict Str (Arr V))
    (hn : names.Nodup) (hne : names ≠ []) (shape : List Nat) (hsh : destshape k n (h, w) = .ok shape) (l : List (Write (Arr V)))
    (hl : ∀ e ∈ l, e.1 < names.length ∧ e.2.1 < n ∧ e.2.2.shape = [h, w]) :
    ∃ file1 sets file2 src, prepareH5 zero false names ext shape dt file = .ok (file1, sets) ∧
      writeAllH5 k sets l file1 = .ok file2 ∧ newSourceH5 (some k) file2 sets = .ok src ∧
      src.nimages = n ∧ src.imgsize = [h, w] ∧ src.datasets.length = names.length ∧
      (∀ s, Dict.get? file s ≠ none → Dict.get? file2 s = Dict.get? file s) ∧
      ∀ di ii, (di < names.length → ii < n → ∃ im, src.readimg di ii = .ok im ∧
          SameImage im (lastWritten l di ii ⟨[h, w], dt, fun _ => zero⟩)) ∧
        (names.length ≤ di ∨ n ≤ ii → src.readimg di ii = .error .index) := by
  obtain ⟨file1, sets, e1, len1, nd1, g1, o1⟩ := h5_prepare_new zero names ext shape dt file hn
  have hstack : IsStack k n h w (⟨shape, dt, fun _ => zero⟩ : Arr V) := (destshape_stack k n h w hk _).mp hsh
  obtain ⟨file2, e2, st2, o2, r2⟩ := writeAllH5_spec (k := k) (n := n) (h := h) (w := w) nd1 l
    (file := file1) (fun s hs => ⟨_, (g1 s hs).2, hstack⟩) (by rw [len1]; exact hl)
  obtain ⟨ds, em, lenm, hm⟩ := mapM_get (Dict.get? file2) sets (fun s hs => by
    obtain ⟨a, ha, -⟩ := st2 s hs; exact ⟨a, ha⟩)
  have hst : ∀ a ∈ ds, IsStack k n h w a := by
    intro a ha
    obtain ⟨d, hd, rfl⟩ := List.getElem_of_mem ha
    have hd' : d < sets.length := by rw [← lenm]; exact hd
    have := hm d hd'
    rw [List.getElem?_eq_getElem hd] at this
    obtain ⟨b, gb, sb⟩ := st2 sets[d] (List.getElem_mem hd')
    rw [gb] at this
    cases this
    exact sb
  have hdne : ds ≠ [] := by
    intro h0
    rw [h0, len1] at lenm
    exact hne (List.length_eq_zero_iff.mp lenm.symm)
  refine ⟨file1, sets, file2, ⟨k, n, [h, w], ds⟩, e1, e2, ?_, rfl, rfl, lenm.trans len1, ?_, ?_⟩
  · obtain ⟨a, t, rfl⟩ := List.exists_cons_of_ne_nil hdne
    have hall : ((a :: t).all fun d => d.shape == a.shape) = true := by
      rw [List.all_eq_true]
      intro d hd
      have h1 := hst a (by simp)
      have h2 := hst d hd
      rw [← destshape_stack k n h w hk] at h1 h2
      rw [h1] at h2
      simpa using (Except.ok.inj h2).symm
    have hns := newSource_stack hst hdne
    rw [newSourceH5, em]
    simp only [hall, if_true]
    exact hns
  · intro s hs
    have hns : s ∉ sets := fun hh => hs (g1 s hh).1
    rw [o2 s hns, o1 s hns]
  · intro di ii
    obtain ⟨r1, r3⟩ := readimg_stack hst n [h, w] di ii
    refine ⟨fun hd hi => ?_, fun hh => r3 (by rw [lenm, len1]; exact hh)⟩
    have hd1 : di < sets.length := by rw [len1]; exact hd
    have hd2 : di < ds.length := by rw [lenm]; exact hd1
    obtain ⟨im, ei, si⟩ := r1 hd2 hi
    refine ⟨im, ei, si.trans ?_⟩
    have hg := hm di hd1
    rw [List.getElem?_eq_getElem hd2] at hg
    refine r2 di sets[di] _ _ (List.getElem?_eq_getElem hd1) (g1 _ (List.getElem_mem hd1)).2 hg.symm ii _ ⟨rfl, ?_⟩
    intro j hj
    match j, hj with
    | [y, x], _ => rfl

/-- The dataset exists in the root, so the new one is in `/entry1`. -/
example : (prepareH5 (0 : Nat) false ["a".toList, "b".toList] ".x".toList [2, 3, 4] 7
    [("/a.x".toList, ⟨[1], 0, fun _ => 9⟩)]).toOption.map Prod.snd = some ["/entry1/a.x".toList, "/entry1/b.x".toList] := by
  decide +kernel

/-! ## single files -/

def writeAllFiles {W : Type} (destdir ext : Str) (width : Nat) (names : List Str) : List (Write W) → Dict Str W → Except Err (Dict Str W)
  | [], files => .ok files
  | e :: l, files => match writeFile destdir ext width names files e.2.2 e.1 e.2.1 with
      | .error err => .error err
      | .ok f => writeAllFiles destdir ext width names l f

theorem join_inj {d a b : Str} (h : join d a = join d b) : a = b := by
  unfold join at h
  split at h
  · exact List.append_cancel_left h
  · simpa using h

theorem pad_noscore (w i : Nat) : '_' ∉ SC.Naming.pad w i := by
  intro h
  have := SC.Naming.pad_digit w i '_' h
  revert this; decide

/-- Different images have different files. -/
theorem filename_inj (destdir ext : Str) (width : Nat) {n1 n2 : Str} {i1 i2 : Nat}
    (h : filename destdir ext width n1 i1 = filename destdir ext width n2 i2) : n1 = n2 ∧ i1 = i2 := by
  unfold filename at h
  have h' : join destdir n1 ++ '_' :: SC.Naming.pad width i1 = join destdir n2 ++ '_' :: SC.Naming.pad width i2 :=
    List.append_cancel_right h
  obtain ⟨a, b⟩ := SC.Xia.sep_last h' (pad_noscore _ _) (pad_noscore _ _)
  exact ⟨join_inj a, SC.Naming.pad_inj b⟩

/-- With the number of digits of the stack, all numbers of the stack have the same width and the
files of a dataset are in the order of the images. -/
theorem filename_order (destdir ext name : Str) (n width : Nat) (hw : digits n = .ok width) (i j : Nat) (hi : i < n) (hj : j < n) :
    (filename destdir ext width name i).length = (filename destdir ext width name j).length ∧
    (filename destdir ext width name i < filename destdir ext width name j ↔ i < j) := by
  have hwid : ∀ i, i < n → (SC.Naming.pad width i).length = width := by
    intro i hi
    unfold digits at hw
    split at hw
    · cases hw
    · cases hw
      rw [SC.Naming.pad_length]
      refine max_eq_left ?_
      rw [Nat.length_toDigits_le_iff (by decide) (by omega)]
      exact lt_trans hi (Nat.lt_pow_succ_log_self (by decide) n)
  constructor
  · simp [filename, hwid i hi, hwid j hj]
  · have hd : ∀ i, ∀ c ∈ SC.Naming.pad width i, c.isDigit = true := fun i c hc => SC.Naming.pad_digit width i c hc
    have hv : ∀ i, SC.Scan.natVal (SC.Naming.pad width i) = i := natVal_pad width
    have key := lex_value (SC.Naming.pad width i) (SC.Naming.pad width j) (by rw [hwid i hi, hwid j hj]) (hd i) (hd j)
    rw [hv, hv] at key
    rw [← key, filename, filename, List.append_assoc, List.append_assoc, lt_append_left, List.cons_append, List.cons_append,
      List.cons_lt_cons_iff, lt_append_right _ _ (by rw [hwid i hi, hwid j hj])]
    simp

/-- Twelve images need two digits. -/
example : digits 12 = .ok 2 ∧ filename "d".toList ".edf".toList 2 "a".toList 9 < filename "d".toList ".edf".toList 2 "a".toList 10 := by
  decide +kernel

/-- The extensions in which images are written; all others are replaced by `.edf`. -/
theorem fileExt_spec (ext : Str) :
    (fileExt ext = ext ↔ ext ∈ [".tif".toList, ".tiff".toList, ".edf".toList]) ∧
    (ext ∉ [".tif".toList, ".tiff".toList, ".edf".toList] → fileExt ext = ".edf".toList) := by
  unfold fileExt
  simp only [List.mem_cons, List.not_mem_nil, or_false]
  split
  · rename_i h
    exact ⟨⟨fun _ => h, fun _ => rfl⟩, fun hn => absurd h hn⟩
  · rename_i h
    refine ⟨⟨fun he => absurd (.inr (.inr he.symm)) h, fun hh => absurd hh h⟩, fun _ => rfl⟩

theorem writeAllFiles_spec {W : Type} (destdir ext : Str) (width : Nat) (names : List Str) (hn : names.Nodup) (l : List (Write W)) :
    ∀ (files : Dict Str W), (∀ e ∈ l, e.1 < names.length) →
    ∃ files', writeAllFiles destdir ext width names l files = .ok files' ∧
      (∀ di name ii, names[di]? = some name →
        Dict.get? files' (filename destdir (fileExt ext) width name ii) =
          lastWritten (l.map fun e => (e.1, e.2.1, some e.2.2)) di ii (Dict.get? files (filename destdir (fileExt ext) width name ii))) ∧
      ∀ p, (∀ name ∈ names, ∀ ii, p ≠ filename destdir (fileExt ext) width name ii) → Dict.get? files' p = Dict.get? files p := by
  induction l with
  | nil => intro files _; exact ⟨files, rfl, fun _ _ _ _ => rfl, fun _ _ => rfl⟩
  | cons e l ih =>
    intro files hl
    have hd := hl e (by simp)
    obtain ⟨f', e', h1, h2⟩ := ih (Dict.set files (filename destdir (fileExt ext) width names[e.1] e.2.1) e.2.2)
      (fun x hx => hl x (by simp [hx]))
    refine ⟨f', ?_, ?_, ?_⟩
    · rw [writeAllFiles, writeFile, List.getElem?_eq_getElem hd]
      exact e'
    · intro di name ii hname
      rw [h1 di name ii hname, List.map_cons, lastWritten_cons, Dict.get?_set]
      congr 1
      obtain ⟨hdi, rfl⟩ := List.getElem?_eq_some_iff.mp hname
      by_cases hc : e.1 = di ∧ e.2.1 = ii
      · obtain ⟨rfl, rfl⟩ := hc
        simp
      · rw [if_neg hc, if_neg]
        intro hh
        obtain ⟨a, b⟩ := filename_inj _ _ _ hh
        exact hc ⟨(List.Nodup.getElem_inj_iff hn).mp a, b⟩
    · intro p hp
      rw [h2 p hp, Dict.get?_set, if_neg]
      intro hh
      first
        | exact hp _ (List.getElem_mem hd) _ hh
        | exact hp _ (List.getElem_mem hd) _ hh.symm

/-- What the destination of single files is: the given directory with `overwrite`, else the first of
`dir`, `dir_1`, `dir_2`, … in which not all datasets have files. -/
theorem files_prepare {W : Type} (ow : Bool) (files : Dict Str W) (dir : Str) (names : List Str) (ext : Str) (n : Nat) (hne : names ≠ []) :
    (n = 0 → prepareFiles ow files dir names ext n = .error .overflow) ∧
    (n ≠ 0 → ∃ num width, prepareFiles ow files dir names ext n = .ok (destPath dir num, width) ∧ digits n = .ok width ∧
      (ow = true → num = 0) ∧
      (ow = false → (∃ s ∈ names, ∀ p, Dict.get? files p ≠ none → globs (join (destPath dir num) s) ext p = false) ∧
        ∀ j < num, ∀ s ∈ names, ∃ p, Dict.get? files p ≠ none ∧ globs (join (destPath dir j) s) ext p = true)) := by
  have key : ∀ p, Dict.get? files p ≠ none ↔ ∃ f ∈ files, f.1 = p := by
    intro p
    rw [← Option.isSome_iff_ne_none, Dict.get?_isSome, Dict.keys, List.mem_map]
  constructor
  · rintro rfl
    rfl
  · intro hn
    have hdig : digits n = .ok (Nat.log 10 n + 1) := by rw [digits, if_neg hn]
    cases ow with
    | true => exact ⟨0, _, by simp [prepareFiles, hdig, Except.map, destPath], hdig, fun _ => rfl, by simp⟩
    | false =>
      obtain ⟨h1, h2⟩ := freeDest_spec files dir names ext (files.length + 2) 0 (freeDest_exists files dir names ext hne)
      refine ⟨freeDest files dir names ext (files.length + 2) 0, _, by simp [prepareFiles, hdig, Except.map], hdig, by simp,
        fun _ => ⟨?_, ?_⟩⟩
      · rw [filesexist, List.all_eq_false] at h1
        obtain ⟨s, hs, hh⟩ := h1
        refine ⟨s, hs, fun p hp => ?_⟩
        rw [List.any_eq_true] at hh
        obtain ⟨f, hf, rfl⟩ := (key p).mp hp
        cases hg : globs (join (destPath dir (freeDest files dir names ext (files.length + 2) 0)) s) ext f.1 with
        | false => rfl
        | true => exact absurd ⟨f, hf, hg⟩ hh
      · intro j hj s hs
        have := h2 j (by omega) hj
        rw [filesexist, List.all_eq_true] at this
        obtain ⟨f, hf, hg⟩ := List.any_eq_true.mp (this s hs)
        exact ⟨f.1, (key _).mpr ⟨f, hf, rfl⟩, hg⟩

theorem globs_filename (d name ext : Str) (w i : Nat) : globs (join d name) ext (filename d ext w name i) = true := by
  have e : filename d ext w name i = join d name ++ ('_' :: SC.Naming.pad w i ++ ext) := by simp [filename]
  rw [globs, Bool.and_eq_true]
  constructor
  · rw [e, List.isPrefixOf_iff_prefix]
    exact List.prefix_append _ _
  · rw [e, List.drop_left]
    have hl : ('_' :: SC.Naming.pad w i ++ ext).length - ext.length = ('_' :: SC.Naming.pad w i).length := by
      simp only [List.cons_append, List.length_cons, List.length_append]; omega
    dsimp only
    rw [hl, List.drop_left, List.take_left]
    simp only [ge_iff_le, Bool.and_eq_true, decide_eq_true_eq, beq_self_eq_true, and_true, Bool.not_eq_true']
    refine ⟨by simp only [List.cons_append, List.length_cons, List.length_append]; omega, ?_⟩
    rw [← Bool.not_eq_true, List.contains_iff_mem]
    intro hm
    rcases List.mem_cons.mp hm with h | h
    · revert h; decide
    · have := SC.Naming.pad_digit w i '/' h
      revert this; decide

/-- Full history for single files of one dataset, without `overwrite`: no existing file changes, and each
file has the last image written to it.  Missing: several datasets (see `files_two_finding`). -/
theorem files_history_partial {W : Type} (files : Dict Str W) (dir name ext : Str) 
    (hmem : ext ∈ [".tif".toList, ".tiff".toList, ".edf".toList]) (n : Nat) (hn : n ≠ 0)
    (l : List (Write W)) (hl : ∀ e ∈ l, e.1 = 0 ∧ e.2.1 < n) :
    ∃ dest width files', prepareFiles false files dir [name] ext n = .ok (dest, width) ∧
      writeAllFiles dest ext width [name] l files = .ok files' ∧
      (∀ p, Dict.get? files p ≠ none → Dict.get? files' p = Dict.get? files p) ∧
      ∀ ii, Dict.get? files' (filename dest ext width name ii) = lastWritten (l.map fun e => (e.1, e.2.1, some e.2.2)) 0 ii none := by
  obtain ⟨num, width, e, -, -, h⟩ := (files_prepare false files dir [name] ext n (by simp)).2 hn
  obtain ⟨⟨s, hs, hfree⟩, -⟩ := h rfl
  simp only [List.mem_cons, List.not_mem_nil, or_false] at hs
  subst hs
  obtain ⟨files', e', h1, h2⟩ := writeAllFiles_spec (destPath dir num) ext width [s] (by simp) l files
    (fun x hx => by rw [(hl x hx).1]; simp)
  have hno : ∀ ii, Dict.get? files (filename (destPath dir num) ext width s ii) = none := by
    intro ii
    by_contra hc
    have := hfree _ hc
    rw [globs_filename] at this
    cases this
  rw [(fileExt_spec ext).1.mpr hmem] at h1 h2
  refine ⟨destPath dir num, width, files', e, e', fun p hp => h2 p ?_, fun ii => ?_⟩
  · intro name hname ii hpe
    simp only [List.mem_cons, List.not_mem_nil, or_false] at hname
    subst hname
    rw [hpe] at hp
    exact hp (hno ii)
  · have := h1 0 s ii rfl
    rwa [hno ii] at this

/-- The same for several datasets when no dataset has files in the destination, or with `overwrite`: each
file has the last image written to it, all other files are kept. -/
theorem files_history_many {W : Type} (ow : Bool) (files : Dict Str W) (dir : Str) (names : List Str) (hnd : names.Nodup) (hne : names ≠ [])
    (ext : Str) (n : Nat) (hn : n ≠ 0) (l : List (Write W)) (hl : ∀ e ∈ l, e.1 < names.length ∧ e.2.1 < n) :
    ∃ dest width files', prepareFiles ow files dir names ext n = .ok (dest, width) ∧
      writeAllFiles dest ext width names l files = .ok files' ∧
      (∀ di ii name, names[di]? = some name → Dict.get? files' (filename dest (fileExt ext) width name ii)
        = lastWritten (l.map fun e => (e.1, e.2.1, some e.2.2)) di ii (Dict.get? files (filename dest (fileExt ext) width name ii))) ∧
      ∀ p, (∀ name ∈ names, ∀ ii, p ≠ filename dest (fileExt ext) width name ii) → Dict.get? files' p = Dict.get? files p := by
  obtain ⟨num, width, e, -, -, -⟩ := (files_prepare ow files dir names ext n hne).2 hn
  obtain ⟨files', e', h1, h2⟩ := writeAllFiles_spec (destPath dir num) ext width names hnd l files (fun x hx => (hl x hx).1)
  exact ⟨destPath dir num, width, files', e, e', fun di ii name h => h1 di name ii h, h2⟩

example : prepareFiles false [("d/a_07.edf".toList, 1), ("d_1/a_1.edf".toList, 2)] "d".toList ["a".toList] ".edf".toList 12
    = .ok ("d_2".toList, 2) := by decide +kernel
example : filename "d".toList ".edf".toList 2 "a".toList 7 = "d/a_07.edf".toList := by decide +kernel

/-! ## findings -/

/-- Two datasets, one of them already on disk: its files are overwritten without `overwrite`. -/
theorem files_two_finding : ∃ (files files' : Dict Str Nat) (d : Str) (w : Nat),
    prepareFiles false files "d".toList ["a".toList, "b".toList] ".edf".toList 1 = .ok (d, w) ∧
    writeFile d ".edf".toList w ["a".toList, "b".toList] files 5 0 0 = .ok files' ∧
    Dict.get? files "d/a_0.edf".toList = some 1 ∧ Dict.get? files' "d/a_0.edf".toList = some 5 :=
  ⟨[("d/a_0.edf".toList, 1)], [("d/a_0.edf".toList, 5)], "d".toList, 1, by decide +kernel, by decide +kernel, by decide +kernel,
    by decide +kernel⟩

/-- An extension that is not written: the check looks for other files than those written. -/
theorem files_ext_finding : ∃ (files files' : Dict Str Nat) (d : Str) (w : Nat),
    prepareFiles false files "d".toList ["a".toList] ".png".toList 1 = .ok (d, w) ∧
    writeFile d ".png".toList w ["a".toList] files 5 0 0 = .ok files' ∧
    Dict.get? files "d/a_0.edf".toList = some 1 ∧ Dict.get? files' "d/a_0.edf".toList = some 5 :=
  ⟨[("d/a_0.edf".toList, 1)], [("d/a_0.edf".toList, 5)], "d".toList, 1, by decide +kernel, by decide +kernel, by decide +kernel,
    by decide +kernel⟩

/-- With a suffix and `overwrite`, existing datasets of the right shape raise KeyError, for every suffix,
unless the names without suffix exist as well. -/
theorem h5_overwrite_suffix_finding (zero : V) (name ext : Str) (shape : List Nat) (dt : Nat) (file : Dict Str (Arr V)) (a : Arr V)
    (h : Dict.get? file ('/' :: name ++ ext) = some a) (hs : a.shape = shape) (hn : Dict.get? file ('/' :: name) = none) :
    prepareH5 zero true [name] ext shape dt file = .error .key := by
  have comp : composesetname ext ['/'] name = '/' :: name ++ ext := by simp [composesetname]
  simp only [List.cons_append] at comp h
  simp [prepareH5, datasetsexist, comp, h, datasetscheck, hs, hn]

example : prepareH5 (0 : Nat) true ["a".toList] ".x".toList [2, 3, 4] 7 [("/a.x".toList, ⟨[2, 3, 4], 7, fun _ => 0⟩)] = .error .key :=
  h5_overwrite_suffix_finding 0 "a".toList ".x".toList [2, 3, 4] 7 _ ⟨[2, 3, 4], 7, fun _ => 0⟩ rfl rfl (by decide +kernel)

/-- With `overwrite`, if the first dataset exists with the wanted shape and type but the second does not:
KeyError. -/
theorem h5_overwrite_some_finding (zero : V) (n1 n2 : Str) (dt : Nat) (file : Dict Str (Arr V)) (a : Arr V)
    (h : Dict.get? file ('/' :: n1) = some a) (hd : a.dtype = dt) (hn : Dict.get? file ('/' :: n2) = none) :
    prepareH5 zero true [n1, n2] [] a.shape dt file = .error .key := by
  have comp : ∀ name : Str, composesetname [] ['/'] name = '/' :: name := by intro name; simp [composesetname]
  simp [prepareH5, datasetsexist, comp, h, hn, datasetscheck, hd]

example : prepareH5 (0 : Nat) true ["a".toList, "b".toList] [] [2, 3, 4] 7 [("/a".toList, ⟨[2, 3, 4], 7, fun _ => 0⟩)] = .error .key :=
  h5_overwrite_some_finding 0 "a".toList "b".toList 7 _ ⟨[2, 3, 4], 7, fun _ => 0⟩ rfl rfl (by decide +kernel)

/-- A source of a single image with two axes has one image of the right size, but reading it gives the
first column. -/
theorem source_2d_finding (h w dt : Nat) (f : List Nat → V) (hw : 0 < w) :
    ∃ src im, newSource none [(⟨[h, w], dt, f⟩ : Arr V)] = .ok src ∧ src.nimages = 1 ∧ src.imgsize = [h, w] ∧
      src.readimg 0 0 = .ok im ∧ im.shape = [h, 1] ∧ ∀ y x, im.data [y, x] = f [y, 0] := by
  refine ⟨⟨2, 1, [h, w], [⟨[h, w], dt, f⟩]⟩, ⟨[h, 1], dt, fun j => f (merge [none, some 0] (j.take 1))⟩, ?_, rfl, rfl, ?_, rfl, ?_⟩
  · simp [newSource, checkStackdim, initshape, bind, Except.bind]
  · simp [Source.readimg, getAt, readIndex, selShape, hw, Except.map, newaxis]
  · intro y x
    simp [merge]

/-- With the stack axis 0 a source with two axes has as many images as rows, but reads columns. -/
theorem source_2d_stackdim_finding (h w dt : Nat) (f : List Nat → V) :
    ∃ src, newSource (some 0) [(⟨[h, w], dt, f⟩ : Arr V)] = .ok src ∧ src.nimages = h ∧ src.imgsize = [w, 1] ∧
      (∀ i < w, ∃ im, src.readimg 0 i = .ok im ∧ im.shape = [h, 1] ∧ ∀ y x, im.data [y, x] = f [y, i]) ∧
      ∀ i, w ≤ i → src.readimg 0 i = .error .index := by
  refine ⟨⟨2, h, [w, 1], [⟨[h, w], dt, f⟩]⟩, ?_, rfl, rfl, ?_, ?_⟩
  · simp [newSource, checkStackdim, initshape, bind, Except.bind]
  · intro i hi
    refine ⟨⟨[h, 1], dt, fun j => f (merge [none, some i] (j.take 1))⟩, ?_, rfl, ?_⟩
    · simp [Source.readimg, getAt, readIndex, selShape, hi, Except.map, newaxis]
    · intro y x
      simp [merge]
  · intro i hi
    simp [Source.readimg, getAt, readIndex, selShape, Nat.not_lt.mpr hi, Except.map]

/-- Arrays in a list are not compared: the second can have fewer images than the source says. -/
theorem source_sizes_finding : ∃ (a b : Arr Nat) (src : Source Nat), newSource none [a, b] = .ok src ∧ src.nimages = 3 ∧
    (∃ im, src.readimg 0 2 = .ok im) ∧ src.readimg 1 2 = .error .index :=
  ⟨⟨[2, 2, 3], 0, fun _ => 0⟩, ⟨[2, 2, 1], 0, fun _ => 0⟩,
    ⟨2, 3, [2, 2], [⟨[2, 2, 3], 0, fun _ => 0⟩, ⟨[2, 2, 1], 0, fun _ => 0⟩]⟩, rfl, rfl, ⟨_, rfl⟩, rfl⟩

end SC.Stack
