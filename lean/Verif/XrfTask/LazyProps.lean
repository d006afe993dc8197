import Verif.XrfTask.LazyLemmas
import Mathlib.Algebra.Order.Field.Basic
import Mathlib.Algebra.Field.Rat
import Mathlib.Algebra.Order.Ring.Rat
/-! # Properties of lazy slices -/
namespace SC.XrfTask
open SC.Py SC.Naming SC.Grid

/-- A world with two counters, a file without a value and one with other numbers; the detector 0 of
image 0 counted 4000 events and let 2000 through. -/
def w0 : World :=
  ⟨fun s => if s = ['a'] then some ⟨1, 2, fun _ b => some (b + 1)⟩ else if s = ['b'] then some ⟨1, 2, fun _ b => if b = 0 then none else some 10⟩ else if s = ['c'] then some ⟨1, 2, fun _ _ => some 6⟩ else none,
   fun k n => if k = 0 ∧ n = 0 then some (fun _ b => if b = 0 then (4000, 2000) else (10, 5)) else none, fun _ _ => none, fun _ => none, (1, 2), []⟩

/-- A file as a slice. -/
def fileSlice (s : Str) : Arg := .slice .readedf true [.file s]

/-- An image as a list. -/
def Img.list (i : Img) : List (List Px) := (List.range i.rows).map fun a => (List.range i.cols).map fun b => i.px a b

/-- Appending an argument to a sum adds its image to the image of the sum, also when the argument is
itself a sum that gets merged. -/
theorem sum_append (w : World) (i : Nat) (args : List Arg) (a s : Arg) (x y : Img)
    (hx : value w i (.slice .sum false args) = some x) (hy : value w i a = some y) (hs : SameShape x y)
    (h : appendArg (.slice .sum false args) a = some s) :
    ∃ z, value w i s = some z ∧ SameShape x z ∧ ∀ r c, z.px r c = addPx (x.px r c) (y.px r c) :=
  ⟨_, append_value w i .sum sumPx addPx rfl sumPx_append (fun l y => by rw [sumPx_single]) args a s x y hx hy hs h, ⟨rfl, rfl⟩, fun _ _ => rfl⟩

example : ∃ s, appendArg (.slice .sum false [fileSlice ['a']]) (.slice .sum false [fileSlice ['c'], fileSlice ['c']]) = some s ∧
    (value w0 0 s).map Img.list = some [[some 13, some 14]] := ⟨_, rfl, by decide +kernel⟩

/-- The same for sums that skip NaN. -/
theorem nansum_append (w : World) (i : Nat) (args : List Arg) (a s : Arg) (x y : Img)
    (hx : value w i (.slice .nansum false args) = some x) (hy : value w i a = some y) (hs : SameShape x y)
    (h : appendArg (.slice .nansum false args) a = some s) :
    ∃ z, value w i s = some z ∧ SameShape x z ∧ ∀ r c, z.px r c = some ((x.px r c).getD 0 + (y.px r c).getD 0) :=
  ⟨_, append_value w i .nansum nansumPx nanaddPx rfl nansumPx_append (fun l y => nansumPx_single _ y) args a s x y hx hy hs h, ⟨rfl, rfl⟩, fun _ _ => rfl⟩

example : ∃ s, appendArg (.slice .nansum false [fileSlice ['a']]) (fileSlice ['b']) = some s ∧
    (value w0 0 s).map Img.list = some [[some 1, some 12]] := ⟨_, rfl, by decide +kernel⟩

/-- The same for maxima that skip NaN. -/
theorem nanmax_append (w : World) (i : Nat) (args : List Arg) (a s : Arg) (x y : Img)
    (hx : value w i (.slice .nanmax false args) = some x) (hy : value w i a = some y) (hs : SameShape x y)
    (h : appendArg (.slice .nanmax false args) a = some s) :
    ∃ z, value w i s = some z ∧ SameShape x z ∧ ∀ r c,
      (x.px r c = none → z.px r c = y.px r c) ∧ (y.px r c = none → z.px r c = x.px r c) ∧
      ∀ p q, x.px r c = some p → y.px r c = some q → z.px r c = some (max p q) := by
  refine ⟨_, append_value w i .nanmax nanmaxPx maxPx rfl nanmaxPx_append (fun l y => by rw [nanmaxPx_single]) args a s x y hx hy hs h, ⟨rfl, rfl⟩, fun r c => ⟨?_, ?_, ?_⟩⟩
  · intro h; simp only [h]; cases y.px r c <;> rfl
  · intro h; simp only [h]; cases x.px r c <;> rfl
  · intro p q h1 h2; simp only [h1, h2]; rfl

example : ∃ s, appendArg (.slice .nanmax false [fileSlice ['c']]) (.slice .nanmax false [fileSlice ['b'], fileSlice ['a']]) = some s ∧
    (value w0 0 s).map Img.list = some [[some 6, some 10]] := ⟨_, rfl, by decide +kernel⟩

/-- A mean to which a mean is appended is the mean over the images of both: every image counts once, not
every mean. -/
theorem nanmean_append (w : World) (i : Nat) (args as : List Arg) (s : Arg) (l m : List Img) (r c : Nat)
    (hl : args.mapM (value w i) = some l) (hm : as.mapM (value w i) = some m) (hne : l ≠ [])
    (hsh : ∀ j ∈ l ++ m, j.rows = r ∧ j.cols = c)
    (h : appendArg (.slice .nanmean false args) (.slice .nanmean false as) = some s) :
    ∃ z, value w i s = some z ∧ z.rows = r ∧ z.cols = c ∧ ∀ a b,
      ((∀ j ∈ l ++ m, j.px a b = none) → z.px a b = none) ∧
      ((∃ j ∈ l ++ m, j.px a b ≠ none) → z.px a b =
        some (((l ++ m).map fun j => (j.px a b).getD 0).sum / ((l ++ m).countP fun j => (j.px a b).isSome))) := by
  rw [appendArg_red .nanmean _ rfl, Option.some.injEq] at h
  subst h
  refine ⟨⟨r, c, fun a b => nanmeanPx ((l ++ m).map fun j => j.px a b)⟩, ?_, rfl, rfl, fun a b => ⟨fun h => ?_, fun h => ?_⟩⟩
  · rw [value_red w i .nanmean _ rfl, mapM_append, hl, Option.bind_some]
    simp only [contrib, if_true, hm, Option.map_some, Option.bind_some]
    exact reduce_of (by simp [hne]) hsh
  · have : valid ((l ++ m).map fun j => j.px a b) = [] := by
      rw [valid, List.filterMap_eq_nil_iff]
      intro x hx
      obtain ⟨j, hj, rfl⟩ := List.mem_map.mp hx
      exact h j hj
    simp only [nanmeanPx, this, if_true]
  · have key : ∀ n : List Img, (valid (n.map fun j => j.px a b)).sum = (n.map fun j => (j.px a b).getD 0).sum ∧
        (valid (n.map fun j => j.px a b)).length = n.countP fun j => (j.px a b).isSome := by
      intro n
      induction n with
      | nil => simp [valid]
      | cons j n ih =>
        obtain ⟨h1, h2⟩ := ih
        have e : valid ((j :: n).map fun j => j.px a b) = (j.px a b).toList ++ valid (n.map fun j => j.px a b) := by
          rw [valid, List.map_cons, List.filterMap_cons]
          cases j.px a b <;> rfl
        rw [e]
        cases hj : j.px a b with
        | none => simp only [Option.toList_none, List.nil_append, h1, h2, List.map_cons, hj, List.sum_cons]; simp [hj]
        | some v => simp only [Option.toList_some, List.singleton_append, List.sum_cons, List.length_cons, h1, h2, List.map_cons, hj]; simp [hj]
    have hne : valid ((l ++ m).map fun j => j.px a b) ≠ [] := by
      obtain ⟨j, hj, hj2⟩ := h
      intro h0
      rw [valid, List.filterMap_eq_nil_iff] at h0
      exact hj2 (h0 _ (List.mem_map.mpr ⟨j, hj, rfl⟩))
    simp only [nanmeanPx, hne, if_false, (key (l ++ m)).1, (key (l ++ m)).2]

/-- The mean of three images is 13/3, the mean of one with the mean of the others 7/2. -/
example : ∃ s, appendArg (.slice .nanmean false [fileSlice ['a']]) (.slice .nanmean false [fileSlice ['c'], fileSlice ['c']]) = some s ∧
    (value w0 0 s).map Img.list = some [[some (13 / 3), some (14 / 3)]] ∧
    (value w0 0 (.slice .nanmean false [fileSlice ['a'], .slice .nansum false [.slice .nanmean false [fileSlice ['c'], fileSlice ['c']]]])).map Img.list =
      some [[some (7 / 2), some 4]] := ⟨_, rfl, by decide +kernel, by decide +kernel⟩

theorem mapM_perm {α β : Type} (f : α → Option β) {l m : List α} (hp : l.Perm m) : ∀ {l'}, l.mapM f = some l' → ∃ m', m.mapM f = some m' ∧ l'.Perm m' := by
  induction hp with
  | nil => intro l' h; exact ⟨l', h, List.Perm.refl _⟩
  | cons a _ ih =>
    intro l' h
    rw [List.mapM_cons] at h ⊢
    cases ha : f a with
    | none => simp [ha] at h
    | some b =>
      rename_i l m _
      cases hl : l.mapM f with
      | none => simp [ha, hl] at h
      | some c =>
        obtain ⟨m', hm, hp⟩ := ih hl
        simp [ha, hl] at h
        subst h
        exact ⟨b :: m', by simp [hm], hp.cons b⟩
  | swap a b l =>
    intro l' h
    simp only [List.mapM_cons] at h ⊢
    cases ha : f a with
    | none => cases hb : f b <;> simp [ha, hb] at h
    | some x =>
      cases hb : f b with
      | none => simp [hb] at h
      | some y =>
        cases hl : l.mapM f with
        | none => simp [ha, hb, hl] at h
        | some c =>
          simp [ha, hb, hl] at h
          subst h
          exact ⟨x :: y :: c, by simp, List.Perm.swap _ _ _⟩
  | trans _ _ ih1 ih2 =>
    intro l' h
    obtain ⟨m', h1, h2⟩ := ih1 h
    obtain ⟨n', h3, h4⟩ := ih2 h1
    exact ⟨n', h3, h2.trans h4⟩

theorem sumPx_perm {l m : List Px} (h : l.Perm m) : sumPx l = sumPx m := by
  induction h with
  | nil => rfl
  | cons a _ ih => rw [← List.singleton_append, sumPx_append, ih, ← sumPx_append]; rfl
  | swap a b l =>
    have e : ∀ x y : Px, ∀ l, sumPx (x :: y :: l) = addPx (addPx x y) (sumPx l) := fun x y l => by
      rw [show x :: y :: l = [x, y] ++ l from rfl, sumPx_append]
      simp only [sumPx, List.foldl_cons, List.foldl_nil, addPx_zero]
    rw [e, e, addPx_comm b a]
  | trans _ _ h1 h2 => exact h1.trans h2

/-- The order in which detectors are added does not matter. -/
theorem sum_order (w : World) (i : Nat) (args args' : List Arg) (x : Img) (hp : args.Perm args')
    (h : value w i (.slice .sum false args) = some x) : value w i (.slice .sum false args') = some x := by
  rw [value_red w i .sum _ rfl] at h ⊢
  cases hl : args.mapM (value w i) with
  | none => simp [hl] at h
  | some l =>
    rw [hl, Option.bind_some] at h
    obtain ⟨m, hm, hq⟩ := mapM_perm _ hp hl
    obtain ⟨h1, h2, h3⟩ := reduce_some h
    rw [hm, Option.bind_some, reduce_of (r := x.rows) (c := x.cols) (fun h0 => h1 (by subst h0; exact hq.eq_nil)) (fun j hj => h2 j (hq.mem_iff.mpr hj)), h3]
    congr 2
    funext a b
    exact sumPx_perm (hq.symm.map _)

example : (value w0 0 (.slice .sum false [fileSlice ['a'], fileSlice ['c']])).map Img.list = some [[some 7, some 8]] ∧
    (value w0 0 (.slice .sum false [fileSlice ['c'], fileSlice ['a']])).map Img.list = some [[some 7, some 8]] := by decide +kernel

/-- A pixel of a sum is NaN exactly when that of an argument is; otherwise it is the sum of all. -/
theorem sum_pixel (w : World) (i : Nat) (args : List Arg) (l : List Img) (x : Img)
    (hl : args.mapM (value w i) = some l) (h : value w i (.slice .sum false args) = some x) (a b : Nat) :
    (x.px a b = none ↔ ∃ j ∈ l, j.px a b = none) ∧
    ((∀ j ∈ l, j.px a b ≠ none) → x.px a b = some ((l.map fun j => (j.px a b).getD 0).sum)) := by
  rw [value_red w i .sum _ rfl, hl, Option.bind_some] at h
  obtain ⟨-, -, h3⟩ := reduce_some h
  rw [h3]
  simp only
  have key : ∀ l : List Img, (sumPx (l.map fun j => j.px a b) = none ↔ ∃ j ∈ l, j.px a b = none) ∧
      ((∀ j ∈ l, j.px a b ≠ none) → sumPx (l.map fun j => j.px a b) = some ((l.map fun j => (j.px a b).getD 0).sum)) := by
    intro l
    induction l with
    | nil => simp [sumPx]
    | cons j l ih =>
      have e : sumPx ((j :: l).map fun j => j.px a b) = addPx (j.px a b) (sumPx (l.map fun j => j.px a b)) := by
        rw [List.map_cons, ← List.singleton_append, sumPx_append, sumPx_single]
      rw [e]
      cases hj : j.px a b with
      | none => simp [addPx, hj]
      | some v =>
        cases hs : sumPx (l.map fun j => j.px a b) with
        | none =>
          rw [hs] at ih
          have := ih.1.mp rfl
          refine ⟨by simp [addPx, this], fun hall => ?_⟩
          obtain ⟨k, hk, hk2⟩ := this
          exact absurd hk2 (hall k (by simp [hk]))
        | some t =>
          rw [hs] at ih
          have h0 : ¬ ∃ j ∈ l, j.px a b = none := fun h => by have := ih.1.mpr h; simp at this
          refine ⟨by simp [addPx, hj]; simpa using h0, fun hall => ?_⟩
          have := ih.2 (fun k hk => hall k (by simp [hk]))
          simp only [Option.some.injEq] at this
          simp [addPx, hj, this]
  exact key l

example : (value w0 0 (.slice .sum false [fileSlice ['a'], fileSlice ['b']])).map Img.list = some [[none, some 12]] := by decide +kernel

/-- Slices of files must not be merged: a slice of two files cannot be read. -/
theorem readedf_merge_fails (w : World) (i : Nat) (f g : Str) (s : Arg)
    (h : appendArg (fileSlice f) (fileSlice g) = some s) : value w i s = none := by
  simp only [fileSlice, appendArg, Fun.lazy, if_true, merge, Fun.samemerge, Option.some.injEq] at h
  subst h
  unfold value
  simp only [List.singleton_append, eval, evalList]
  cases w.files f <;> cases w.files g <;> simp [apply]

example : ∃ s, appendArg (fileSlice ['a']) (fileSlice ['c']) = some s ∧ (value w0 0 (fileSlice ['a'])).isSome := ⟨_, rfl, by decide +kernel⟩

/-- Dead time correction of a pixel: the ratio of incoming and outgoing counts when there are at least
1000 incoming counts and not fewer than outgoing ones, else none. -/
def deadtime (icr ocr : Rat) : Rat := if 0 < ocr ∧ 1000 ≤ icr ∧ ocr ≤ icr then icr / ocr else 1

theorem dtcorPx_eq (icr ocr : Rat) (h : 0 ≤ ocr) : dtcorPx (icr, ocr) = deadtime icr ocr := by
  unfold dtcorPx deadtime
  rcases h.lt_or_eq with h | h
  · have e : icr / ocr < 1 ↔ icr < ocr := div_lt_one h
    simp only [h.ne', false_or, h, true_and, e]
    by_cases h1 : icr < 1000
    · simp [h1, not_le.mpr h1]
    · by_cases h2 : icr < ocr
      · simp [h2, not_le.mpr h2]
      · simp [h1, h2, not_lt.mp h1, not_lt.mp h2]
  · subst h; simp

theorem value_img {w : World} {i : Nat} {a : Arg} {x : Img} (h : value w i a = some x) : eval w i a = some (.img x) := by
  unfold value at h
  cases ha : eval w i a with
  | none => simp [ha] at h
  | some v =>
    rw [ha, Option.bind_some] at h
    cases v <;> simp [Val.img?] at h
    subst h
    rfl

/-- The corrections of a fit result: reference flux over measured flux (a flux of zero counts as one),
times the dead time correction of that image and detector. -/
theorem xrfnorm_pixel (w : World) (i k : Nat) (n : Int) (a af : Arg) (x f : Img) (r : Rat) (st : Nat → Nat → Rat × Rat)
    (hx : value w i a = some x) (hf : value w i af = some f) (hs : SameShape f x) (hr : r ≠ 0)
    (hst : w.stats k n = some st) (hpos : ∀ p q, 0 ≤ (st p q).2) :
    ∃ z, value w i (.slice .xrfnorm true [a, af, .ref (some r), .xia k, .num n]) = some z ∧ SameShape z x ∧
      ∀ p q, (x.px p q = none ∨ f.px p q = none → z.px p q = none) ∧ ∀ v fl, x.px p q = some v → f.px p q = some fl →
        z.px p q = some (v * (r / if fl = 0 then 1 else fl) * deadtime (st p q).1 (st p q).2) := by
  have ha := value_img hx
  have hb := value_img hf
  refine ⟨⟨x.rows, x.cols, fun p q => mulPx (mulPx (x.px p q) (fluxPx (some r) (f.px p q))) (some (dtcorPx (st p q)))⟩, ?_, ⟨rfl, rfl⟩, fun p q => ⟨?_, ?_⟩⟩
  · have hn : normOf x (.img f) (.ref (some r)) = some (some (f.map (fluxPx (some r)))) := by
      simp [normOf, hr, hs.1, hs.2]
    have hd : dtOf w (.xia k) (.num n) = some (some st) := by simp [dtOf, hst]
    unfold value
    simp only [eval, evalList, ha, hb, Option.bind_some, Option.map_some, apply, xrfnorm, hn, hd]
    rfl
  · rintro (h | h)
    · simp [h, mulPx]
    · simp only [h]; cases x.px p q <;> simp [mulPx, fluxPx]
  · intro v fl h1 h2
    simp only [h1, h2, fluxPx, mulPx]
    rw [dtcorPx_eq (st p q).1 (st p q).2 (hpos p q)]

/-- 1 · 12/6 · 4000/2000, and 2 · 12/6 without correction as there are too few counts. -/
example : (value w0 0 (.slice .xrfnorm true [fileSlice ['a'], fileSlice ['c'], .ref (some 12), .xia 0, .num 0])).map Img.list = some [[some 4, some 4]] := by
  decide +kernel

/-- Without geometry and without dead time correction the fit result is unchanged; so it is for a
reference flux of zero. -/
theorem xrfnorm_none (w : World) (i : Nat) (a af : Arg) (x f : Img) (hx : value w i a = some x) (hf : value w i af = some f) :
    value w i (.slice .xrfnorm true [a, .none, .none, .none, .none]) = some x ∧
    value w i (.slice .xrfnorm true [a, af, .ref (some 0), .none, .none]) = some x := by
  have ha := value_img hx
  have hb := value_img hf
  constructor <;> unfold value <;> simp [eval, evalList, ha, hb, apply, xrfnorm, normOf, dtOf, Val.img?]

example : (value w0 0 (.slice .xrfnorm true [fileSlice ['a'], fileSlice ['c'], .ref (some 0), .none, .none])).map Img.list = some [[some 1, some 2]] := by
  decide +kernel

/-- Only the flux. -/
theorem xrfnorm_flux (w : World) (i : Nat) (a af : Arg) (x f : Img) (r : Rat)
    (hx : value w i a = some x) (hf : value w i af = some f) (hs : SameShape f x) (hr : r ≠ 0) :
    ∃ z, value w i (.slice .xrfnorm true [a, af, .ref (some r), .none, .none]) = some z ∧ SameShape z x ∧
      ∀ p q, (x.px p q = none ∨ f.px p q = none → z.px p q = none) ∧ ∀ v fl, x.px p q = some v → f.px p q = some fl →
        z.px p q = some (v * (r / if fl = 0 then 1 else fl)) := by
  have ha := value_img hx
  have hb := value_img hf
  refine ⟨⟨x.rows, x.cols, fun p q => mulPx (x.px p q) (fluxPx (some r) (f.px p q))⟩, ?_, ⟨rfl, rfl⟩, fun p q => ⟨?_, ?_⟩⟩
  · have hn : normOf x (.img f) (.ref (some r)) = some (some (f.map (fluxPx (some r)))) := by
      simp [normOf, hr, hs.1, hs.2]
    unfold value
    simp only [eval, evalList, ha, hb, Option.bind_some, Option.map_some, apply, xrfnorm, hn, dtOf]
    rfl
  · rintro (h | h)
    · simp [h, mulPx]
    · simp only [h]; cases x.px p q <;> simp [mulPx, fluxPx]
  · intro v fl h1 h2
    simp only [h1, h2, fluxPx, mulPx]

example : (value w0 0 (.slice .xrfnorm true [fileSlice ['a'], fileSlice ['c'], .ref (some 12), .none, .none])).map Img.list = some [[some 2, some 4]] := by
  decide +kernel

/-- Only the dead time. -/
theorem xrfnorm_deadtime (w : World) (i k : Nat) (n : Int) (a : Arg) (x : Img) (st : Nat → Nat → Rat × Rat)
    (hx : value w i a = some x) (hst : w.stats k n = some st) (hpos : ∀ p q, 0 ≤ (st p q).2) :
    ∃ z, value w i (.slice .xrfnorm true [a, .none, .none, .xia k, .num n]) = some z ∧ SameShape z x ∧
      ∀ p q, z.px p q = (x.px p q).map fun v => v * deadtime (st p q).1 (st p q).2 := by
  have ha := value_img hx
  refine ⟨⟨x.rows, x.cols, fun p q => mulPx (x.px p q) (some (dtcorPx (st p q)))⟩, ?_, ⟨rfl, rfl⟩, fun p q => ?_⟩
  · have hd : dtOf w (.xia k) (.num n) = some (some st) := by simp [dtOf, hst]
    unfold value
    simp only [eval, evalList, ha, Option.bind_some, Option.map_some, apply, xrfnorm, hd, normOf]
    rfl
  · simp only [← dtcorPx_eq (st p q).1 (st p q).2 (hpos p q)]
    cases x.px p q <;> simp [mulPx]

example : (value w0 0 (.slice .xrfnorm true [fileSlice ['a'], .none, .none, .xia 0, .num 0])).map Img.list = some [[some 2, some 2]] := by
  decide +kernel

end SC.XrfTask
