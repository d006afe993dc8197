import Verif.XrfTask.Model
/-! # Lemmas on lazy slices -/
namespace SC.XrfTask
open SC.Py SC.Naming SC.Grid

/-- The image of an argument. -/
def value (w : World) (i : Nat) (a : Arg) : Option Img := (eval w i a).bind Val.img?

/-- The reductions. -/
def red : Fun → Option (List Px → Px)
  | .nanmean => some nanmeanPx
  | .nansum => some nansumPx
  | .nanmax => some nanmaxPx
  | .sum => some sumPx
  | _ => none

/-- The arguments that an argument adds to a reduction. -/
def contrib (f : Fun) : Arg → List Arg
  | .slice g v as => if f = g then as else [.slice g v as]
  | a => [a]

theorem evalList_eq (w : World) (i : Nat) (l : List Arg) : evalList w i l = l.mapM (eval w i) := by
  induction l with
  | nil => simp [evalList]
  | cons a l ih =>
    simp only [evalList, ih, List.mapM_cons]
    cases eval w i a with
    | none => rfl
    | some v => cases l.mapM (eval w i) <;> rfl

theorem mapM_bind (w : World) (i : Nat) (l : List Arg) :
    ((l.mapM (eval w i)).bind fun vals => vals.mapM Val.img?) = l.mapM (value w i) := by
  induction l with
  | nil => simp
  | cons a l ih =>
    simp only [List.mapM_cons, value] at *
    cases ha : eval w i a with
    | none => simp
    | some v =>
      cases hl : l.mapM (eval w i) with
      | none =>
        rw [hl] at ih
        have : List.mapM (value w i) l = none := by rw [← show _ = List.mapM (value w i) l from ih]; rfl
        cases hv : v.img? with
        | none => simp [hv]
        | some x => simp [hv, this]
      | some vs =>
        rw [hl] at ih
        have : List.mapM (value w i) l = vs.mapM Val.img? := by rw [← show _ = List.mapM (value w i) l from ih]; rfl
        simp [this]

theorem value_red (w : World) (i : Nat) (f : Fun) (F : List Px → Px) (hf : red f = some F) (args : List Arg) :
    value w i (.slice f false args) = (args.mapM (value w i)).bind (reduce F) := by
  rw [← mapM_bind, ← evalList_eq]
  unfold value eval
  cases evalList w i args with
  | none => rfl
  | some vals =>
    cases f <;> simp only [red, Option.some.injEq, reduceCtorEq] at hf <;> subst hf <;>
      simp only [apply, Option.bind_some, Option.bind_map] <;>
      cases (List.mapM Val.img? vals).bind (reduce _) <;> rfl

theorem value_red_unpack (w : World) (i : Nat) (f : Fun) (F : List Px → Px) (hf : red f = some F) (args : List Arg) :
    value w i (.slice f true args) = none := by
  unfold value eval
  cases evalList w i args with
  | none => rfl
  | some vals => cases f <;> simp [red] at hf <;> simp [apply]

theorem appendArg_red (f : Fun) (F : List Px → Px) (hf : red f = some F) (u : Bool) (args : List Arg) (a : Arg) :
    appendArg (.slice f u args) a = some (.slice f u (args ++ contrib f a)) := by
  have h1 : f.lazy = true := by cases f <;> simp [red] at hf <;> rfl
  have h2 : f.samemerge = true := by cases f <;> simp [red] at hf <;> rfl
  cases a with
  | slice g v as =>
    simp only [appendArg, h1, if_true, merge, contrib]
    by_cases h : f = g
    · simp [h]; subst h; simp [h2]
    · simp [h]
  | _ => simp [appendArg, contrib]

theorem mapM_append {α β : Type} (f : α → Option β) (l m : List α) :
    (l ++ m).mapM f = (l.mapM f).bind fun x => (m.mapM f).map fun y => x ++ y := by
  induction l with
  | nil => simp
  | cons a l ih =>
    simp only [List.cons_append, List.mapM_cons, ih]
    cases f a with
    | none => simp
    | some b =>
      cases l.mapM f with
      | none => simp
      | some c => cases m.mapM f <;> simp

/-- Images of one shape. -/
def SameShape (x y : Img) : Prop := x.rows = y.rows ∧ x.cols = y.cols

theorem reduce_some {F : List Px → Px} {l : List Img} {x : Img} (h : reduce F l = some x) :
    l ≠ [] ∧ (∀ j ∈ l, j.rows = x.rows ∧ j.cols = x.cols) ∧ x = ⟨x.rows, x.cols, fun a b => F (l.map fun j => j.px a b)⟩ := by
  cases l with
  | nil => simp [reduce] at h
  | cons i is =>
    simp only [reduce] at h
    split at h
    · next hs =>
      simp only [Option.some.injEq] at h
      subst h
      simp only [List.all_eq_true, decide_eq_true_eq] at hs
      refine ⟨by simp, ?_, rfl⟩
      intro j hj
      rcases List.mem_cons.mp hj with rfl | hj
      · exact ⟨rfl, rfl⟩
      · exact hs j hj
    · simp at h

theorem reduce_of {F : List Px → Px} {l : List Img} {r c : Nat} (hl : l ≠ []) (h : ∀ j ∈ l, j.rows = r ∧ j.cols = c) :
    reduce F l = some ⟨r, c, fun a b => F (l.map fun j => j.px a b)⟩ := by
  cases l with
  | nil => simp at hl
  | cons i is =>
    obtain ⟨h1, h2⟩ := h i (by simp)
    have : (is.all fun j => decide (j.rows = i.rows ∧ j.cols = i.cols)) = true := by
      simp only [List.all_eq_true, decide_eq_true_eq]
      intro j hj
      rw [h1, h2]
      exact h j (by simp [hj])
    rw [reduce, if_pos this, h1, h2]

theorem addPx_assoc (x y z : Px) : addPx (addPx x y) z = addPx x (addPx y z) := by
  cases x <;> cases y <;> cases z <;> simp [addPx, add_assoc]

theorem addPx_zero (x : Px) : addPx (some 0) x = x := by cases x <;> simp [addPx]

theorem addPx_comm (x y : Px) : addPx x y = addPx y x := by cases x <;> cases y <;> simp [addPx, add_comm]

theorem foldl_addPx (l : List Px) (x : Px) : l.foldl addPx x = addPx x (sumPx l) := by
  induction l generalizing x with
  | nil => cases x <;> simp [sumPx, addPx]
  | cons y l ih =>
    simp only [List.foldl_cons, sumPx]
    rw [ih, ih (addPx (some 0) y), addPx_zero, addPx_assoc]

theorem sumPx_append (l m : List Px) : sumPx (l ++ m) = addPx (sumPx l) (sumPx m) := by
  rw [sumPx, List.foldl_append, foldl_addPx]; rfl

theorem sumPx_single (x : Px) : sumPx [x] = x := addPx_zero x

theorem valid_append (l m : List Px) : valid (l ++ m) = valid l ++ valid m := List.filterMap_append

/-- The larger one; NaN is no number. -/
def maxPx (x y : Px) : Px := match x, y with
  | none, y => y
  | x, none => x
  | some a, some b => some (max a b)

theorem foldl_max (l : List Rat) (a : Rat) (b : Rat) : l.foldl max (max a b) = max a (l.foldl max b) := by
  induction l generalizing b with
  | nil => rfl
  | cons c l ih => simp only [List.foldl_cons]; rw [max_assoc, ih]

theorem nanmaxPx_append (l m : List Px) : nanmaxPx (l ++ m) = maxPx (nanmaxPx l) (nanmaxPx m) := by
  unfold nanmaxPx
  rw [valid_append]
  cases hl : valid l with
  | nil => cases valid m <;> simp [maxPx]
  | cons x r =>
    cases hm : valid m with
    | nil => simp [maxPx]
    | cons y s =>
      simp only [List.cons_append, maxPx, List.foldl_append, List.foldl_cons]
      rw [foldl_max]

theorem nanmaxPx_single (x : Px) : nanmaxPx [x] = x := by cases x <;> simp [nanmaxPx, valid]

/-- The sum, NaN counting as 0. -/
def nanaddPx (x y : Px) : Px := some (x.getD 0 + y.getD 0)

theorem nansumPx_append (l m : List Px) : nansumPx (l ++ m) = nanaddPx (nansumPx l) (nansumPx m) := by
  simp [nansumPx, nanaddPx, valid_append]

theorem nansumPx_single (x y : Px) : nanaddPx x (nansumPx [y]) = nanaddPx x y := by
  cases y <;> simp [nansumPx, nanaddPx, valid]

theorem mapM_length {α β : Type} (f : α → Option β) (l : List α) (m : List β) (h : l.mapM f = some m) : m.length = l.length := by
  induction l generalizing m with
  | nil => simp at h; subst h; rfl
  | cons a l ih =>
    rw [List.mapM_cons] at h
    cases ha : f a with
    | none => simp [ha] at h
    | some b =>
      cases hl : l.mapM f with
      | none => simp [ha, hl] at h
      | some c =>
        simp [ha, hl] at h
        subst h
        simp [ih c hl]

/-- A reduction that has one more argument. -/
theorem append_value (w : World) (i : Nat) (f : Fun) (F : List Px → Px) (op : Px → Px → Px) (hf : red f = some F)
    (happ : ∀ l m, F (l ++ m) = op (F l) (F m)) (hone : ∀ l y, op (F l) (F [y]) = op (F l) y)
    (args : List Arg) (a s : Arg) (x y : Img)
    (hx : value w i (.slice f false args) = some x) (hy : value w i a = some y) (hs : SameShape x y)
    (h : appendArg (.slice f false args) a = some s) :
    value w i s = some ⟨x.rows, x.cols, fun r c => op (x.px r c) (y.px r c)⟩ := by
  rw [appendArg_red f F hf, Option.some.injEq] at h
  subst h
  rw [value_red w i f F hf] at hx ⊢
  rw [mapM_append]
  cases hl : args.mapM (value w i) with
  | none => simp [hl] at hx
  | some l =>
    rw [hl, Option.bind_some] at hx
    obtain ⟨h1, h2, h3⟩ := reduce_some hx
    have key : ∃ m, (contrib f a).mapM (value w i) = some m ∧ (∀ j ∈ m, j.rows = x.rows ∧ j.cols = x.cols) ∧
        ∀ r c, op (F (l.map fun j => j.px r c)) (F (m.map fun j => j.px r c)) = op (F (l.map fun j => j.px r c)) (y.px r c) := by
      have single : contrib f a = [a] → _ := fun hc : contrib f a = [a] =>
        (⟨[y], by rw [hc]; simp [hy], by intro j hj; simp at hj; subst hj; exact ⟨hs.1.symm, hs.2.symm⟩, fun r c => by simp [hone]⟩ :
          ∃ m, (contrib f a).mapM (value w i) = some m ∧ (∀ j ∈ m, j.rows = x.rows ∧ j.cols = x.cols) ∧
            ∀ r c, op (F (l.map fun j => j.px r c)) (F (m.map fun j => j.px r c)) = op (F (l.map fun j => j.px r c)) (y.px r c))
      cases a with
      | slice g v as =>
        by_cases hg : f = g
        · subst hg
          cases v with
          | true => rw [value_red_unpack w i f F hf] at hy; simp at hy
          | false =>
            rw [value_red w i f F hf] at hy
            cases hm : as.mapM (value w i) with
            | none => simp [hm] at hy
            | some m =>
              rw [hm, Option.bind_some] at hy
              obtain ⟨g1, g2, g3⟩ := reduce_some hy
              refine ⟨m, by simp [contrib, hm], fun j hj => ?_, fun r c => ?_⟩
              · rw [hs.1, hs.2]; exact g2 j hj
              · rw [g3]
        · exact single (by simp [contrib, hg])
      | _ => exact single rfl
    obtain ⟨m, hm, hm2, hm3⟩ := key
    rw [Option.bind_some, hm, Option.map_some, Option.bind_some]
    rw [reduce_of (r := x.rows) (c := x.cols) (by simp [h1])]
    · congr 2
      funext r c
      rw [List.map_append, happ, hm3]
      conv_rhs => rw [h3]
    · intro j hj
      rcases List.mem_append.mp hj with hj | hj
      · exact h2 j hj
      · exact hm2 j hj

end SC.XrfTask
