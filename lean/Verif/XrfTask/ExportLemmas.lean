import Verif.XrfTask.StackProps
/-! # Lemmas on sorting and saving -/
namespace SC.XrfTask
open SC.Py SC.Naming SC.Grid

theorem mapVals_get {K V W : Type} [DecidableEq K] {f : V → Option W} {d : Dict K V} {d' : Dict K W} (h : mapVals f d = some d') (x : K) :
    (Dict.get? d x = none → Dict.get? d' x = none) ∧ ∀ v, Dict.get? d x = some v → ∃ w, f v = some w ∧ Dict.get? d' x = some w := by
  induction d generalizing d' with
  | nil =>
    simp only [mapVals, List.mapM_nil] at h
    cases h
    exact ⟨fun _ => rfl, fun v hv => by simp [Dict.get?] at hv⟩
  | cons p d ih =>
    obtain ⟨k, v⟩ := p
    simp only [mapVals, List.mapM_cons] at h
    cases hf : f v with
    | none => simp [hf] at h
    | some w =>
      rw [hf] at h
      cases hm : List.mapM (fun kv => Option.map (fun w => (kv.1, w)) (f kv.2)) d with
      | none => simp [hm] at h
      | some e =>
        rw [hm] at h
        cases h
        have := ih hm
        simp only [Dict.get?]
        split
        · exact ⟨fun h => by simp at h, fun v' hv' => ⟨w, by simp only [Option.some.injEq] at hv'; rw [← hv']; exact hf, rfl⟩⟩
        · exact this

theorem mapVals_keys {K V W : Type} [DecidableEq K] {f : V → Option W} {d : Dict K V} {d' : Dict K W} (h : mapVals f d = some d') : Dict.keys d' = Dict.keys d := by
  induction d generalizing d' with
  | nil =>
    simp only [mapVals, List.mapM_nil] at h
    cases h
    rfl
  | cons p d ih =>
    obtain ⟨k, v⟩ := p
    simp only [mapVals, List.mapM_cons] at h
    cases hf : f v with
    | none => simp [hf] at h
    | some w =>
      rw [hf] at h
      cases hm : List.mapM (fun kv => Option.map (fun w => (kv.1, w)) (f kv.2)) d with
      | none => simp [hm] at h
      | some e =>
        rw [hm] at h
        cases h
        have := ih hm
        simp only [Dict.keys, List.map_cons] at this ⊢
        rw [this]

theorem permute_spec {α : Type} {ind : List Nat} {l m : List α} (h : permute ind l = some m) :
    m.length = ind.length ∧ ∀ (j i : Nat), ind[j]? = some i → ∃ x, l[i]? = some x ∧ m[j]? = some x := by
  unfold permute at h
  induction ind generalizing m with
  | nil =>
    simp only [List.mapM_nil] at h
    cases h
    simp
  | cons i r ih =>
    simp only [List.mapM_cons] at h
    cases hx : l[i]? with
    | none => simp [hx] at h
    | some x =>
      cases hr : r.mapM fun i => l[i]? with
      | none => simp [hx, hr] at h
      | some m' =>
        simp only [hx, hr] at h
        cases h
        obtain ⟨h1, h2⟩ := ih hr
        refine ⟨by simp [h1], fun j k hj => ?_⟩
        cases j with
        | zero =>
          simp only [List.getElem?_cons_zero, Option.some.injEq] at hj
          subst hj
          exact ⟨x, hx, rfl⟩
        | succ j => exact h2 j k (by simpa using hj)

theorem argsort_perm (v : List Rat) : (argsort v).Perm (List.range v.length) := SC.Common.stableSort_perm _ _

theorem mapVals_wf {st c : Stacks} {f : List Arg → Option (List Arg)} (h : mapVals (mapVals f) st = some c) (hst : StWF st) : StWF c := by
  refine ⟨?_, fun g d hd => ?_⟩
  · unfold Dict.WF
    rw [mapVals_keys h]
    exact hst.1
  · cases hg : Dict.get? st g with
    | none => rw [(mapVals_get h g).1 hg] at hd; simp at hd
    | some d0 =>
      obtain ⟨d1, h1, h2⟩ := (mapVals_get h g).2 d0 hg
      rw [hd] at h2
      simp only [Option.some.injEq] at h2
      subst h2
      unfold Dict.WF
      rw [mapVals_keys h1]
      exact hst.2 _ _ hg

theorem mapVals_get2 {st c : Stacks} {f : List Arg → Option (List Arg)} (h : mapVals (mapVals f) st = some c) (g : Grp) (k : Str) :
    (get2 st g k = none → get2 c g k = none) ∧ ∀ l, get2 st g k = some l → ∃ m, f l = some m ∧ get2 c g k = some m := by
  unfold get2
  cases hg : Dict.get? st g with
  | none => rw [(mapVals_get h g).1 hg]; simp
  | some d0 =>
    obtain ⟨d1, h1, h2⟩ := (mapVals_get h g).2 d0 hg
    rw [h2, Option.bind_some, Option.bind_some]
    exact mapVals_get h1 k

/-! ## saving -/

/-- The same file with more data sets. -/
def Ext (w w' : World) : Prop := w' = { w with h5 := w'.h5 } ∧ ∀ x l, Dict.get? w.h5 x = some l → Dict.get? w'.h5 x = some l

theorem Ext.refl (w : World) : Ext w w := ⟨rfl, fun _ _ h => h⟩
theorem Ext.trans {a b c : World} (h : Ext a b) (h' : Ext b c) : Ext a c := by
  refine ⟨?_, fun x l hx => h'.2 x l (h.2 x l hx)⟩
  have := h'.1
  rw [h.1] at this
  exact this

theorem apply_ext {w w' : World} (h : Ext w w') (f : Fun) (u : Bool) (vals : List Val) : apply w' f u vals = apply w f u vals := by
  rw [h.1]
  rfl

mutual
theorem eval_ext {w w' : World} (h : Ext w w') (i : Nat) : ∀ (a : Arg) (v : Val), eval w i a = some v → eval w' i a = some v
  | .file n, v, hv => by
    rw [h.1]
    exact hv
  | .dset g s, v, hv => by
    simp only [eval] at hv ⊢
    cases hd : Dict.get? w.h5 (g, s) with
    | none => simp [hd] at hv
    | some l => rw [h.2 _ _ hd]; rw [hd] at hv; exact hv
  | .none, v, hv => hv
  | .ref q, v, hv => hv
  | .xia k, v, hv => hv
  | .num n, v, hv => hv
  | .slice f u args, v, hv => by
    simp only [eval] at hv ⊢
    cases he : evalList w i args with
    | none => simp [he] at hv
    | some vals =>
      rw [evalList_ext h i args vals he]
      rw [he] at hv
      rw [Option.bind_some] at hv ⊢
      rw [apply_ext h]
      exact hv
theorem evalList_ext {w w' : World} (h : Ext w w') (i : Nat) : ∀ (l : List Arg) (vs : List Val), evalList w i l = some vs → evalList w' i l = some vs
  | [], vs, hv => hv
  | a :: as, vs, hv => by
    simp only [evalList] at hv ⊢
    cases ha : eval w i a with
    | none => simp [ha] at hv
    | some v =>
      rw [eval_ext h i a v ha]
      rw [ha, Option.bind_some] at hv
      rw [Option.bind_some]
      cases hl : evalList w i as with
      | none => simp [hl] at hv
      | some ws => rw [evalList_ext h i as ws hl]; rw [hl] at hv; exact hv
end

theorem value_ext {w w' : World} (h : Ext w w') {i : Nat} {a : Arg} {x : Img} (hx : value w i a = some x) : value w' i a = some x := by
  have := eval_ext h i a _ (value_img hx)
  unfold value
  rw [this]
  rfl

theorem exportSlices_spec {w : World} {l : List Arg} {i : Nat} {out out' : Option (Nat × Nat)} {imgs : List Img} (h : exportSlices w i l out = some (imgs, out')) :
    imgs.length = l.length ∧ (∀ s, out = some s → out' = some s) ∧ (l ≠ [] → out'.isSome) ∧
    ∀ s, out' = some s → ∀ j a, l[j]? = some a → ∃ d, value w (i + j) a = some d ∧ d.cols = s.2 ∧ imgs[j]? = some (fitRows s.1 d) := by
  induction l generalizing i out imgs with
  | nil =>
    simp only [exportSlices, Option.some.injEq, Prod.mk.injEq] at h
    obtain ⟨rfl, rfl⟩ := h
    simp
  | cons a r ih =>
    simp only [exportSlices] at h
    split at h
    · next d hd =>
      split at h
      · next hc =>
        split at h
        · simp at h
        · next l' o' hl =>
          simp only [Option.some.injEq, Prod.mk.injEq] at h
          obtain ⟨rfl, rfl⟩ := h
          obtain ⟨h1, h2, h3, h4⟩ := ih hl
          refine ⟨by simp [h1], fun s hs => ?_, fun _ => ?_, fun s hs j b hj => ?_⟩
          · rw [h2 _ rfl, hs]; rfl
          · rw [h2 _ rfl]; rfl
          · have e := h2 _ rfl
            rw [hs] at e
            simp only [Option.some.injEq] at e
            cases j with
            | zero =>
              simp only [List.getElem?_cons_zero, Option.some.injEq] at hj
              subst hj
              refine ⟨d, by simp [value, hd, Val.img?], by rw [e]; exact hc, ?_⟩
              rw [e]; rfl
            | succ j =>
              obtain ⟨d', e1, e2, e3⟩ := h4 s hs j b (by simpa using hj)
              exact ⟨d', by rw [show i + (j + 1) = i + 1 + j by omega]; exact e1, e2, by simpa using e3⟩
      · simp at h
    · simp at h

/-- What is saved of a signal. -/
def Saved (w : World) (s : Option (Nat × Nat)) (name k : Str) (l : List Arg) : Prop :=
  ∃ imgs, Dict.get? w.h5 (name, k) = some imgs ∧ imgs.length = l.length ∧
    ∀ j a, l[j]? = some a → ∃ rc d, s = some rc ∧ value w j a = some d ∧ d.cols = rc.2 ∧ imgs[j]? = some (fitRows rc.1 d)

theorem Saved.ext {w w' : World} {s s' : Option (Nat × Nat)} {name k : Str} {l : List Arg} (h : Saved w s name k l) (hw : Ext w w') (hs : ∀ x, s = some x → s' = some x) : Saved w' s' name k l := by
  obtain ⟨imgs, h1, h2, h3⟩ := h
  refine ⟨imgs, hw.2 _ _ h1, h2, fun j a hj => ?_⟩
  obtain ⟨rc, d, e1, e2, e3, e4⟩ := h3 j a hj
  exact ⟨rc, d, hs _ e1, value_ext hw e2, e3, e4⟩

theorem exportSignals_spec {name : Str} {d : List (Str × List Arg)} {w w' : World} {out out' : Option (Nat × Nat)} (hn : (d.map Prod.fst).Nodup)
    (hnew : ∀ k ∈ d.map Prod.fst, Dict.get? w.h5 (name, k) = none)
    (h : exportSignals name d w out = some (w', out')) :
    Ext w w' ∧ (∀ x, out = some x → out' = some x) ∧ (∀ kl ∈ d, Saved w' out' name kl.1 kl.2) ∧
    ∀ x, (x.1 ≠ name ∨ x.2 ∉ d.map Prod.fst) → Dict.get? w'.h5 x = Dict.get? w.h5 x := by
  induction d generalizing w out with
  | nil =>
    simp only [exportSignals, Option.some.injEq, Prod.mk.injEq] at h
    obtain ⟨rfl, rfl⟩ := h
    exact ⟨Ext.refl _, fun _ h => h, by simp, fun _ _ => rfl⟩
  | cons kl r ih =>
    obtain ⟨k, l⟩ := kl
    simp only [List.map_cons, List.nodup_cons] at hn
    simp only [exportSignals] at h
    split at h
    · simp at h
    · next imgs o ho =>
      obtain ⟨a1, a2, a3, a4⟩ := exportSlices_spec ho
      have hnk : Dict.get? w.h5 (name, k) = none := hnew k (by simp)
      have hext : Ext w { w with h5 := Dict.set w.h5 (name, k) imgs } := by
        refine ⟨rfl, fun x l' hx => ?_⟩
        simp only
        rw [Dict.get?_set, if_neg]
        · exact hx
        · rintro rfl
          rw [hnk] at hx
          simp at hx
      obtain ⟨b1, b2, b3, b4⟩ := ih hn.2 (fun k' hk' => by
        simp only
        rw [Dict.get?_set, if_neg]
        · exact hnew k' (by simp [hk'])
        · intro e
          have : k = k' := congrArg Prod.snd e
          subst this
          exact hn.1 hk') h
      refine ⟨hext.trans b1, fun x hx => b2 _ (a2 _ hx), ?_, fun x hx => ?_⟩
      · intro kl hkl
        rcases List.mem_cons.mp hkl with rfl | hkl
        · refine Saved.ext ?_ b1 b2
          refine ⟨imgs, by simp only; rw [Dict.get?_set, if_pos rfl], a1, fun j a hj => ?_⟩
          have hl : l ≠ [] := by rintro rfl; simp at hj
          obtain ⟨rc, hrc⟩ := Option.isSome_iff_exists.mp (a3 hl)
          obtain ⟨d, e1, e2, e3⟩ := a4 rc hrc j a hj
          rw [Nat.zero_add] at e1
          exact ⟨rc, d, hrc, value_ext hext e1, e2, e3⟩
        · exact b3 kl hkl
      · simp only [List.map_cons, List.mem_cons, not_or] at hx
        have h1 : x.1 ≠ name ∨ x.2 ∉ r.map Prod.fst := by
          rcases hx with h | h
          · exact .inl h
          · exact .inr h.2
        rw [b4 x h1]
        simp only
        rw [Dict.get?_set, if_neg]
        rintro rfl
        rcases hx with h | h
        · exact h rfl
        · exact h.1 rfl

theorem exportGroups_spec {st : Stacks} {w w' : World} {out out' : Option (Nat × Nat)} (hst : StWF st)
    (hinj : ∀ g g' k, (get2 st g k).isSome → (get2 st g' k).isSome → g.name = g'.name → g = g')
    (hnew : ∀ g k, (get2 st g k).isSome → Dict.get? w.h5 (g.name, k) = none)
    (h : exportGroups st w out = some (w', out')) :
    Ext w w' ∧ (∀ x, out = some x → out' = some x) ∧ (∀ g k l, get2 st g k = some l → Saved w' out' g.name k l) ∧
    ∀ x, (∀ g, (get2 st g x.2).isSome → g.name ≠ x.1) → Dict.get? w'.h5 x = Dict.get? w.h5 x := by
  induction st generalizing w out with
  | nil =>
    simp only [exportGroups, Option.some.injEq, Prod.mk.injEq] at h
    obtain ⟨rfl, rfl⟩ := h
    exact ⟨Ext.refl _, fun _ h => h, fun g k l hl => by simp [get2, Dict.get?] at hl, fun _ _ => rfl⟩
  | cons gd r ih =>
    obtain ⟨g0, d⟩ := gd
    obtain ⟨hw1, hw2⟩ := hst
    have hnd : g0 ∉ Dict.keys (r : Stacks) ∧ (Dict.keys (r : Stacks)).Nodup := by
      unfold Dict.WF Dict.keys at hw1
      rw [List.map_cons, List.nodup_cons] at hw1
      exact hw1
    have hg0r : Dict.get? (r : Stacks) g0 = none := (Dict.get?_none _ _).mpr hnd.1
    have hget : ∀ g k, get2 ((g0, d) :: r : Stacks) g k = if g0 = g then Dict.get? d k else get2 (r : Stacks) g k := by
      intro g k
      unfold get2
      simp only [Dict.get?]
      split <;> rfl
    have hget0 : ∀ k, get2 (r : Stacks) g0 k = none := by
      intro k
      unfold get2
      rw [hg0r]
      rfl
    have hrget : ∀ g k, (get2 (r : Stacks) g k).isSome → g0 ≠ g ∧ get2 ((g0, d) :: r : Stacks) g k = get2 (r : Stacks) g k := by
      intro g k hk
      have : g0 ≠ g := by
        rintro rfl
        rw [hget0] at hk
        simp at hk
      exact ⟨this, by rw [hget, if_neg this]⟩
    simp only [exportGroups] at h
    split at h
    · simp at h
    · next w1 o1 ho =>
      have hdn : (d.map Prod.fst).Nodup := hw2 g0 d (by simp [Dict.get?])
      have hd : ∀ k, k ∈ d.map Prod.fst ↔ (get2 ((g0, d) :: r : Stacks) g0 k).isSome := by
        intro k
        rw [hget, if_pos rfl]
        exact (Dict.get?_isSome d k).symm
      obtain ⟨a1, a2, a3, a4⟩ := exportSignals_spec hdn (fun k hk => hnew g0 k ((hd k).mp hk)) ho
      obtain ⟨b1, b2, b3, b4⟩ := ih ⟨hnd.2, fun g d' hd' => by
          refine hw2 g d' ?_
          simp only [Dict.get?]
          rw [if_neg]
          · exact hd'
          · rintro rfl
            rw [hg0r] at hd'
            simp at hd'⟩
        (fun g g' k hg hg' e => hinj g g' k (by rw [(hrget g k hg).2]; exact hg) (by rw [(hrget g' k hg').2]; exact hg') e)
        (fun g k hg => by
          rw [a4]
          · exact hnew g k (by rw [(hrget g k hg).2]; exact hg)
          · by_cases e : g.name = g0.name
            · refine .inr fun hk => ?_
              exact (hrget g k hg).1 (hinj g0 g k ((hd k).mp hk) (by rw [(hrget g k hg).2]; exact hg) e.symm)
            · exact .inl e) h
      refine ⟨a1.trans b1, fun x hx => b2 _ (a2 _ hx), fun g k l hl => ?_, fun x hx => ?_⟩
      · rw [hget] at hl
        split at hl
        · next e =>
          subst e
          exact (a3 (k, l) (Dict.get?_mem hl)).ext b1 b2
        · exact b3 g k l hl
      · rw [b4 x (fun g hg => hx g (by rw [(hrget g x.2 hg).2]; exact hg)), a4]
        by_cases e : x.1 = g0.name
        · refine .inr fun hk => ?_
          exact hx g0 ((hd _).mp hk) e.symm
        · exact .inl e

end SC.XrfTask
