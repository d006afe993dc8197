import Verif.Indexing.ShapeLemmas
/-! # Helper lemmas: putting the steps of `getitem` together -/
namespace SC.Indexing
open SC.Py SC.Numpy

theorem finish_stack {α : Type} [Inhabited α] {ds : List (Arr α)} (h : ds ≠ []) (k : Nat)
    (ops : List Op) (es : Option (List Nat)) :
    finish ds false (some k) ops es = (stack ds k).bind fun st => applyOps st ops := by
  cases ds with
  | nil => exact absurd rfl h
  | cons d ds => cases ds <;> rfl

theorem zero_mem_shape {α : Type} {a b : Arr α} {rs : List Res} (hb : indexRes a rs = some b)
    (h : 0 ∈ rs.filterMap Res.dimLen?) : 0 ∈ b.shape := by
  unfold indexRes at hb
  split at hb
  · simp only [Option.map_eq_some_iff] at hb
    obtain ⟨m, _, rfl⟩ := hb
    simp only
    rw [List.mem_insertIdx (advPos_le rs)]
    exact Or.inr h
  · cases hb; exact h

theorem equiv_of_zero {α : Type} {a b : Arr α} (hs : a.shape = b.shape) (h : 0 ∈ b.shape) :
    a.Equiv b :=
  ⟨hs, fun r hr => absurd hr (by rw [hs]; exact not_inB_of_zero h)⟩

/-- What a list index on the stack axis selects, and what `evaluated` calls. -/
def selPositions : Res → List Nat
  | .pick c => [c]
  | .many ks => ks
  | .span ks => ks
  | _ => []

variable {α β : Type}

/-- The stack split around its axis. -/
theorem stack_split {ps : List (Arr α)} {k : Nat} {st : Arr α} (h : stack ps k = some st) :
    ∃ sA sB, sA.length = k ∧ st.shape = sA ++ ps.length :: sB ∧ ∀ p ∈ ps, p.shape = sA ++ sB := by
  unfold stack at h
  split at h
  · simp at h
  · rename_i p ps'
    split at h
    · rename_i hc
      simp only [Option.some.injEq] at h
      subst h
      refine ⟨p.shape.take k, p.shape.drop k, by simp; omega, ?_, ?_⟩
      · simp only
        conv => lhs; rw [← List.take_append_drop k p.shape]
        have := insertIdx_append (p.shape.take k) (p.shape.drop k) (p :: ps').length
        rw [List.length_take, Nat.min_eq_left hc.2] at this
        exact this
      · intro q hq
        have := List.all_eq_true.mp hc.1 q hq
        rw [List.take_append_drop]
        simpa using this
    · simp at h

theorem getitem_expanded [Inhabited α] {gen : β → Arr α} {args : List β} {index : Idx}
    {is : List Item} {axis : Int} {k m nd : Nat} {st b : Arr α} {rs : List Res}
    (hexp : expand index nd = some (.tuple is)) (hp : Plain is)
    (hst : stack (args.map gen) k = some st) (hnd : nd = st.shape.length)
    (hax : positiveaxis axis nd = some k) (hrs : resolve is st.shape = some rs)
    (hm : ∀ l ∈ rs.filterMap Res.len?, l = m)
    (hnb : ∀ x, (noNew is)[k]? = some x → isAdv x = true →
      ∀ i ∈ (noNew is).eraseIdx k, ∀ l, i ≠ .blist l)
    (hb : indexRes st rs = some b) :
    ∃ r ev rx, getitem gen args index nd (some st.shape) axis = some r ∧ r.Equiv b ∧
      (rNoNew rs)[k]? = some rx ∧
      evaluated args index nd (some st.shape) axis = some ev ∧
      ev.map some = (selPositions rx).map (fun p => args[p]?) := by
  obtain ⟨f1, f2, f3, f4⟩ := resolve_facts hp hrs
  obtain ⟨g1, g2, g3, g4, g5, g6⟩ := mask_facts (rs := rs)
  have hbas := noNew_basic hp
  have hlen : (noNew is).length = st.shape.length := by
    rw [← (resolve_count f4).1, hbas.count]
  have hk : k < nd := by
    unfold positiveaxis at hax
    generalize (if axis < 0 then axis + (nd : Int) else axis) = a at hax
    simp only at hax
    split at hax
    · simp at hax
    · rename_i hc
      simp only [Option.some.injEq] at hax
      omega
  obtain ⟨sA, sB, hsA, hss, hps⟩ := stack_split hst
  rw [List.length_map] at hss
  have hk' : k < (noNew is).length := by omega
  -- split the index
  obtain ⟨A, x, B, hAxB, hAl⟩ : ∃ A x B, noNew is = A ++ x :: B ∧ A.length = k :=
    ⟨(noNew is).take k, (noNew is)[k], (noNew is).drop (k + 1), by
      rw [List.getElem_cons_drop, List.take_append_drop], by simp; omega⟩
  have f4' := f4
  rw [hAxB] at f4'
  obtain ⟨s1, s2, RA, R2, hs12, hR12, hA, hR2⟩ := resolve_split f4'
  have hbA : Basic A := fun i hi => hbas i (by rw [hAxB]; simp [hi])
  have hs1 : s1.length = k := by rw [← (resolve_count hA).1, hbA.count, hAl]
  obtain ⟨n, sB', rx, RB, rfl, rfl, hx, hB⟩ := resolve_cons_some (hbas x (by rw [hAxB]; simp)) hR2
  rw [hss] at hs12
  have e1 : sA = s1 := (List.append_inj hs12 (by omega)).1
  have e2 := (List.append_inj hs12 (by omega)).2
  simp only [List.cons.injEq] at e2
  obtain ⟨rfl, rfl⟩ := e2
  subst e1
  have hrx : (rNoNew rs)[k]? = some rx := by
    rw [hR12, ← hAl]
    have : A.length = RA.length := by
      have := congrArg List.length (resolve_facts hbA.plain hA).1
      simpa using this.symm
    rw [this]; simp
  obtain ⟨b0, hb0⟩ : ∃ b0, indexRes st (rNoNew rs) = some b0 := by
    by_cases ha : (rNoNew rs).any Res.isMany
    · obtain ⟨b', hb', _⟩ := indexRes_adv st (rs := rNoNew rs) (m := m) ha (by rw [g4]; exact hm)
      exact ⟨b', hb'⟩
    · exact ⟨_, indexRes_basic st (by simpa using ha)⟩
  obtain ⟨ops, hops, hrest⟩ := extractNewaxis_spec hp hrs hm
  have hshape := shapeAfter_indexRes (nd := nd) hp hrs hm hb
  let S : Setup α β := {
    gen := gen, args := args, A := A, x := x, B := B, sA := sA, sB := sB, RA := RA, rx := rx, RB := RB,
    m := m, st := st, b := b0, axis := axis
    basic := by rw [← hAxB]; exact hbas
    lenA := by omega
    hst := by rw [hAl]; exact hst
    shapes := fun a ha => hps _ (List.mem_map.mpr ⟨a, ha, rfl⟩)
    hA := hA, hx := hx, hB := hB
    hm := by
      change ∀ l ∈ List.filterMap Res.len? _, l = m
      rw [← hR12, g4]; exact hm
    hb := by rw [← hR12]; exact hb0
    hax := by rw [← hAxB, hAl, hlen, ← hnd]; exact hax }
  have hexp' : ∀ (sp : AxisSplit), extractAxis (A ++ x :: B) axis (some (sA ++ args.length :: sB)) = some sp →
      getitem gen args index nd (some st.shape) axis =
        (selectArgs args sp.shapeaxis sp.indexaxis).bind fun sel =>
        (planes gen sp sel.1).bind fun data =>
        finish data sel.2 sp.axis (sp.ops ++ ops) (some b.shape) := by
    intro sp hsp
    unfold getitem
    rw [hexp]
    simp only [hops, Option.bind_some, hAxB]
    rw [hss, hsp]
    simp only [Option.bind_some]
    rw [← hss, hshape]
  have hev' : ∀ (sp : AxisSplit), extractAxis (A ++ x :: B) axis (some (sA ++ args.length :: sB)) = some sp →
      evaluated args index nd (some st.shape) axis =
        (selectArgs args sp.shapeaxis sp.indexaxis).map fun sel =>
          if isAdv sp.indexaxis then sel.1.take (lenAdv1 sp.indexaxis) else sel.1 := by
    intro sp hsp
    unfold evaluated
    rw [hexp]
    simp only [hops, Option.bind_some, hAxB]
    rw [hss, hsp]
    rfl
  have hkind := resolve1_kind hx
  have hmem : rx ∈ rs := by
    have : rx ∈ rNoNew rs := by rw [hR12]; simp
    exact (List.mem_filter.mp this).1
  cases hrxc : rx with
  | new => exact absurd hrxc hkind.1
  | flag f => exact absurd hrxc (hkind.2.1 f)
  | pick c =>
    rw [hrxc] at hx
    have hxa : isAdv x = false := by rw [← hkind.2.2.2.1, hrxc]; rfl
    have hxb : bdim x = false := by rw [← hkind.2.2.1, hrxc]; rfl
    have hsp := extractAxis_int (A := A) (x := x) (B := B) (axis := axis) (n := args.length) (sA := sA) (sB := sB) S.basic S.hax S.lenA hxa hxb
    obtain ⟨a, ha, hsel⟩ := selectArgs_pick (sh := some args.length) hx
    obtain ⟨d, y, hd, hy, hye⟩ := S.pick_case hrxc ha
    obtain ⟨z, hz, hze⟩ := hrest α st y b0 b hb0 hb hye
    refine ⟨z, [a], .pick c, ?_, hze, by rw [hrx, hrxc], ?_, ?_⟩
    · rw [hexp' _ hsp]
      simp only [hsel, Option.bind_some, planes, hxa, Bool.false_eq_true, if_false]
      rw [List.mapM_cons, show npGet (gen a) (A ++ B) = some d from hd]
      simp only [List.mapM_nil, Option.pure_def, Option.bind_eq_bind, Option.bind_some]
      change applyOps d (_ ++ ops) = some z
      rw [applyOps_append, show applyOps d _ = some y from hy]
      exact hz
    · rw [hev' _ hsp]
      simp [hsel, hxa]
    · simp [selPositions, ha]
  | span ks =>
    rw [hrxc] at hx
    have hxa : isAdv x = false := by rw [← hkind.2.2.2.1, hrxc]; rfl
    have hxb : bdim x = true := by rw [← hkind.2.2.1, hrxc]; rfl
    have hsp := extractAxis_slice (A := A) (x := x) (B := B) (axis := axis) (n := args.length) (sA := sA) (sB := sB) S.basic S.hax S.lenA hxa hxb
    obtain ⟨sel, hsel, hs⟩ := selectArgs_list (Or.inl hx)
    have hev : evaluated args index nd (some st.shape) axis = some sel := by
      rw [hev' _ hsp]; simp [hsel, hxa]
    by_cases hne : sel = []
    · have hks : ks = [] := by
        rw [hne] at hs; simpa using hs.symm
      have h0 : 0 ∈ b.shape := zero_mem_shape hb (List.mem_filterMap.mpr
        ⟨rx, hmem, by rw [hrxc, hks]; rfl⟩)
      refine ⟨⟨b.shape, fun _ => default⟩, sel, .span ks, ?_, equiv_of_zero rfl h0,
        by rw [hrx, hrxc], hev, hs⟩
      rw [hexp' _ hsp]
      simp only [hsel, Option.bind_some, planes, hxa, Bool.false_eq_true, if_false, hne]
      rfl
    · obtain ⟨ds, st', y, hds, hdl, hst', hy, hye⟩ := S.span_case hrxc hs hne
      obtain ⟨z, hz, hze⟩ := hrest α st y b0 b hb0 hb hye
      refine ⟨z, sel, .span ks, ?_, hze, by rw [hrx, hrxc], hev, hs⟩
      have hdne : ds ≠ [] := by
        intro h0; rw [h0] at hdl
        exact hne (List.length_eq_zero_iff.mp hdl.symm)
      rw [hexp' _ hsp]
      simp only [hsel, Option.bind_some, planes, hxa, Bool.false_eq_true, if_false]
      rw [show sel.mapM (fun a => npGet (gen a) (A ++ B)) = some ds from hds]
      simp only [Option.bind_some]
      rw [finish_stack hdne, show stack ds _ = some st' from hst']
      simp only [Option.bind_some]
      rw [applyOps_append, show applyOps st' _ = some y from hy]
      exact hz
  | many ks =>
    rw [hrxc] at hx
    have hxa : isAdv x = true := by rw [← hkind.2.2.2.1, hrxc]; rfl
    have hsp := extractAxis_adv (A := A) (x := x) (B := B) (axis := axis) (n := args.length) (sA := sA) (sB := sB) S.basic S.hax S.lenA hxa
    obtain ⟨sel, hsel, hs⟩ := selectArgs_list (Or.inr hx)
    have hkm : ks.length = m := S.hm _ (by
      change ks.length ∈ lens (RA ++ rx :: RB)
      rw [hrxc]; simp [lens, Res.len?])
    have hl1 : lenAdv1 x = ks.length := by rw [lenAdv1_eq hx]; rfl
    have hnb' : ∀ i ∈ A ++ B, ∀ l, i ≠ .blist l := by
      have := hnb x (by rw [hAxB, ← hAl]; simp) hxa
      rwa [hAxB, ← hAl, eraseIdx_append_mid] at this
    obtain ⟨il, ds, hil, hill, hds, hdl, hstk⟩ := S.many_case hrxc hnb' hs
    have hsl : sel.length = ks.length := by simpa using congrArg List.length hs
    have hev : evaluated args index nd (some st.shape) axis = some sel := by
      rw [hev' _ hsp]
      simp only [hsel, Option.map_some, hxa, if_true, hl1, ← hsl, List.take_length]
    have hla := lenAdv_eq S.basicAB S.rest S.hmAB
    have hplanes : planes gen ⟨A ++ B, some (sA ++ sB), x, some args.length,
        some (apos (fl (A ++ x :: B))), []⟩ sel = some ds := by
      simp only [planes, hxa, if_true, Option.bind_some]
      rw [show lenAdv (A ++ B) (sA ++ sB) = _ from hla]
      simp only [Option.bind_some]
      rw [if_neg (by
        rw [hl1, hkm]
        change ¬ ((if (A ++ B).any isAdv = true then m else 0) ≠ 0 ∧
          (if (A ++ B).any isAdv = true then m else 0) ≠ m)
        split <;> omega)]
      rw [hl1, show decompose (A ++ B) ks.length = some il from hil]
      exact hds
    by_cases hne : sel = []
    · have hk0 : ks.length = 0 := by rw [← hsl, hne]; rfl
      have hd0 : ds = [] := List.length_eq_zero_iff.mp (by omega)
      have hany : rs.any Res.isMany := List.any_eq_true.mpr ⟨rx, hmem, by rw [hrxc]; rfl⟩
      obtain ⟨b', hb', hat⟩ := indexRes_adv st (rs := rs) (m := m) hany hm
      rw [hb] at hb'; cases hb'
      have h0 : 0 ∈ b.shape := by
        rw [hat.shape, List.mem_insertIdx hat.le]; left; omega
      refine ⟨⟨b.shape, fun _ => default⟩, sel, .many ks, ?_, equiv_of_zero rfl h0,
        by rw [hrx, hrxc], hev, hs⟩
      rw [hexp' _ hsp]
      simp only [hsel, Option.bind_some, hplanes, hd0]
      rfl
    · obtain ⟨st', hst', hye⟩ := hstk hne
      obtain ⟨z, hz, hze⟩ := hrest α st st' b0 b hb0 hb hye
      refine ⟨z, sel, .many ks, ?_, hze, by rw [hrx, hrxc], hev, hs⟩
      have hdne : ds ≠ [] := by
        intro h0; rw [h0] at hdl
        exact hne (List.length_eq_zero_iff.mp (by simp at hdl; omega))
      rw [hexp' _ hsp]
      simp only [hsel, Option.bind_some, hplanes]
      rw [finish_stack hdne, show stack ds _ = some st' from hst']
      exact hz

end SC.Indexing
