import Verif.Merge.PlanProps
/-! # Merging data sets with dimensions of length one before the scan dimension

The results of a fit have shape (1, N) and counters have shape (N): both are merged in the same way. -/
namespace SC.MergeTask
open SC.Numpy SC.Merge

/-- The shape of a selection with the leading dimensions. -/
def lift (pre s : Shape) : Shape := if s = [] then [] else pre ++ s

theorem ones {pre : Shape} (h : pre.prod = 1) : ∀ n ∈ pre, n = 1 := by
  induction pre with
  | nil => simp
  | cons a l ih =>
    rw [List.prod_cons] at h
    have h1 := Nat.eq_one_of_mul_eq_one_right h
    have h2 := Nat.eq_one_of_mul_eq_one_left h
    intro n hn
    rcases List.mem_cons.1 hn with rfl | hn
    · exact h1
    · exact ih h2 n hn

theorem dropLast_one (pre : Shape) (N : Nat) : (pre ++ [N]).dropLast = pre := by simp

theorem match_pre (pre : Shape) (h : pre.prod = 1) (N : Nat) (t : Shape) (keep : Bool) :
    matchShapes [pre ++ [N], t] keep = (matchShapes [[N], t] keep).map fun l => [lift pre (l.getD 0 []), l.getD 1 []] := by
  have hp : (pre ++ [N]).prod = [N].prod := by simp [h]
  have hd : (pre ++ [N]).dropLast = pre := by simp
  have hd1 : ([N] : List Nat).dropLast = [] := rfl
  have hall : ([pre ++ [N], t].map List.prod).all (fun (n : Nat) => decide (n = (pre ++ [N]).prod)) =
      ([[N], t].map List.prod).all (fun (n : Nat) => decide (n = [N].prod)) := by
    simp [hp]
  have hmin : minList ([pre ++ [N], t].map List.prod) = minList ([[N], t].map List.prod) := by
    simp only [List.map_cons, hp]
  have hch : lcmList ([pre ++ [N], t].map fun s => s.dropLast.prod) = lcmList ([[N], t].map fun s => s.dropLast.prod) := by
    simp only [List.map_cons, hd, hd1, h, List.prod_nil]
  unfold matchShapes
  simp only [hall, hmin, hch]
  split
  · cases keep <;> simp [lift]
  · split
    · rfl
    · simp only [Option.map_some, List.map_cons, List.map_nil, List.getD_cons_zero, List.getD_cons_succ, Option.some.injEq, List.cons.injEq, and_true]
      rw [hd, hd1, h, List.prod_nil, Nat.div_one, List.nil_append]
      unfold lift
      generalize minList _ / lcmList _ * lcmList _ = X
      by_cases he : N = X
      · subst he; simp
      · simp [he]

theorem match_scalar (N : Nat) (t : Shape) (keep : Bool) (l : List Shape) (h : matchShapes [[N], t] keep = some l) :
    ∃ a b, l = [a, b] ∧ (a = [] ∨ ∃ x, a = [x]) := by
  unfold matchShapes at h
  simp only at h
  split at h
  · simp only [Option.some.injEq] at h
    subst h
    cases keep
    · exact ⟨[], [], by simp⟩
    · exact ⟨[N], t, by simp⟩
  · split at h
    · simp at h
    · simp only [Option.some.injEq, List.map_cons, List.map_nil] at h
      subst h
      refine ⟨_, _, rfl, ?_⟩
      split
      · exact Or.inl rfl
      · exact Or.inr ⟨_, rfl⟩

/-- The mapping with the leading dimensions. -/
def ext (pre : Shape) (m : Mapping) : Mapping := ⟨pre ++ m.sel, m.block⟩

theorem select_pre (pre : Shape) (N : Nat) (s : Shape) (hs : s = [] ∨ ∃ x, s = [x]) :
    selectSource (pre ++ [N]) (lift pre s) = (selectSource [N] s).map (pre ++ ·) := by
  rcases hs with rfl | ⟨x, rfl⟩
  · simp [lift, selectSource]
  · simp [lift, selectSource, List.zipWith_append]

theorem check_pre (pre : Shape) (h : pre.prod = 1) (layout : Shape) (m : Mapping) :
    checkMapping layout (ext pre m) = (checkMapping layout m).map (ext pre) := by
  unfold checkMapping
  have : (ext pre m).sel.prod = m.sel.prod := by simp [ext, h]
  have hb : (ext pre m).block = m.block := rfl
  rw [this, hb]
  split <;> rfl

theorem stackMapping_pre (pre : Shape) (h : pre.prod = 1) (layout : Shape) (i N : Nat) :
    stackMapping layout i (pre ++ [N]) = (stackMapping layout i [N]).map (ext pre) := by
  unfold stackMapping layoutSlicing
  rw [match_pre pre h]
  cases hm : matchShapes [[N], layout.tail.reverse] false with
  | none => rfl
  | some l =>
    obtain ⟨a, b, rfl, ha⟩ := match_scalar _ _ _ _ hm
    simp only [Option.map_some, List.getD_cons_zero, List.getD_cons_succ]
    have hl : lift pre a = [] ↔ a = [] := by
      unfold lift
      rcases ha with rfl | ⟨x, rfl⟩
      · simp
      · simp
    by_cases h0 : a = []
    · rw [if_pos (hl.2 h0), if_pos h0]
      simp only
      exact check_pre pre h layout ⟨[N], _⟩
    · rw [if_neg (fun e => h0 (hl.1 e)), if_neg h0, select_pre pre N a ha]
      cases hs : selectSource [N] a with
      | none => rfl
      | some sel =>
        simp only [Option.map_some]
        exact check_pre pre h layout ⟨sel, _⟩

theorem tileMapping_pre (pre : Shape) (h : pre.prod = 1) (nsd nsd' : Nat) (hn : 1 ≤ nsd) (hn' : pre.length + 1 ≤ nsd') (layout : Shape)
    (block : Block) (N : Nat) (red : Shape) (hr : red = [] ∨ ∃ x, red = [x]) :
    tileMapping nsd' layout block (pre ++ [N]) (lift pre red) = (tileMapping nsd layout block [N] red).map (ext pre) := by
  have hd : [N].drop nsd = [] := List.drop_eq_nil_of_le (by simpa using hn)
  have hd' : (pre ++ [N]).drop nsd' = [] := List.drop_eq_nil_of_le (by simpa using hn')
  unfold tileMapping
  simp only [hd, hd', List.append_nil]
  have hl : lift pre red = pre ++ [N] ↔ red = [N] := by
    unfold lift
    rcases hr with rfl | ⟨x, rfl⟩
    · simp
    · simp
  by_cases h0 : red = [N]
  · rw [if_neg (not_not.2 (hl.2 h0)), if_neg (not_not.2 h0)]
    simp only
    exact check_pre pre h layout ⟨[N], _⟩
  · rw [if_pos (by rw [Ne, hl]; exact h0), if_pos h0, select_pre pre N red hr]
    cases hs : selectSource [N] red with
    | none => rfl
    | some sel =>
      simp only [Option.map_some]
      exact check_pre pre h layout ⟨sel, _⟩

theorem allSome_map_comm {α β γ : Type} (f : α → Option β) (g : β → γ) : ∀ l : List α,
    allSome (fun x => (f x).map g) l = (allSome f l).map (List.map g)
  | [] => rfl
  | x :: l => by
    unfold allSome
    rw [allSome_map_comm f g l]
    cases f x <;> cases allSome f l <;> rfl

theorem maxShape_pre (pre : Shape) : ∀ (lens : List Nat),
    maxShape (lens.map fun N => pre ++ [N]) = (maxShape (lens.map fun N => [N])).map (pre ++ ·)
  | [] => rfl
  | [N] => rfl
  | N :: M :: l => by
    have ih := maxShape_pre pre (M :: l)
    have hz : ∀ l : List Nat, List.zipWith max l l = l := by
      intro l; induction l with
      | nil => rfl
      | cons x d ih => simp
    simp only [List.map_cons] at ih ⊢
    unfold maxShape
    rw [ih]
    cases hm : maxShape ([M] :: l.map fun N => [N]) with
    | none => rfl
    | some m =>
      simp only [Option.map_some, List.length_append, List.length_singleton, Nat.add_left_cancel_iff]
      by_cases hl : m.length = 1
      · rw [if_pos (by omega), if_pos (by simpa using hl.symm)]
        simp [List.zipWith_append, hz]
      · rw [if_neg (by omega), if_neg (by simpa using fun e => hl e.symm)]
        rfl

theorem getD_shapes (pre : Shape) (lens : List Nat) (i : Nat) (hi : i < lens.length) :
    (lens.map fun N => pre ++ [N]).getD i [] = pre ++ [lens.getD i 0] := by
  simp [List.getD_eq_getElem?_getD, List.getElem?_map, List.getElem?_eq_getElem hi]

theorem allSome_congr {α β : Type} (f g : α → Option β) : ∀ l : List α, (∀ x ∈ l, f x = g x) → allSome f l = allSome g l
  | [], _ => rfl
  | x :: l, h => by
    unfold allSome
    rw [h x List.mem_cons_self, allSome_congr f g l fun y hy => h y (List.mem_cons_of_mem _ hy)]

/-- Stacks of data sets with leading dimensions of length one. -/
theorem stackPlan_pre (pre : Shape) (h : pre.prod = 1) (map map' : ShapeMap) (nsd nsd' : Nat) (hn : 1 ≤ nsd) (hn' : pre.length + 1 ≤ nsd')
    (lens : List Nat) (hne : lens ≠ []) (hmap : ∀ N ∈ lens, map'.get (pre ++ [N]) = map.get [N]) :
    stackPlan map' nsd' (lens.map fun N => pre ++ [N]) =
      (stackPlan map nsd (lens.map fun N => [N])).map fun r => (r.1, r.2.map (ext pre)) := by
  obtain ⟨R, hR, _, hmem⟩ := maxShape_cons [] lens hne
  unfold stackPlan
  rw [maxShape_pre, hR]
  have t1 : (pre ++ [R]).take nsd' = pre ++ [R] := List.take_of_length_le (by simpa using hn')
  have t2 : [R].take nsd = [R] := List.take_of_length_le (by simpa using hn)
  have d1 : (pre ++ [R]).drop nsd' = [] := List.drop_eq_nil_of_le (by simpa using hn')
  have d2 : [R].drop nsd = [] := List.drop_eq_nil_of_le (by simpa using hn)
  simp only [Option.map_some, t1, t2, d1, d2, hmap R hmem, List.length_map]
  have : allSome (fun (i : Nat) => stackMapping (lens.length :: ((map.get [R]).reverse ++ [])) i ((lens.map fun N => pre ++ [N]).getD i [])) (List.range lens.length) =
      (allSome (fun (i : Nat) => stackMapping (lens.length :: ((map.get [R]).reverse ++ [])) i ((lens.map fun N => [N]).getD i [])) (List.range lens.length)).map (List.map (ext pre)) := by
    rw [← allSome_map_comm]
    apply allSome_congr
    intro i hi
    have hi := List.mem_range.1 hi
    have h1 := getD_shapes [] lens i hi
    simp only [List.nil_append] at h1
    rw [getD_shapes pre lens i hi, h1, stackMapping_pre pre h]
  rw [this]
  cases allSome (fun (i : Nat) => stackMapping (lens.length :: ((map.get [R]).reverse ++ [])) i ((lens.map fun N => [N]).getD i [])) (List.range lens.length) <;> rfl

theorem scanShapes_pre (pre : Shape) (h : pre.prod = 1) (map map' : ShapeMap) (nsd nsd' : Nat) (hn : 1 ≤ nsd) (hn' : pre.length + 1 ≤ nsd')
    (N : Nat) (hmap : map'.get (pre ++ [N]) = map.get [N]) :
    scanShapes map' nsd' (pre ++ [N]) = (scanShapes map nsd [N]).map fun r => (lift pre r.1, r.2) := by
  have t1 : (pre ++ [N]).take nsd' = pre ++ [N] := List.take_of_length_le (by simpa using hn')
  have t2 : [N].take nsd = [N] := List.take_of_length_le (by simpa using hn)
  unfold scanShapes
  rw [t1, t2, hmap, match_pre pre h]
  cases hm : matchShapes [[N], map.get [N]] true with
  | none => rfl
  | some l =>
    obtain ⟨a, b, rfl, _⟩ := match_scalar _ _ _ _ hm
    rfl

theorem scanShapes_scalar (map : ShapeMap) (nsd : Nat) (hn : 1 ≤ nsd) (N : Nat) (r : Shape × Shape) (h : scanShapes map nsd [N] = some r) :
    r.1 = [] ∨ ∃ x, r.1 = [x] := by
  have t2 : [N].take nsd = [N] := List.take_of_length_le (by simpa using hn)
  unfold scanShapes at h
  rw [t2] at h
  cases hm : matchShapes [[N], map.get [N]] true with
  | none => simp [hm] at h
  | some l =>
    obtain ⟨a, b, rfl, ha⟩ := match_scalar _ _ _ _ hm
    simp only [hm, Option.some.injEq] at h
    subst h
    exact ha

theorem allSome_length {α β : Type} (f : α → Option β) : ∀ (l : List α) (r : List β), allSome f l = some r →
    r.length = l.length ∧ ∀ (i : Nat) (x : α), l[i]? = some x → ∃ y, f x = some y ∧ r[i]? = some y
  | [], r, h => by simp [allSome] at h; subst h; simp
  | x :: l, r, h => by
    unfold allSome at h
    cases hx : f x with
    | none => simp [hx] at h
    | some y =>
      cases hr : allSome f l with
      | none => simp [hx, hr] at h
      | some q =>
        simp only [hx, hr, Option.some.injEq] at h
        subst h
        obtain ⟨h1, h2⟩ := allSome_length f l q hr
        refine ⟨by simp [h1], ?_⟩
        intro i z hz
        cases i with
        | zero => simp only [List.getElem?_cons_zero, Option.some.injEq] at hz; subst hz; exact ⟨y, hx, rfl⟩
        | succ i => simpa using h2 i z (by simpa using hz)

/-- Tiles of data sets with leading dimensions of length one. -/
theorem tilePlan_pre (pre : Shape) (h : pre.prod = 1) (map map' : ShapeMap) (tile : Shape) (nsd nsd' : Nat) (hn : 1 ≤ nsd)
    (hn' : pre.length + 1 ≤ nsd') (lens : List Nat) (hmap : ∀ N ∈ lens, map'.get (pre ++ [N]) = map.get [N]) :
    tilePlan map' tile nsd' (lens.map fun N => pre ++ [N]) =
      (tilePlan map tile nsd (lens.map fun N => [N])).map fun r => (r.1, r.2.map (ext pre)) := by
  have e0 : allSome (scanShapes map' nsd') (lens.map fun N => pre ++ [N]) =
      (allSome (scanShapes map nsd) (lens.map fun N => [N])).map (List.map fun r => (lift pre r.1, r.2)) := by
    have : ∀ l : List Nat, (∀ N ∈ l, map'.get (pre ++ [N]) = map.get [N]) → allSome (scanShapes map' nsd') (l.map fun N => pre ++ [N]) =
        (allSome (scanShapes map nsd) (l.map fun N => [N])).map (List.map fun r => (lift pre r.1, r.2)) := by
      intro l
      induction l with
      | nil => intro _; rfl
      | cons N l ih =>
        intro hm
        simp only [List.map_cons]
        unfold allSome
        rw [ih (fun M hM => hm M (List.mem_cons_of_mem _ hM)), scanShapes_pre pre h map map' nsd nsd' hn hn' N (hm N List.mem_cons_self)]
        cases scanShapes map nsd [N] <;> cases allSome (scanShapes map nsd) (l.map fun N => [N]) <;> rfl
    exact this lens hmap
  unfold tilePlan
  rw [e0]
  cases hrs : allSome (scanShapes map nsd) (lens.map fun N => [N]) with
  | none => rfl
  | some rs =>
    obtain ⟨hlen, hget⟩ := allSome_length _ _ _ hrs
    rw [List.length_map] at hlen
    have hdet : (lens.map fun N => pre ++ [N]).map (·.drop nsd') = (lens.map fun N => [N]).map (·.drop nsd) := by
      rw [List.map_map, List.map_map]
      apply List.map_congr_left
      intro N _
      simp only [Function.comp]
      rw [List.drop_eq_nil_of_le (by simpa using hn'), List.drop_eq_nil_of_le (by simpa using hn)]
    simp only [Option.map_some, List.map_map, List.length_map]
    rw [List.map_map] at hdet
    have e2 : ((Prod.snd : Shape × Shape → Shape) ∘ fun r : Shape × Shape => (lift pre r.1, r.2)) = Prod.snd := rfl
    have hdet' : List.map ((fun x => List.drop nsd' x) ∘ fun N => pre ++ [N]) lens = List.map ((fun x => List.drop nsd x) ∘ fun N => [N]) lens := by
      rw [hdet, List.map_map]
    rw [e2, hdet']
    cases ht : tileIndices tile.reverse (rs.map Prod.snd) false with
    | none => rfl
    | some lb =>
      obtain ⟨layout, blocks⟩ := lb
      cases hx : maxShape (List.map ((fun x => List.drop nsd x) ∘ fun N => [N]) lens) with
      | none => rfl
      | some det =>
        simp only
        have : allSome (fun (i : Nat) => tileMapping nsd' (layout ++ det) (blocks.getD i []) ((lens.map fun N => pre ++ [N]).getD i [])
              ((rs.map fun r => (lift pre r.1, r.2)).getD i ([], [])).1) (List.range lens.length) =
            (allSome (fun (i : Nat) => tileMapping nsd (layout ++ det) (blocks.getD i []) ((lens.map fun N => [N]).getD i [])
              (rs.getD i ([], [])).1) (List.range lens.length)).map (List.map (ext pre)) := by
          rw [← allSome_map_comm]
          apply allSome_congr
          intro i hi
          have hi := List.mem_range.1 hi
          have h1 := getD_shapes [] lens i hi
          simp only [List.nil_append] at h1
          obtain ⟨r, hr1, hr2⟩ := hget i [lens[i]] (by simp [List.getElem?_map, List.getElem?_eq_getElem hi])
          have g1 : rs.getD i ([], []) = r := by simp [List.getD_eq_getElem?_getD, hr2]
          have g2 : ((rs.map fun r => (lift pre r.1, r.2)).getD i ([], [])) = (lift pre r.1, r.2) := by
            simp [List.getD_eq_getElem?_getD, List.getElem?_map, hr2]
          rw [getD_shapes pre lens i hi, h1, g1, g2]
          exact tileMapping_pre pre h nsd nsd' hn hn' _ _ _ _ (scanShapes_scalar map nsd hn _ r hr1)
        rw [this]
        cases allSome (fun (i : Nat) => tileMapping nsd (layout ++ det) (blocks.getD i []) ((lens.map fun N => [N]).getD i [])
              (rs.getD i ([], [])).1) (List.range lens.length) <;> rfl

theorem unravelF_append : ∀ (s : Shape) (pre : Shape) (i : Nat), pre.prod = 1 → i < s.prod →
    unravelF (s ++ pre) i = unravelF s i ++ pre.map fun _ => 0
  | [], pre, i, h, hi => by
    have hi : i = 0 := by simpa using hi
    subst hi
    have h1 := ones h
    clear h
    induction pre with
    | nil => rfl
    | cons a l ih =>
      have ha := h1 a List.mem_cons_self
      subst ha
      have := ih (fun n hn => h1 n (List.mem_cons_of_mem _ hn))
      simp only [List.nil_append] at this ⊢
      simp [unravelF, this]
  | n :: s, pre, i, h, hi => by
    have hlt : i / n < s.prod := by
      rw [List.prod_cons] at hi
      exact Nat.div_lt_of_lt_mul hi
    rw [List.cons_append]
    unfold unravelF
    rw [unravelF_append s pre (i / n) h hlt, List.cons_append]

/-- Elements of a selection with leading dimensions of length one. -/
theorem unravelC_pre (pre : Shape) (h : pre.prod = 1) (s : Shape) (i : Nat) (hi : i < s.prod) :
    unravelC (pre ++ s) i = (pre.map fun _ => 0) ++ unravelC s i := by
  have hp : pre.reverse.prod = 1 := by rw [List.prod_reverse]; exact h
  have hs : i < s.reverse.prod := by rw [List.prod_reverse]; exact hi
  unfold unravelC unravel
  simp only [Bool.false_eq_true, if_false, List.reverse_append]
  rw [unravelF_append s.reverse pre.reverse i hp hs, List.reverse_append]
  simp

/-- The mappings are those of `checkMapping`. -/
def Sizes (ms : List Mapping) : Prop := ∀ m ∈ ms, (blockShape m.block).prod = m.sel.prod

theorem ravelC_lt : ∀ (s : Shape) (p : List Nat), InB p s → ravelC s p < s.prod
  | [], [], _ => by simp [ravelC]
  | n :: s, i :: p, h => by
    have ih := ravelC_lt s p h.2
    have hi : i < n := h.1
    rw [List.prod_cons]
    unfold ravelC
    have : (i + 1) * s.prod ≤ n * s.prod := Nat.mul_le_mul_right _ hi
    rw [Nat.add_mul] at this
    omega
  | [], _ :: _, h => h.elim
  | _ :: _, [], h => h.elim

theorem inBlock_relative : ∀ (b : Block) (p : List Nat), inBlock b p = true → InB (relative b p) (blockShape b)
  | [], [], _ => trivial
  | (a, c) :: b, p :: ps, h => by
    simp only [inBlock, Bool.and_eq_true, decide_eq_true_eq] at h
    refine ⟨?_, inBlock_relative b ps h.2⟩
    simp only
    omega
  | [], _ :: _, h => by simp [inBlock] at h
  | _ :: _, [], h => by simp [inBlock] at h

theorem readAt_ext (pre : Shape) (h : pre.prod = 1) : ∀ (ms : List Mapping) (i : Nat) (p : List Nat), Sizes ms →
    readAt (ms.map (ext pre)) i p = (readAt ms i p).map fun r => (r.1, (pre.map fun _ => 0) ++ r.2)
  | [], _, _, _ => rfl
  | m :: ms, i, p, hs => by
    rw [List.map_cons]
    unfold readAt
    have hb : (ext pre m).block = m.block := rfl
    have hsel : (ext pre m).sel = pre ++ m.sel := rfl
    rw [hb, hsel]
    by_cases hin : inBlock m.block p = true
    · rw [if_pos hin, if_pos hin]
      have := ravelC_lt _ _ (inBlock_relative _ _ hin)
      rw [hs m List.mem_cons_self] at this
      rw [unravelC_pre pre h _ _ this]
      rfl
    · rw [if_neg hin, if_neg hin]
      exact readAt_ext pre h ms (i + 1) p fun m' hm => hs m' (List.mem_cons_of_mem _ hm)

theorem check_sizes {layout : Shape} {m m' : Mapping} (h : checkMapping layout m = some m') : (blockShape m'.block).prod = m'.sel.prod := by
  unfold checkMapping at h
  split at h
  · next hc => simp only [Option.some.injEq] at h; subst h; exact hc.2
  · simp at h

theorem stackMapping_sizes {layout : Shape} {i : Nat} {s : Shape} {m : Mapping} (h : stackMapping layout i s = some m) :
    (blockShape m.block).prod = m.sel.prod := by
  unfold stackMapping at h
  split at h
  · simp at h
  · split at h
    · simp at h
    · exact check_sizes h

theorem tileMapping_sizes {nsd : Nat} {layout : Shape} {b : Block} {s r : Shape} {m : Mapping} (h : tileMapping nsd layout b s r = some m) :
    (blockShape m.block).prod = m.sel.prod := by
  unfold tileMapping at h
  simp only at h
  split at h
  · simp at h
  · exact check_sizes h

theorem allSome_forall {α β : Type} (f : α → Option β) (P : β → Prop) (hf : ∀ x y, f x = some y → P y) : ∀ (l : List α) (r : List β),
    allSome f l = some r → ∀ y ∈ r, P y
  | [], r, h => by simp [allSome] at h; subst h; simp
  | x :: l, r, h => by
    unfold allSome at h
    cases hx : f x with
    | none => simp [hx] at h
    | some y =>
      cases hr : allSome f l with
      | none => simp [hx, hr] at h
      | some q =>
        simp only [hx, hr, Option.some.injEq] at h
        subst h
        intro z hz
        rcases List.mem_cons.1 hz with rfl | hz
        · exact hf x _ hx
        · exact allSome_forall f P hf l q hr z hz

theorem stackPlan_sizes {map : ShapeMap} {nsd : Nat} {shapes : List Shape} {r : Shape × List Mapping} (h : stackPlan map nsd shapes = some r) :
    Sizes r.2 := by
  unfold stackPlan at h
  split at h
  · simp at h
  · simp only at h
    split at h
    · simp at h
    · next ms hms =>
      simp only [Option.some.injEq] at h
      subst h
      exact allSome_forall _ _ (fun i y hy => stackMapping_sizes hy) _ _ hms

theorem tilePlan_sizes {map : ShapeMap} {tile : Shape} {nsd : Nat} {shapes : List Shape} {r : Shape × List Mapping}
    (h : tilePlan map tile nsd shapes = some r) : Sizes r.2 := by
  unfold tilePlan at h
  split at h
  · simp at h
  · split at h
    · split at h
      · simp at h
      · next ms hms =>
        simp only [Option.some.injEq] at h
        subst h
        exact allSome_forall _ _ (fun i y hy => tileMapping_sizes hy) _ _ hms
    · simp at h

/-- A map of the lengths of scans to a mesh. -/
def meshMap (fast slow : Nat) (lens : List Nat) : ShapeMap := lens.map fun N => (.tuple [N], [fast, slow])

theorem meshMap_get (fast slow : Nat) : ∀ (lens : List Nat) (N : Nat), N ∈ lens → (meshMap fast slow lens).get [N] = [fast, slow]
  | [], _, h => by simp at h
  | M :: l, N, h => by
    unfold meshMap ShapeMap.get
    rw [List.map_cons, List.lookup]
    by_cases he : N = M
    · subst he; simp
    · have hb : (Key.tuple [N] == Key.tuple [M]) = false := by
        rw [beq_eq_false_iff_ne]; simpa using he
      rw [hb]
      have := meshMap_get fast slow l N (by
        rcases List.mem_cons.1 h with e | e
        · exact absurd e he
        · exact e)
      unfold meshMap ShapeMap.get at this
      exact this

/-- Stacks of maps: scans with leading dimensions of length one. -/
theorem stack_mesh_pre (pre : Shape) (h : pre.prod = 1) (map : ShapeMap) (nsd fast slow : Nat) (lens : List Nat) (hne : lens ≠ [])
    (hnsd : pre.length + 1 ≤ nsd) (hf : 0 < fast) (hs : 0 < slow) (hmap : ∀ N ∈ lens, map.get (pre ++ [N]) = [fast, slow])
    (hN : ∀ N ∈ lens, fast ≤ N) :
    ∃ ms, stackPlan map nsd (lens.map fun N => pre ++ [N]) = some ([lens.length, slow, fast], ms) ∧
      ∀ i p e, readAt ms 0 p = some (i, e) ↔
        i < lens.length ∧ ∃ y x, y < min (lens.getD i 0 / fast) slow ∧ x < fast ∧ p = [i, y, x] ∧ e = (pre.map fun _ => 0) ++ [y * fast + x] := by
  obtain ⟨ms, h1, h2⟩ := stack_mesh_partial (meshMap fast slow lens) fast slow lens hne hf hs (meshMap_get fast slow lens) hN
  have hp := stackPlan_pre pre h (meshMap fast slow lens) map 1 nsd (Nat.le_refl 1) hnsd lens hne
    (fun N hN => by rw [hmap N hN, meshMap_get fast slow lens N hN])
  rw [h1] at hp
  refine ⟨_, hp, ?_⟩
  intro i p e
  simp only
  rw [readAt_ext pre h ms 0 p (stackPlan_sizes h1)]
  constructor
  · intro hr
    cases hq : readAt ms 0 p with
    | none => simp [hq] at hr
    | some r =>
      simp only [hq, Option.map_some, Option.some.injEq, Prod.mk.injEq] at hr
      obtain ⟨hi, y, x, a1, a2, a3, a4⟩ := (h2 r.1 p r.2).1 hq
      rw [hr.1] at hi a1 a3
      exact ⟨hi, y, x, a1, a2, a3, by rw [← hr.2, a4]⟩
  · rintro ⟨hi, y, x, a1, a2, a3, a4⟩
    rw [(h2 i p [y * fast + x]).2 ⟨hi, y, x, a1, a2, a3, rfl⟩, Option.map_some, a4]

/-- Mosaics of maps: scans with leading dimensions of length one. -/
theorem tile_mesh_pre (pre : Shape) (h : pre.prod = 1) (map : ShapeMap) (nsd fast slow tf ts : Nat) (lens : List Nat) (hne : lens ≠ [])
    (hnsd : pre.length + 1 ≤ nsd) (hf : 0 < fast) (hmap : ∀ N ∈ lens, map.get (pre ++ [N]) = [fast, slow])
    (hN : ∀ N ∈ lens, fast ≤ N ∧ N ≤ fast * slow) (hcnt : lens.length ≤ tf * ts) :
    ∃ R ms, tilePlan map [tf, ts] nsd (lens.map fun N => pre ++ [N]) = some ([R * ts, fast * tf], ms) ∧
      (∀ i, i < lens.length → lens.getD i 0 / fast ≤ R) ∧ (∃ i, i < lens.length ∧ lens.getD i 0 / fast = R) ∧
      ∀ p0 p1 i e, readAt ms 0 [p0, p1] = some (i, e) ↔
        i < lens.length ∧ ∃ y x, y < lens.getD i 0 / fast ∧ x < fast ∧ p0 = i / tf * R + y ∧ p1 = i % tf * fast + x ∧
          e = (pre.map fun _ => 0) ++ [y * fast + x] := by
  obtain ⟨R, ms, h1, h2, h3, h4⟩ := tile_mesh_partial (meshMap fast slow lens) fast slow tf ts 1 lens (Nat.le_refl 1) hf hne
    (meshMap_get fast slow lens) hN hcnt
  have hp := tilePlan_pre pre h (meshMap fast slow lens) map [tf, ts] 1 nsd (Nat.le_refl 1) hnsd lens
    (fun N hN => by rw [hmap N hN, meshMap_get fast slow lens N hN])
  rw [h1] at hp
  refine ⟨R, _, hp, h2, h3, ?_⟩
  intro p0 p1 i e
  simp only
  rw [readAt_ext pre h ms 0 _ (tilePlan_sizes h1)]
  constructor
  · intro hr
    cases hq : readAt ms 0 [p0, p1] with
    | none => simp [hq] at hr
    | some r =>
      simp only [hq, Option.map_some, Option.some.injEq, Prod.mk.injEq] at hr
      obtain ⟨hi, y, x, a1, a2, a3, a4, a5⟩ := (h4 p0 p1 r.1 r.2).1 hq
      rw [hr.1] at hi a1 a3 a4
      exact ⟨hi, y, x, a1, a2, a3, a4, by rw [← hr.2, a5]⟩
  · rintro ⟨hi, y, x, a1, a2, a3, a4, a5⟩
    rw [(h4 p0 p1 i [y * fast + x]).2 ⟨hi, y, x, a1, a2, a3, a4, rfl⟩, Option.map_some, a5]

end SC.MergeTask
