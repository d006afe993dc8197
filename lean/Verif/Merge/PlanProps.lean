import Verif.Merge.Props
import Mathlib.Algebra.Order.BigOperators.GroupWithZero.List
/-! # C26: the merged datasets, element by element -/
namespace SC.Merge
open SC.Numpy

/-! ## A scan and a mesh -/

/-- Matching the points of a scan with a mesh that has at least as many points. -/
theorem mesh_match (N fast slow : Nat) (keep : Bool) (hf : 0 < fast) (h1 : fast ≤ N) (h2 : N ≤ fast * slow) :
    matchShapes [[N], [fast, slow]] keep =
      if N = fast * slow then some (if keep then [[N], [fast, slow]] else [[], []])
      else some [if N = N / fast * fast then [] else [N / fast * fast], [fast, N / fast]] := by
  have hall : ([[N], [fast, slow]].map List.prod).all (fun (n : Nat) => decide (n = [N].prod)) = decide (N = fast * slow) := by
    simp [eq_comm]
  unfold matchShapes
  simp only [hall]
  by_cases he : N = fast * slow
  · simp [he]
  · have hl : lcmList [1, fast] = fast := by rw [lcmList_pair, Nat.lcm_one_left]
    have hmin : minList [N, fast * slow] = N := by simp [minList, h2]
    have hk : N / fast ≠ 0 := by
      rw [Nat.ne_zero_iff_zero_lt]; exact Nat.div_pos h1 hf
    have hks : N / fast ≠ slow := by
      intro h
      apply he
      have h3 : N / fast * fast ≤ N := Nat.div_mul_le_self N fast
      rw [h, Nat.mul_comm] at h3
      omega
    have hdiv : N / fast * fast / fast = N / fast := Nat.mul_div_cancel _ hf
    simp [he, hl, hmin, hk, hdiv, Ne.symm hks, -Nat.div_eq_zero_iff]

/-- Matching the points of a scan with a mesh that has fewer points. -/
theorem mesh_match_long (N fast slow : Nat) (keep : Bool) (hf : 0 < fast) (hs : 0 < slow) (h2 : fast * slow < N) :
    matchShapes [[N], [fast, slow]] keep = some [[slow * fast], []] := by
  have hall : ([[N], [fast, slow]].map List.prod).all (fun (n : Nat) => decide (n = [N].prod)) = decide (N = fast * slow) := by
    simp [eq_comm]
  have he : ¬ N = fast * slow := by omega
  have hl : lcmList [1, fast] = fast := by rw [lcmList_pair, Nat.lcm_one_left]
  have hmin : minList [N, fast * slow] = fast * slow := by simp [minList]; omega
  have hdiv : fast * slow / fast = slow := Nat.mul_div_cancel_left _ hf
  have hdiv2 : slow * fast / fast = slow := Nat.mul_div_cancel _ hf
  have hne : ¬ N = slow * fast := by rw [Nat.mul_comm]; exact he
  have hs0 : slow ≠ 0 := by omega
  unfold matchShapes
  simp only [hall]
  simp [he, hl, hmin, hdiv, hdiv2, hne, hs0]

theorem scanShapes_mesh (map : ShapeMap) (nsd N fast slow : Nat) (hn : 1 ≤ nsd) (hf : 0 < fast) (hmap : map.get [N] = [fast, slow])
    (h1 : fast ≤ N) (h2 : N ≤ fast * slow) :
    ∃ red, scanShapes map nsd [N] = some (red, [N / fast, fast]) ∧
      (red = [N] ∧ N = N / fast * fast ∨ red = [] ∧ N = N / fast * fast ∨ red = [N / fast * fast]) := by
  have ht : [N].take nsd = [N] := List.take_of_length_le (by simpa using hn)
  unfold scanShapes
  rw [ht, hmap, mesh_match N fast slow true hf h1 h2]
  by_cases he : N = fast * slow
  · have hk : N / fast = slow := by rw [he]; exact Nat.mul_div_cancel_left _ hf
    refine ⟨[N], by simp only [if_pos he, if_true]; simp [hk], Or.inl ⟨rfl, ?_⟩⟩
    rw [hk, Nat.mul_comm]; exact he
  · simp only [if_neg he]
    by_cases hm : N = N / fast * fast
    · exact ⟨[], by rw [if_pos hm]; simp, Or.inr (Or.inl ⟨rfl, hm⟩)⟩
    · exact ⟨[N / fast * fast], by rw [if_neg hm]; simp, Or.inr (Or.inr rfl)⟩

theorem tileMapping_mesh (nsd : Nat) (hn : 1 ≤ nsd) (layout : Shape) (hl : layout.length = 2) (a c k fast N : Nat) (red : Shape)
    (hk : k * fast ≤ N) (hr : red = [N] ∧ N = k * fast ∨ red = [] ∧ N = k * fast ∨ red = [k * fast]) :
    tileMapping nsd layout [(a, a + k), (c, c + fast)] [N] red = some ⟨[k * fast], [(a, a + k), (c, c + fast)]⟩ := by
  have hd : [N].drop nsd = [] := List.drop_eq_nil_of_le (by simpa using hn)
  have hc : checkMapping layout ⟨[k * fast], [(a, a + k), (c, c + fast)]⟩ = some ⟨[k * fast], [(a, a + k), (c, c + fast)]⟩ := by
    unfold checkMapping
    rw [if_pos]
    simp [hl, blockShape]
  unfold tileMapping
  rw [hd]
  rcases hr with ⟨rfl, h⟩ | ⟨rfl, h⟩ | rfl
  · subst h; simp [fromZero, hc]
  · subst h; simp [fromZero, hc, selectSource]
  · by_cases he : k * fast = N
    · subst he; simp [fromZero, hc]
    · simp [he, fromZero, selectSource, hc, min_eq_left hk]

/-! ## Tiling scans -/

/-- A block of the mesh with number `i`. -/
def meshBlock (R fast tf : Nat) (ks : Nat → Nat) (i : Nat) : Block :=
  [(i / tf * R, i / tf * R + ks i), (i % tf * fast, i % tf * fast + fast)]

theorem meshBlock_in (R fast tf : Nat) (ks : Nat → Nat) (i p0 p1 : Nat) :
    inBlock (meshBlock R fast tf ks i) [p0, p1] = true ↔
      ∃ y x, y < ks i ∧ x < fast ∧ p0 = i / tf * R + y ∧ p1 = i % tf * fast + x := by
  simp only [meshBlock, inBlock, Bool.and_true, Bool.and_eq_true, decide_eq_true_eq]
  constructor
  · rintro ⟨⟨h1, h2⟩, h3, h4⟩
    exact ⟨p0 - i / tf * R, p1 - i % tf * fast, by omega, by omega, by omega, by omega⟩
  · rintro ⟨y, x, h1, h2, rfl, rfl⟩
    omega

theorem mesh_read (R fast tf : Nat) (ks : Nat → Nat) (i y x : Nat) (hy : y < ks i) (hx : x < fast) :
    unravelC [ks i * fast] (ravelC (blockShape (meshBlock R fast tf ks i))
      (relative (meshBlock R fast tf ks i) [i / tf * R + y, i % tf * fast + x])) = [y * fast + x] := by
  have hlt : y * fast + x < ks i * fast := by
    have : (y + 1) * fast ≤ ks i * fast := Nat.mul_le_mul_right _ hy
    rw [Nat.add_mul] at this; omega
  simp [meshBlock, blockShape, relative, ravelC, unravelC, unravel, unravelF, Nat.mod_eq_of_lt hlt]

/-- **Tiled maps**: each of the datasets fills its own tile, numbered along the first dimension of the
tile shape; pixel (y, x) of the tile is point y*fast+x of the scan, for all complete rows of the scan;
everything else is the fill value. -/
theorem tile_mesh_partial (map : ShapeMap) (fast slow tf ts nsd : Nat) (lens : List Nat) (hnsd : 1 ≤ nsd) (hf : 0 < fast)
    (hne : lens ≠ []) (hmap : ∀ N ∈ lens, map.get [N] = [fast, slow]) (hN : ∀ N ∈ lens, fast ≤ N ∧ N ≤ fast * slow)
    (hcnt : lens.length ≤ tf * ts) :
    ∃ R ms, tilePlan map [tf, ts] nsd (lens.map fun N => [N]) = some ([R * ts, fast * tf], ms) ∧
      (∀ i, i < lens.length → lens.getD i 0 / fast ≤ R) ∧ (∃ i, i < lens.length ∧ lens.getD i 0 / fast = R) ∧
      ∀ p0 p1 i e, readAt ms 0 [p0, p1] = some (i, e) ↔
        i < lens.length ∧ ∃ y x, y < lens.getD i 0 / fast ∧ x < fast ∧ p0 = i / tf * R + y ∧ p1 = i % tf * fast + x ∧
          e = [y * fast + x] := by
  have hget : ∀ i, i < lens.length → lens.getD i 0 ∈ lens := by
    intro i hi; simp [List.getD_eq_getElem?_getD, hi]
  -- scan shapes
  have hscan : ∀ N ∈ lens, ∃ red, scanShapes map nsd [N] = some (red, [N / fast, fast]) ∧
      (red = [N] ∧ N = N / fast * fast ∨ red = [] ∧ N = N / fast * fast ∨ red = [N / fast * fast]) :=
    fun N hm => scanShapes_mesh map nsd N fast slow hnsd hf (hmap N hm) (hN N hm).1 (hN N hm).2
  choose! red hred using hscan
  have hrs : allSome (scanShapes map nsd) (lens.map fun N => [N]) = some (lens.map fun N => (red N, [N / fast, fast])) := by
    have := allSome_eq (scanShapes map nsd) (fun s => (red (s.headD 0), [s.headD 0 / fast, fast])) (lens.map fun N => [N])
      (fun s hs => by
        obtain ⟨N, hm, rfl⟩ := List.mem_map.1 hs
        simpa using (hred N hm).1)
    rw [this, List.map_map]
    rfl
  -- largest shape
  have hmax : ∃ R, maxShape (lens.map fun N => [N / fast, fast]) = some [R, fast] ∧
      (∀ N ∈ lens, N / fast ≤ R) ∧ ∃ N ∈ lens, N / fast = R := by
    obtain ⟨m, hm, hml⟩ := maxShape_some (lens.map fun N => [N / fast, fast]) 2 (by simpa using hne)
      (fun s hs => by obtain ⟨N, _, rfl⟩ := List.mem_map.1 hs; rfl)
    match m, hml with
    | [R, F], _ =>
      have h0 := max_spec _ _ hm 0
      have h1 := max_spec _ _ hm 1
      have hF : F = fast := by
        obtain ⟨s, hs, he⟩ := h1.2
        obtain ⟨N, _, rfl⟩ := List.mem_map.1 hs
        simpa using he.symm
      subst hF
      refine ⟨R, hm, fun N hm => ?_, ?_⟩
      · simpa using (h0.1 _ (List.mem_map_of_mem hm)).2
      · obtain ⟨s, hs, he⟩ := h0.2
        obtain ⟨N, hm, rfl⟩ := List.mem_map.1 hs
        exact ⟨N, hm, by simpa using he⟩
  obtain ⟨R, hmx, hle, N0, hN0, hN0R⟩ := hmax
  -- tile indices
  have hti : tileIndices [ts, tf] (lens.map fun N => [N / fast, fast]) false =
      some ([R * ts, fast * tf], (List.range lens.length).map fun (i : Nat) => meshBlock R fast tf (fun i => lens.getD i 0 / fast) i) := by
    unfold tileIndices
    have hp : (lens.map fun N => [N / fast, fast]).length ≤ [ts, tf].prod := by
      simp; rw [Nat.mul_comm]; exact hcnt
    have hmul : mulVec [R, fast] [ts, tf] = some [R * ts, fast * tf] := rfl
    simp only [hmx, hmul]
    rw [if_pos hp, List.length_map]
    congr 2
    apply List.map_congr_left
    intro i hi
    have hi := List.mem_range.1 hi
    have e1 : (lens.map fun N => [N / fast, fast]).getD i [] = [lens.getD i 0 / fast, fast] := by
      simp [List.getD_eq_getElem?_getD, List.getElem?_map, List.getElem?_eq_getElem hi]
    have e2 : unravel false [ts, tf] i = [i / tf, i % tf] := by
      have htf : 0 < tf := by
        rcases Nat.eq_zero_or_pos tf with h | h
        · rw [h] at hcnt; simp at hcnt; exact absurd hcnt hne
        · exact h
      have : i / tf < ts := Nat.div_lt_of_lt_mul (lt_of_lt_of_le hi hcnt)
      simp [unravel, unravelF, Nat.mod_eq_of_lt this]
    rw [e1, e2]
    rfl
  have hdet : maxShape ((lens.map fun N => [N]).map (·.drop nsd)) = some [] := by
    obtain ⟨m, hm, hml⟩ := maxShape_some ((lens.map fun N => [N]).map (·.drop nsd)) 0 (by simpa using hne)
      (fun s hs => by
        obtain ⟨t, ht, rfl⟩ := List.mem_map.1 hs
        obtain ⟨N, _, rfl⟩ := List.mem_map.1 ht
        simp; omega)
    rw [hm, List.length_eq_zero_iff.1 hml]
  -- the mappings
  let g : Nat → Mapping := fun i => ⟨[lens.getD i 0 / fast * fast], meshBlock R fast tf (fun i => lens.getD i 0 / fast) i⟩
  have hms : allSome (fun (i : Nat) => tileMapping nsd ([R * ts, fast * tf] ++ [])
      (((List.range lens.length).map fun (i : Nat) => meshBlock R fast tf (fun i => lens.getD i 0 / fast) i).getD i [])
      ((lens.map fun N => [N]).getD i []) ((lens.map fun N => (red N, [N / fast, fast])).getD i ([], [])).1)
      (List.range (lens.map fun N => [N]).length) = some ((List.range lens.length).map g) := by
    rw [List.length_map]
    apply allSome_eq
    intro i hi
    have hi := List.mem_range.1 hi
    have e1 : ((List.range lens.length).map fun (i : Nat) => meshBlock R fast tf (fun i => lens.getD i 0 / fast) i).getD i [] =
        meshBlock R fast tf (fun i => lens.getD i 0 / fast) i := by
      rw [List.getD_eq_getElem?_getD, List.getElem?_map, List.getElem?_range hi]; rfl
    have e2 : (lens.map fun N => [N]).getD i [] = [lens.getD i 0] := by
      simp [List.getD_eq_getElem?_getD, List.getElem?_map, List.getElem?_eq_getElem hi]
    have e3 : (lens.map fun N => (red N, [N / fast, fast])).getD i ([], []) = (red (lens.getD i 0), [lens.getD i 0 / fast, fast]) := by
      simp [List.getD_eq_getElem?_getD, List.getElem?_map, List.getElem?_eq_getElem hi]
    rw [e1, e2, e3]
    exact tileMapping_mesh nsd hnsd _ rfl _ _ _ fast _ _ (Nat.div_mul_le_self _ _) (hred _ (hget i hi)).2
  refine ⟨R, (List.range lens.length).map g, ?_, fun i hi => hle _ (hget i hi), ?_, ?_⟩
  · unfold tilePlan
    rw [hrs]
    simp only [List.map_map]
    have e : List.map (Prod.snd ∘ fun N => (red N, [N / fast, fast])) lens = lens.map fun N => [N / fast, fast] := rfl
    have e' : List.map ((fun x => List.drop nsd x) ∘ fun N => [N]) lens = (lens.map fun N => [N]).map (·.drop nsd) := by
      rw [List.map_map]
    rw [e, e', show [tf, ts].reverse = [ts, tf] from rfl, hti, hdet]
    simp only
    rw [hms]
    rfl
  · obtain ⟨i, hi, rfl⟩ := List.getElem_of_mem hN0
    exact ⟨i, hi, by simpa [List.getD_eq_getElem?_getD, hi] using hN0R⟩
  · have hg : ∀ i, ((List.range lens.length).map g)[i]? = if i < lens.length then some (g i) else none := by
      intro i
      by_cases hi : i < lens.length
      · rw [List.getElem?_map, List.getElem?_range hi, if_pos hi]; rfl
      · rw [List.getElem?_eq_none (by simpa using hi), if_neg hi]
    intro p0 p1 i e
    constructor
    · intro h
      obtain ⟨m, _, h2, h3, h4⟩ := readAt_inv _ _ _ _ _ h
      rw [Nat.sub_zero, hg] at h2
      by_cases hi : i < lens.length
      · rw [if_pos hi] at h2
        have h2 := (Option.some.inj h2).symm
        subst h2
        obtain ⟨y, x, hy, hx, rfl, rfl⟩ := (meshBlock_in R fast tf (fun i => lens.getD i 0 / fast) i p0 p1).1 h3
        refine ⟨hi, y, x, hy, hx, rfl, rfl, ?_⟩
        rw [h4]
        exact mesh_read R fast tf (fun i => lens.getD i 0 / fast) i y x hy hx
      · rw [if_neg hi] at h2; simp at h2
    · rintro ⟨hi, y, x, hy, hx, rfl, rfl, rfl⟩
      have := readAt_some ((List.range lens.length).map g) 0 i [i / tf * R + y, i % tf * fast + x] (g i) (by rw [hg, if_pos hi])
        ((meshBlock_in R fast tf (fun i => lens.getD i 0 / fast) i _ _).2 ⟨y, x, hy, hx, rfl, rfl⟩)
        (fun j m' hj hm => by
          rw [hg, if_pos (by omega)] at hm
          have hm := (Option.some.inj hm).symm
          subst hm
          by_contra hb
          obtain ⟨y', x', hy', hx', h1, h2⟩ := (meshBlock_in R fast tf (fun i => lens.getD i 0 / fast) j _ _).1 (Bool.eq_true_of_not_eq_false hb)
          have hyR := hle _ (hget i hi)
          have hyR' := hle _ (hget j (by omega))
          have q1 : i / tf = j / tf := tile_unique (m := R) (x := i / tf * R + y) (by omega) (by omega) (by omega) (by omega)
          have q2 : i % tf = j % tf := tile_unique (m := fast) (x := i % tf * fast + x) (by omega) (by omega) (by omega) (by omega)
          have r1 := Nat.div_add_mod i tf
          have r2 := Nat.div_add_mod j tf
          rw [q1, q2] at r1
          omega)
      rw [this, Nat.zero_add]
      congr 2
      exact mesh_read R fast tf (fun i => lens.getD i 0 / fast) i y x hy hx

/-- **Points of an incomplete row are lost**: they are nowhere in the merged dataset. -/
theorem tile_incomplete_loses (map : ShapeMap) (fast slow tf ts nsd : Nat) (lens : List Nat) (hnsd : 1 ≤ nsd) (hf : 0 < fast)
    (hne : lens ≠ []) (hmap : ∀ N ∈ lens, map.get [N] = [fast, slow]) (hN : ∀ N ∈ lens, fast ≤ N ∧ N ≤ fast * slow)
    (hcnt : lens.length ≤ tf * ts) (i k : Nat) (hk : lens.getD i 0 / fast * fast ≤ k) :
    ∃ layout ms, tilePlan map [tf, ts] nsd (lens.map fun N => [N]) = some (layout, ms) ∧
      ∀ p0 p1, readAt ms 0 [p0, p1] ≠ some (i, [k]) := by
  obtain ⟨R, ms, h1, _, _, h4⟩ := tile_mesh_partial map fast slow tf ts nsd lens hnsd hf hne hmap hN hcnt
  refine ⟨_, ms, h1, fun p0 p1 h => ?_⟩
  obtain ⟨_, y, x, hy, hx, _, _, he⟩ := (h4 p0 p1 i [k]).1 h
  have he : k = y * fast + x := by simpa using he
  have : (y + 1) * fast ≤ lens.getD i 0 / fast * fast := Nat.mul_le_mul_right _ hy
  rw [Nat.add_mul] at this
  omega

/-! ## Stacking scans -/

theorem maxShape_cons (d : Shape) : ∀ (lens : List Nat), lens ≠ [] →
    ∃ R, maxShape (lens.map (· :: d)) = some (R :: d) ∧ (∀ N ∈ lens, N ≤ R) ∧ R ∈ lens
  | [N], _ => ⟨N, rfl, by simp, by simp⟩
  | N :: M :: l, _ => by
    obtain ⟨R, h1, h2, h3⟩ := maxShape_cons d (M :: l) (by simp)
    have hz : ∀ d : List Nat, List.zipWith max d d = d := by
      intro d; induction d with
      | nil => rfl
      | cons x d ih => simp [ih]
    refine ⟨max N R, ?_, ?_, ?_⟩
    · have h1' : maxShape ((M :: d) :: l.map (· :: d)) = some (R :: d) := h1
      show maxShape ((N :: d) :: (M :: d) :: l.map (· :: d)) = _
      simp [maxShape, h1', hz]
    · intro x hx
      rcases List.mem_cons.1 hx with rfl | hx
      · exact le_max_left _ _
      · exact le_trans (h2 x hx) (le_max_right _ _)
    · rcases le_total N R with h | h
      · rw [max_eq_right h]; exact List.mem_cons_of_mem _ h3
      · rw [max_eq_left h]; simp

/-- Matching a dataset with a layout that has at least as many points and the same detector. -/
theorem stack_match (N R : Nat) (d : Shape) (hN : 0 < N) (hd : 0 < d.prod) (h : N ≤ R) :
    layoutSlicing (N :: d) (R :: d).reverse = some ([], if N = R then [] else d.reverse ++ [N]) := by
  have hp2 : (R :: d).reverse.prod = d.prod * R := by simp [List.prod_append, List.prod_reverse]
  have hall : ([N :: d, (R :: d).reverse].map List.prod).all (fun (n : Nat) => decide (n = (N :: d).prod)) = decide (N = R) := by
    have hdec : decide ((R :: d).reverse.prod = (N :: d).prod) = decide (N = R) := by
      apply decide_eq_decide.2
      rw [hp2, List.prod_cons]
      constructor
      · intro h
        rw [Nat.mul_comm N] at h
        exact (Nat.eq_of_mul_eq_mul_left hd h).symm
      · intro h
        rw [h, Nat.mul_comm]
    simp only [List.map_cons, List.map_nil, List.all_cons, List.all_nil, Bool.and_true, hdec, decide_true, Bool.true_and]
  unfold layoutSlicing matchShapes
  simp only [hall]
  by_cases he : N = R
  · subst he; simp
  · have hmin : minList ([N :: d, (R :: d).reverse].map List.prod) = d.prod * N := by
      simp only [List.map_cons, List.map_nil, minList, hp2, List.prod_cons]
      rw [Nat.mul_comm N]; exact min_eq_left (Nat.mul_le_mul_left _ h)
    have hdl : (R :: d).reverse.dropLast = d.reverse := by simp
    have hc1 : (N :: d).prod = (N :: d).dropLast.prod * (N :: d).getLastD 0 := prod_dropLast _ (by simp)
    have hpos : 0 < d.prod * N := Nat.mul_pos hd hN
    have hc1' : d.prod * N = (N :: d).dropLast.prod * (N :: d).getLastD 0 := by rw [← hc1, List.prod_cons, Nat.mul_comm]
    have hc1pos : 0 < (N :: d).dropLast.prod := by
      rcases Nat.eq_zero_or_pos (N :: d).dropLast.prod with hz | hz
      · rw [hz] at hc1'; omega
      · exact hz
    generalize hL : lcmList ([N :: d, (R :: d).reverse].map fun s => s.dropLast.prod) = L
    have hLd : L ∣ d.prod * N := by
      rw [← hL]
      apply lcmList_dvd
      intro x hx
      simp only [List.map_cons, List.map_nil, List.mem_cons, List.not_mem_nil, or_false, hdl, List.prod_reverse] at hx
      rcases hx with rfl | rfl
      · exact Dvd.intro _ hc1'.symm
      · exact Dvd.intro _ rfl
    have hn : d.prod * N / L * L = d.prod * N := Nat.div_mul_cancel hLd
    have hn0 : d.prod * N / L ≠ 0 := by
      intro h0; rw [h0] at hn; omega
    have hnew1 : (N :: d).dropLast ++ [d.prod * N / (N :: d).dropLast.prod] = N :: d := by
      rw [hc1', Nat.mul_div_cancel_left _ hc1pos]
      conv_rhs => rw [← List.dropLast_append_getLast (show N :: d ≠ [] by simp)]
      rw [List.getLastD_eq_getLast?, List.getLast?_eq_some_getLast (show N :: d ≠ [] by simp)]
      rfl
    have hnew2 : (R :: d).reverse.dropLast ++ [d.prod * N / (R :: d).reverse.dropLast.prod] = d.reverse ++ [N] := by
      rw [hdl, List.prod_reverse, Nat.mul_div_cancel_left _ hd]
    have hne : ¬ (R :: d).reverse = d.reverse ++ [N] := by
      rw [List.reverse_cons]
      intro h
      have := List.append_cancel_left h
      simp at this
      omega
    simp only [hL, hmin, hn]
    simp only [decide_eq_true_eq, if_neg he, if_neg hn0, List.map_cons, List.map_nil, hnew1, hnew2, if_neg hne, if_true]

theorem fromZero_in : ∀ (s : Shape) (q : List Nat), inBlock (fromZero s) q = true ↔ InB q s
  | [], [] => by simp [fromZero, inBlock, InB]
  | [], _ :: _ => by simp [fromZero, inBlock, InB]
  | _ :: _, [] => by simp [fromZero, inBlock, InB]
  | n :: s, x :: q => by
    have := fromZero_in s q
    simp only [fromZero] at this
    simp [fromZero, inBlock, InB, this]

theorem fromZero_relative : ∀ (s : Shape) (q : List Nat), q.length = s.length → relative (fromZero s) q = q
  | [], [], _ => rfl
  | n :: s, x :: q, h => by
    have := fromZero_relative s q (by simpa using h)
    simp only [fromZero] at this
    simp [fromZero, relative, this]

theorem fromZero_shape (s : Shape) : blockShape (fromZero s) = s := by
  simp [blockShape, fromZero, Function.comp_def]

/-- Reading a stack of mappings whose blocks start at zero. -/
theorem stack_read (n : Nat) (sel dst : Nat → Shape) (i : Nat) (p e : List Nat) :
    readAt ((List.range n).map fun (i : Nat) => ⟨sel i, (i, i + 1) :: fromZero (dst i)⟩) 0 p = some (i, e) ↔
      i < n ∧ ∃ q, p = i :: q ∧ InB q (dst i) ∧ e = unravelC (sel i) (ravelC (dst i) q) := by
  have hg : ∀ j, ((List.range n).map fun (i : Nat) => (⟨sel i, (i, i + 1) :: fromZero (dst i)⟩ : Mapping))[j]? =
      if j < n then some ⟨sel j, (j, j + 1) :: fromZero (dst j)⟩ else none := by
    intro j
    by_cases hj : j < n
    · rw [List.getElem?_map, List.getElem?_range hj, if_pos hj]; rfl
    · rw [List.getElem?_eq_none (by simpa using hj), if_neg hj]
  have hval : ∀ q, InB q (dst i) → ravelC (blockShape ((i, i + 1) :: fromZero (dst i))) (relative ((i, i + 1) :: fromZero (dst i)) (i :: q)) =
      ravelC (dst i) q := by
    intro q hq
    have h1 : blockShape ((i, i + 1) :: fromZero (dst i)) = 1 :: dst i := by
      have := fromZero_shape (dst i)
      unfold blockShape at this ⊢
      rw [List.map_cons, this]
      simp
    rw [h1, relative, fromZero_relative _ _ hq.length, ravelC]
    simp
  constructor
  · intro h
    obtain ⟨m, _, h2, h3, h4⟩ := readAt_inv _ _ _ _ _ h
    rw [Nat.sub_zero, hg] at h2
    by_cases hi : i < n
    · rw [if_pos hi] at h2
      have h2 := (Option.some.inj h2).symm
      subst h2
      cases p with
      | nil => simp [inBlock] at h3
      | cons x q =>
        simp only [inBlock, Bool.and_eq_true, decide_eq_true_eq, fromZero_in] at h3
        have : x = i := by omega
        subst this
        exact ⟨hi, q, rfl, h3.2, by rw [h4, hval q h3.2]⟩
    · rw [if_neg hi] at h2; simp at h2
  · rintro ⟨hi, q, rfl, hq, rfl⟩
    have := readAt_some ((List.range n).map fun (i : Nat) => ⟨sel i, (i, i + 1) :: fromZero (dst i)⟩) 0 i (i :: q)
      ⟨sel i, (i, i + 1) :: fromZero (dst i)⟩ (by rw [hg, if_pos hi]) (by simp [inBlock, fromZero_in, hq])
      (fun j m' hj hm => by
        rw [hg, if_pos (by omega)] at hm
        have hm := (Option.some.inj hm).symm
        subst hm
        have hne : ¬ i < j + 1 := by omega
        simp only [inBlock, hne, decide_false, Bool.and_false, Bool.false_and])
    rw [this, hval q hq, Nat.zero_add]

/-- **Stacked scans**: datasets of any lengths with the same detector keep all their elements in place. -/
theorem stack_same_partial (map : ShapeMap) (d : Shape) (lens : List Nat) (hne : lens ≠ [])
    (hmap : ∀ N ∈ lens, map.get [N] = [N]) (hN : ∀ N ∈ lens, 0 < N) (hd : ∀ n ∈ d, 0 < n) :
    ∃ R ms, stackPlan map 1 (lens.map (· :: d)) = some (lens.length :: R :: d, ms) ∧ (∀ N ∈ lens, N ≤ R) ∧ R ∈ lens ∧
      ∀ i p e, readAt ms 0 p = some (i, e) ↔ i < lens.length ∧ InB e (lens.getD i 0 :: d) ∧ p = i :: e := by
  obtain ⟨R, hR, hle, hmem⟩ := maxShape_cons d lens hne
  have hdp : 0 < d.prod := List.prod_pos hd
  have hget : ∀ i, i < lens.length → lens.getD i 0 ∈ lens := by
    intro i hi; simp [List.getD_eq_getElem?_getD, hi]
  have hms : allSome (fun (i : Nat) => stackMapping (lens.length :: R :: d) i ((lens.map (· :: d)).getD i [])) (List.range lens.length) =
      some ((List.range lens.length).map fun (i : Nat) =>
        ⟨lens.getD i 0 :: d, (i, i + 1) :: fromZero (lens.getD i 0 :: d)⟩) := by
    apply allSome_eq
    intro i hi
    have hi := List.mem_range.1 hi
    have e1 : (lens.map (· :: d)).getD i [] = lens.getD i 0 :: d := by
      simp [List.getD_eq_getElem?_getD, List.getElem?_map, List.getElem?_eq_getElem hi]
    rw [e1]
    unfold stackMapping
    rw [List.tail_cons, stack_match _ R d (hN _ (hget i hi)) hdp (hle _ (hget i hi))]
    have hblock : (if (if lens.getD i 0 = R then [] else d.reverse ++ [lens.getD i 0]) = [] then fromZero (R :: d)
        else fromZero (if lens.getD i 0 = R then [] else d.reverse ++ [lens.getD i 0]).reverse) = fromZero (lens.getD i 0 :: d) := by
      by_cases he : lens.getD i 0 = R
      · rw [if_pos he, if_pos rfl, he]
      · rw [if_neg he, if_neg (by simp)]
        simp
    simp only [if_true, hblock]
    unfold checkMapping
    rw [if_pos]
    refine ⟨by simp [fromZero], ?_⟩
    have := fromZero_shape (lens.getD i 0 :: d)
    unfold blockShape at this ⊢
    rw [List.map_cons, this]
    simp
  refine ⟨R, (List.range lens.length).map fun (i : Nat) =>
    ⟨lens.getD i 0 :: d, (i, i + 1) :: fromZero (lens.getD i 0 :: d)⟩, ?_, hle, hmem, ?_⟩
  · unfold stackPlan
    rw [hR]
    simp only [List.take_succ_cons, List.take_zero, List.drop_succ_cons, List.drop_zero, hmap R hmem, List.length_map]
    rw [show [R].reverse ++ d = R :: d from rfl, hms]
  · intro i p e
    rw [stack_read lens.length (fun i => lens.getD i 0 :: d) (fun i => lens.getD i 0 :: d)]
    constructor
    · rintro ⟨hi, q, rfl, hq, rfl⟩
      refine ⟨hi, ?_, ?_⟩
      · rw [unravelC_ravelC _ _ hq]; exact hq
      · rw [unravelC_ravelC _ _ hq]
    · rintro ⟨hi, hq, rfl⟩
      exact ⟨hi, e, rfl, hq, (unravelC_ravelC _ _ hq).symm⟩

/-- **Stacked maps**: scans without detector are reshaped to the mesh; pixel (y, x) of map `i` is point
y*fast+x of scan `i`, for all complete rows of the scan that are in the mesh. -/
theorem stack_mesh_partial (map : ShapeMap) (fast slow : Nat) (lens : List Nat) (hne : lens ≠ []) (hf : 0 < fast) (hs : 0 < slow)
    (hmap : ∀ N ∈ lens, map.get [N] = [fast, slow]) (hN : ∀ N ∈ lens, fast ≤ N) :
    ∃ ms, stackPlan map 1 (lens.map fun N => [N]) = some ([lens.length, slow, fast], ms) ∧
      ∀ i p e, readAt ms 0 p = some (i, e) ↔
        i < lens.length ∧ ∃ y x, y < min (lens.getD i 0 / fast) slow ∧ x < fast ∧ p = [i, y, x] ∧ e = [y * fast + x] := by
  obtain ⟨R, hR, hle, hmem⟩ := maxShape_cons [] lens hne
  have hget : ∀ i, i < lens.length → lens.getD i 0 ∈ lens := by
    intro i hi; simp [List.getD_eq_getElem?_getD, hi]
  have hms : allSome (fun (i : Nat) => stackMapping [lens.length, slow, fast] i ((lens.map fun N => [N]).getD i [])) (List.range lens.length) =
      some ((List.range lens.length).map fun (i : Nat) =>
        ⟨[min (lens.getD i 0 / fast) slow * fast], (i, i + 1) :: fromZero [min (lens.getD i 0 / fast) slow, fast]⟩) := by
    apply allSome_eq
    intro i hi
    have hi := List.mem_range.1 hi
    have e1 : (lens.map fun N => [N]).getD i [] = [lens.getD i 0] := by
      simp [List.getD_eq_getElem?_getD, List.getElem?_map, List.getElem?_eq_getElem hi]
    rw [e1]
    have h1 := hN _ (hget i hi)
    generalize lens.getD i 0 = N at h1
    have hc : ∀ k, checkMapping [lens.length, slow, fast] ⟨[k * fast], (i, i + 1) :: fromZero [k, fast]⟩ =
        some ⟨[k * fast], (i, i + 1) :: fromZero [k, fast]⟩ := by
      intro k
      unfold checkMapping
      rw [if_pos]
      simp [fromZero, blockShape]
    unfold stackMapping layoutSlicing
    rw [show [lens.length, slow, fast].tail.reverse = [fast, slow] from rfl]
    rcases Nat.lt_or_ge (fast * slow) N with h2 | h2
    · rw [mesh_match_long N fast slow false hf hs h2]
      have hk : min (N / fast) slow = slow := min_eq_right (by
        rw [Nat.le_div_iff_mul_le hf, Nat.mul_comm]; omega)
      rw [hk]
      have hsel : selectSource [N] [slow * fast] = some [slow * fast] := by
        simp [selectSource]; rw [Nat.mul_comm]; omega
      simp [hsel, hc]
    · rw [mesh_match N fast slow false hf h1 h2]
      have hkle : N / fast ≤ slow := Nat.div_le_of_le_mul h2
      rw [min_eq_left hkle]
      by_cases he : N = fast * slow
      · have hk : N / fast = slow := by rw [he]; exact Nat.mul_div_cancel_left _ hf
        have hN' : N = slow * fast := by rw [Nat.mul_comm]; exact he
        rw [if_pos he, hk]
        simp only [Bool.false_eq_true, if_false, if_true]
        rw [hN']
        exact hc slow
      · rw [if_neg he]
        by_cases hm : N = N / fast * fast
        · have := hc (N / fast)
          rw [← hm] at this ⊢
          simpa using this
        · have hsel : selectSource [N] [N / fast * fast] = some [N / fast * fast] := by
            simp [selectSource, Nat.div_mul_le_self]
          simp [hm, hsel, hc]
  refine ⟨(List.range lens.length).map fun (i : Nat) =>
    ⟨[min (lens.getD i 0 / fast) slow * fast], (i, i + 1) :: fromZero [min (lens.getD i 0 / fast) slow, fast]⟩, ?_, ?_⟩
  · unfold stackPlan
    rw [hR]
    simp only [List.take_succ_cons, List.take_zero, List.drop_succ_cons, List.drop_zero, hmap R hmem, List.length_map]
    rw [show lens.length :: ([fast, slow].reverse ++ []) = [lens.length, slow, fast] from rfl, hms]
  · intro i p e
    rw [stack_read lens.length (fun i => [min (lens.getD i 0 / fast) slow * fast]) (fun i => [min (lens.getD i 0 / fast) slow, fast])]
    have hval : ∀ k y x, y < k → x < fast → unravelC [k * fast] (ravelC [k, fast] [y, x]) = [y * fast + x] := by
      intro k y x hy hx
      have hlt : y * fast + x < k * fast := by
        have : (y + 1) * fast ≤ k * fast := Nat.mul_le_mul_right _ hy
        rw [Nat.add_mul] at this; omega
      simp [ravelC, unravelC, unravel, unravelF, Nat.mod_eq_of_lt hlt]
    constructor
    · rintro ⟨hi, q, rfl, hq, rfl⟩
      match q, hq with
      | [y, x], hq =>
        have h1 : y < min (lens.getD i 0 / fast) slow := hq.1
        have h2 : x < fast := hq.2.1
        exact ⟨hi, y, x, h1, h2, rfl, hval _ y x h1 h2⟩
    · rintro ⟨hi, y, x, h1, h2, rfl, rfl⟩
      exact ⟨hi, [y, x], rfl, ⟨h1, h2, trivial⟩, (hval _ y x h1 h2).symm⟩

/-! ## Deviations and concrete cases -/

/-- The map of the unit test: scans of 63, 62 and 61 points on a mesh of 9 times 7. -/
def testMap : ShapeMap := [(.tuple [63], [9, 7]), (.tuple [62], [9, 7]), (.tuple [61], [9, 7])]

-- a case of the hypotheses of `tile_mesh_partial`, and of the claim
example : (∀ N ∈ [63, 62, 61, 63, 63], testMap.get [N] = [9, 7]) ∧ (∀ N ∈ [63, 62, 61, 63, 63], 9 ≤ N ∧ N ≤ 9 * 7) := by decide
example : (tilePlan testMap [2, 3] 2 [[63], [62], [61], [63], [63]]).map Prod.fst = some [21, 18] := by decide
example : (tilePlan testMap [2, 3] 2 [[63], [62], [61], [63], [63]]).bind (fun r => readAt r.2 0 [8, 3]) = some (2, [12]) := by decide

/-- **Deviation**: the mesh of a Bliss scan is never used: its key is the number of points, while the
look-up is done with a tuple. -/
theorem bliss_not_reshaped (fast slow : Nat) (s : Shape) : (blissShapeMap fast slow).get s = s := by
  have : (Key.tuple s == Key.int (fast * slow)) = false := by simp
  simp [blissShapeMap, ShapeMap.get, List.lookup, this]

/-- **Deviation**: an incomplete map with a detector cannot be tiled: the detector indices are appended
twice. -/
theorem tile_detector_raises : tilePlan [(.tuple [62], [9, 7])] [1, 1] 1 [[62, 5]] = none ∧
    (tilePlan [(.tuple [63], [9, 7])] [1, 1] 1 [[63, 5]]).isSome = true := by decide

/-- **Deviation**: a scan with more points than the mesh cannot be tiled: the mesh is returned as the
empty tuple. -/
theorem tile_long_raises : tilePlan [(.tuple [70], [9, 7])] [2, 2] 1 [[70]] = none := by decide

/-- **Deviation**: one scan with less than one row makes the whole merge fail. -/
theorem tile_short_raises : tilePlan [(.tuple [63], [9, 7]), (.tuple [8], [9, 7])] [2, 1] 1 [[63], [8]] = none := by decide

/-- **Deviation**: stacking datasets of different detector shapes succeeds and moves the elements:
row 0, channel 4 of the first dataset is its row 1, channel 0. -/
theorem stack_scrambles : (stackPlan [] 1 [[6, 4], [6, 8]]).bind (fun r => readAt r.2 0 [0, 0, 4]) = some (0, [1, 0]) := by decide

/-- **Deviation**: an incomplete map with a detector is cut along the detector instead of along the
scan, and its elements move: point 1, channel 0 of the map is channel 1 of point 1 of the scan. -/
theorem stack_mesh_scrambles :
    (stackPlan [(.tuple [10], [5, 2])] 1 [[10, 6], [6, 6]]).bind (fun r => readAt r.2 0 [1, 0, 1, 0]) = some (1, [1, 1]) := by decide

-- a case of `stack_same_partial`
example : (stackPlan [] 1 [[6, 3], [4, 3]]).bind (fun r => readAt r.2 0 [1, 3, 2]) = some (1, [3, 2]) := by decide
example : (stackPlan [] 1 [[6, 3], [4, 3]]).bind (fun r => readAt r.2 0 [1, 4, 2]) = none := by decide

end SC.Merge
