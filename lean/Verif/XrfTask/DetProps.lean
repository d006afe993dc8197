import Verif.XrfTask.AddProps
import Verif.Grid.GroupProps
import Mathlib.Data.List.Perm.Subperm
/-! # Properties of the choice of detectors and corrections -/
namespace SC.XrfTask
open SC.Py SC.Naming SC.Grid
open SC.Xia (pyInt strInt)

/-! ## corrections -/

/-- Every correction that is asked for is made exactly once, before or after the fit, and no other. -/
theorem corrections_once (p : Params) (addspectra : Bool) :
    let f := flags p addspectra
    (p.dtcor = true → f.dtbefore ≠ f.dtafter) ∧ (p.dtcor = false → f.dtbefore = false ∧ f.dtafter = false) ∧
    (p.fluxnorm = true → f.fluxbefore ≠ f.fluxafter) ∧ (p.fluxnorm = false → f.fluxbefore = false ∧ f.fluxafter = false) := by
  cases p with
  | mk a b c d e g => cases d <;> cases e <;> cases g <;> cases addspectra <;> simp [flags]

example : flags ⟨[], true, true, true, false, true⟩ false = ⟨false, true, false, true, false⟩ ∧
    flags ⟨[], true, true, true, false, true⟩ true = ⟨true, false, false, true, true⟩ := by decide

/-- New spectra are made exactly when they differ from the raw ones; dead time is corrected after the fit
only when raw spectra are fitted, so that the counts of the raw files belong to the fitted images.  Sums
of spectra are corrected before they are added. -/
theorem corrections_spectra (p : Params) (addspectra : Bool) :
    let f := flags p addspectra
    (f.newspectra = true ↔ f.dtbefore = true ∨ f.fluxbefore = true ∨ addspectra = true) ∧
    (f.dtafter = true → f.newspectra = false) ∧ (addspectra = true → p.dtcor = true → f.dtbefore = true) := by
  cases p with
  | mk a b c d e g => cases d <;> cases e <;> cases g <;> cases addspectra <;> simp [flags]

example : (flags ⟨[], true, true, true, false, true⟩ false).dtafter = true := by decide

/-! ## detectors -/

theorem set_new {K V : Type} [DecidableEq K] (d : Dict K V) (k : K) (v : V) (h : k ∉ Dict.keys d) : Dict.set d k v = d ++ [(k, v)] := by
  induction d with
  | nil => rfl
  | cons p d ih =>
    obtain ⟨x, y⟩ := p
    simp only [Dict.keys, List.map_cons, List.mem_cons, not_or] at h
    simp only [Dict.set, Ne.symm h.1, if_false, List.cons_append, List.cons.injEq, true_and]
    exact ih h.2

theorem sumGroup_eq (n : Int) : sumGroup n = some (sumDet n) := by
  unfold sumGroup grpOf
  have h0 : SC.Grid.dropPrefix SC.Grid.det (SC.Grid.dropPrefix SC.Grid.xia ('S' :: strInt n)) = 'S' :: strInt n := by
    simp [SC.Grid.dropPrefix, List.isPrefixOf]
  simp only
  rw [grpOfStr_core, h0, core_S, intOf_str]
  rfl

theorem sumDet_inj {n m : Int} : sumDet n = sumDet m ↔ n = m := ⟨fun h => congrArg Grp.number h, fun h => by rw [h]⟩
theorem detG_inj {n m : Int} : detG n = detG m ↔ n = m := ⟨fun h => congrArg Grp.number h, fun h => by rw [h]⟩
theorem detG_ne {n m : Int} : detG n ≠ sumDet m := fun h => by have := congrArg Grp.category h; simp [detG, sumDet] at this

theorem group_num (n : Int) : (DName.num n).group = some (detG n) := rfl

/-- The groups of lists of numbers. -/
def groupList (i : Nat) (L : List (List Int)) : List (Grp × List DName) := (L.zipIdx i).map fun x => (sumDet x.2, x.1.map .num)

theorem groupList_cons (i : Nat) (l : List Int) (L : List (List Int)) : groupList i (l :: L) = (sumDet i, l.map .num) :: groupList (i + 1) L := by
  simp [groupList, List.zipIdx_cons]

theorem groupsFrom_eq (i : Nat) (incl : List Inc) (L : List (List Int)) (d : Dict Grp (List DName))
    (h : incl.map Inc.aslist = L.map fun l => l.map .num) (hd : ∀ j : Nat, i ≤ j → sumDet j ∉ Dict.keys d) :
    groupsFrom i incl d = some (d ++ groupList i L) := by
  induction incl generalizing i L d with
  | nil =>
    have : L = [] := by simpa using h.symm
    subst this
    simp [groupsFrom, groupList]
  | cons x xs ih =>
    cases L with
    | nil => simp at h
    | cons l L =>
      simp only [List.map_cons, List.cons.injEq] at h
      simp only [groupsFrom, sumGroup_eq, h.1]
      rw [set_new _ _ _ (hd i (le_refl i)), ih (i + 1) L _ h.2]
      · simp [groupList_cons]
      · intro j hj
        simp only [Dict.keys, List.map_append, List.map_cons, List.map_nil, List.mem_append, List.mem_singleton, not_or]
        refine ⟨hd j (by omega), fun e => ?_⟩
        have := sumDet_inj.mp e
        omega

/-- Detector and destination. -/
def pairs (i : Nat) (L : List (List Int)) : List (Grp × Grp) := (L.zipIdx i).flatMap fun x => x.1.map fun n => (detG n, sumDet x.2)

theorem pairs_cons (i : Nat) (l : List Int) (L : List (List Int)) : pairs i (l :: L) = (l.map fun n => (detG n, sumDet i)) ++ pairs (i + 1) L := by
  simp [pairs, List.zipIdx_cons]

theorem sumtoSingles_eq (dest : Grp) (l : List Int) (d : Dict Grp Grp) (h : l.Nodup) (hd : ∀ n ∈ l, detG n ∉ Dict.keys d) :
    sumtoSingles dest (l.map .num) d = some (d ++ l.map fun n => (detG n, dest)) := by
  induction l generalizing d with
  | nil => simp [sumtoSingles]
  | cons n l ih =>
    rw [List.nodup_cons] at h
    simp only [List.map_cons, sumtoSingles, group_num]
    rw [set_new _ _ _ (hd n (by simp)), ih _ h.2]
    · simp
    · intro m hm
      simp only [Dict.keys, List.map_append, List.map_cons, List.map_nil, List.mem_append, List.mem_singleton, not_or]
      exact ⟨hd m (by simp [hm]), fun e => h.1 (detG_inj.mp e ▸ hm)⟩

theorem sumtoGroups_eq (i : Nat) (L : List (List Int)) (d : Dict Grp Grp) (h : L.flatten.Nodup) (hd : ∀ n ∈ L.flatten, detG n ∉ Dict.keys d) :
    sumtoGroups (groupList i L) d = some (d ++ pairs i L) := by
  induction L generalizing i d with
  | nil => simp [groupList, sumtoGroups, pairs]
  | cons l L ih =>
    rw [List.flatten_cons, List.nodup_append] at h
    rw [groupList_cons]
    simp only [sumtoGroups]
    rw [sumtoSingles_eq _ _ _ h.1 (fun n hn => hd n (by simp [hn]))]
    simp only
    rw [ih (i + 1) _ h.2.1]
    · rw [pairs_cons, List.append_assoc]
    · intro n hn
      simp only [Dict.keys, List.map_append, List.map_map, List.mem_append, List.mem_map, not_or]
      refine ⟨fun hm => hd n (by simp only [List.flatten_cons, List.mem_append]; exact Or.inr hn) (by simpa [Dict.keys] using hm), ?_⟩
      rintro ⟨m, hm, e⟩
      simp only [Function.comp_apply] at e
      exact h.2.2 m hm n hn (detG_inj.mp e)

theorem pairs_keys (i : Nat) (L : List (List Int)) : Dict.keys (pairs i L : Dict Grp Grp) = L.flatten.map detG := by
  induction L generalizing i with
  | nil => rfl
  | cons l L ih =>
    have := ih (i + 1)
    simp only [Dict.keys] at this
    rw [pairs_cons]
    simp [Dict.keys, this, Function.comp_def]

theorem foldl_set (groups : List Grp) (dest : Grp) (d : Dict Grp Grp) (hn : groups.Nodup) (h : ∀ g ∈ groups, g ∉ Dict.keys d) :
    groups.foldl (fun d g => Dict.set d g dest) d = d ++ groups.map fun g => (g, dest) := by
  induction groups generalizing d with
  | nil => simp
  | cons g gs ih =>
    rw [List.nodup_cons] at hn
    rw [List.foldl_cons, set_new _ _ _ (h g (by simp)), ih _ hn.2]
    · simp
    · intro x hx
      simp only [Dict.keys, List.map_append, List.map_cons, List.map_nil, List.mem_append, List.mem_singleton, not_or]
      exact ⟨h x (by simp [hx]), fun e => hn.1 (e ▸ hx)⟩

theorem groupList_keys (i : Nat) (L : List (List Int)) : Dict.keys (groupList i L : Dict Grp (List DName)) = (List.range' i L.length).map fun (j : Nat) => sumDet j := by
  induction L generalizing i with
  | nil => rfl
  | cons l L ih =>
    have := ih (i + 1)
    simp only [Dict.keys] at this
    simp [groupList_cons, Dict.keys, this, List.range'_succ]

theorem groupList_keys_nodup (i : Nat) (L : List (List Int)) : (Dict.keys (groupList i L : Dict Grp (List DName))).Nodup := by
  rw [groupList_keys]
  exact (List.nodup_map_iff (fun a b h => by simpa using sumDet_inj.mp h)).mpr (List.nodup_range')

/-- The largest number. -/
theorem maxInt_spec (l : List Int) (h : l ≠ []) : ∃ m, maxInt l = some m ∧ m ∈ l ∧ ∀ n ∈ l, n ≤ m := by
  cases l with
  | nil => simp at h
  | cons x r =>
    refine ⟨_, rfl, ?_⟩
    have key : ∀ (r : List Int) (x : Int), r.foldl max x ∈ x :: r ∧ ∀ n ∈ x :: r, n ≤ r.foldl max x := by
      intro r
      induction r with
      | nil => intro x; simp
      | cons y r ih =>
        intro x
        obtain ⟨h1, h2⟩ := ih (max x y)
        simp only [List.foldl_cons]
        refine ⟨?_, ?_⟩
        · rcases List.mem_cons.mp h1 with h1 | h1
          · rw [h1]
            rcases max_choice x y with h | h <;> rw [h] <;> simp
          · simp [h1]
        · intro n hn
          have hm := h2 (max x y) (by simp)
          rcases List.mem_cons.mp hn with rfl | hn
          · exact le_trans (le_max_left _ _) hm
          · rcases List.mem_cons.mp hn with rfl | hn
            · exact le_trans (le_max_right _ _) hm
            · exact h2 n (by simp [hn])
    exact key r x

/-- As many numbers have a large one among them. -/
theorem length_le_max (l : List Int) (hn : l.Nodup) (h0 : ∀ n ∈ l, 0 ≤ n) (m : Int) (hm : ∀ n ∈ l, n ≤ m) (hne : l ≠ []) : (l.length : Int) ≤ m + 1 := by
  have hm0 : 0 ≤ m := by
    obtain ⟨a, ha⟩ := List.exists_mem_of_ne_nil l hne
    exact le_trans (h0 a ha) (hm a ha)
  have h1 : (l.map Int.toNat).Nodup := by
    rw [List.nodup_map_iff_inj_on hn]
    intro a ha b hb e
    have := h0 a ha; have := h0 b hb
    omega
  have h2 : (l.map Int.toNat) ⊆ List.range (m.toNat + 1) := by
    intro x hx
    obtain ⟨n, hn, rfl⟩ := List.mem_map.mp hx
    have := hm n hn
    rw [List.mem_range]
    omega
  have := (h1.subperm h2).length_le
  simp only [List.length_map, List.length_range] at this
  omega

/-- Groups of detectors: with disjoint, non-empty groups of detector numbers, every detector is added to
its own group `S1`, `S2`, … and, when all detectors must be added, the groups to one total that is none of
the groups.  The groups are fitted when spectra are added, else the detectors that were found, in the
given order. -/
theorem groups_spec (p : Params) (found : List Str) (L : List (List Int))
    (hincl : p.incl.map Inc.aslist = L.map fun l => l.map .num) (hflat : ∀ x ∈ p.incl, x.flat = x.aslist)
    (hL : 1 < L.length) (hone : ∃ l ∈ L, 1 < l.length) (hne : ∀ l ∈ L, l ≠ []) (hnd : L.flatten.Nodup) (h0 : ∀ n ∈ L.flatten, 0 ≤ n) :
    ∃ (d : Detectors) (m : Int), prepareDetectors p found = some d ∧ m ∈ L.flatten ∧ (∀ n ∈ L.flatten, n ≤ m) ∧ (L.length : Int) < m + 1 ∧
      d.groups = groupList 1 L ∧ d.addspectra = p.addbeforefit ∧
      d.tofit = (if p.addbeforefit then (List.range' 1 L.length).map fun (j : Nat) => sumDet j else (L.flatten.filter fun n => decide (∃ s ∈ found, isdigit s = true ∧ pyInt s = n)).map detG) ∧
      d.sumto = pairs 1 L ++ (if p.adddetectors && decide (1 < (L.flatten.filter fun n => decide (∃ s ∈ found, isdigit s = true ∧ pyInt s = n)).length) then
        (List.range' 1 L.length).map (fun (j : Nat) => (sumDet j, sumDet (m + 1))) else []) := by
  have hfl : L.flatten ≠ [] := by
    obtain ⟨l, hl, hl2⟩ := hone
    intro h
    rw [List.flatten_eq_nil_iff] at h
    have := h l hl
    subst this
    simp at hl2
  -- the used detectors
  have hused : usedDetectors p found = (L.flatten.filter fun n => decide (∃ s ∈ found, isdigit s = true ∧ pyInt s = n)).map .num := by
    have e : p.incl.flatMap Inc.flat = L.flatten.map .num := by
      have e1 : p.incl.flatMap Inc.flat = (p.incl.map Inc.aslist).flatten := by
        rw [← List.flatMap_def]
        exact List.flatMap_congr fun x hx => hflat x hx
      rw [e1, hincl, ← List.map_flatten]
    unfold usedDetectors
    rw [e]
    simp only [ne_eq, List.map_eq_nil_iff, hfl, not_false_eq_true, if_true]
    rw [List.filter_map]
    congr 1
    apply List.filter_congr
    intro n _
    simp only [Function.comp_apply, decide_eq_decide, List.mem_map]
    constructor
    · rintro ⟨s, hs, e⟩
      split at e
      · next hd => exact ⟨s, hs, hd, by simpa using e⟩
      · simp at e
    · rintro ⟨s, hs, hd, e⟩
      exact ⟨s, hs, by simp [hd, e]⟩
  have hany : (p.incl.any fun x => decide (1 < x.aslist.length)) = true := by
    obtain ⟨l, hl, hl2⟩ := hone
    have : l.map DName.num ∈ p.incl.map Inc.aslist := by rw [hincl]; exact List.mem_map.mpr ⟨l, hl, rfl⟩
    obtain ⟨x, hx, e⟩ := List.mem_map.mp this
    rw [List.any_eq_true]
    exact ⟨x, hx, by simp [e, hl2]⟩
  have hgroups : detectorGroups p (usedDetectors p found) = some (groupList 1 L) := by
    unfold detectorGroups
    rw [if_pos hany, groupsFrom_eq 1 p.incl L [] hincl (by simp [Dict.keys])]
    rfl
  have hglen : (groupList 1 L).length = L.length := by simp [groupList]
  obtain ⟨m, hm1, hm2, hm3⟩ := maxInt_spec (L.flatten) hfl
  have hlen : (L.length : Int) < m + 1 := by
    have h1 := length_le_max L.flatten hnd h0 m hm3 hfl
    have h2 : L.length < L.flatten.length := by
      obtain ⟨l, hl, hl2⟩ := hone
      clear * - hne hl hl2
      have hsum : ∀ M : List (List Int), (∀ l ∈ M, l ≠ []) → M.length ≤ M.flatten.length ∧ ((∃ l ∈ M, 1 < l.length) → M.length < M.flatten.length) := by
        intro M
        induction M with
        | nil => simp
        | cons a M ih =>
          intro h
          obtain ⟨i1, i2⟩ := ih (fun l hl => h l (by simp [hl]))
          have ha : 1 ≤ a.length := List.length_pos_iff.mpr (h a (by simp))
          simp only [List.length_cons, List.flatten_cons, List.length_append]
          refine ⟨by omega, ?_⟩
          rintro ⟨l, hl, hl2⟩
          rcases List.mem_cons.mp hl with rfl | hl
          · omega
          · have := i2 ⟨l, hl, hl2⟩
            omega
      exact (hsum L hne).2 ⟨l, hl, hl2⟩
    omega
  have hag : decide (1 < (groupList 1 L : Dict Grp (List DName)).length) = true := by
    rw [show (groupList 1 L : Dict Grp (List DName)).length = L.length from hglen]; simpa using hL
  have hsingle : sumtoGroups (groupList 1 L) [] = some (pairs 1 L) := by
    rw [sumtoGroups_eq 1 L [] hnd (by simp [Dict.keys])]; rfl
  have htotal : sumtoTotal (Dict.keys (groupList 1 L : Dict Grp (List DName))) (pairs 1 L) =
      some (pairs 1 L ++ (List.range' 1 L.length).map fun (j : Nat) => (sumDet j, sumDet (m + 1))) := by
    unfold sumtoTotal
    rw [pairs_keys, List.map_map]
    have e : (Grp.number ∘ detG) = id := by funext n; rfl
    rw [e, List.map_id, hm1]
    simp only [sumGroup_eq]
    rw [foldl_set _ _ _ (groupList_keys_nodup 1 L)]
    · rw [groupList_keys, List.map_map]; rfl
    · intro g hg hgk
      rw [groupList_keys] at hg
      rw [pairs_keys] at hgk
      obtain ⟨j, -, rfl⟩ := List.mem_map.mp hg
      obtain ⟨n, -, e⟩ := List.mem_map.mp hgk
      exact detG_ne e
  have hmap : ∀ l : List Int, (l.map DName.num).mapM DName.group = some (l.map detG) := by
    intro l
    induction l with
    | nil => rfl
    | cons a l ih => simp [List.mapM_cons, ih, group_num]
  generalize hU : (L.flatten.filter fun n => decide (∃ s ∈ found, isdigit s = true ∧ pyInt s = n)) = U at *
  refine ⟨⟨groupList 1 L, p.addbeforefit, if p.addbeforefit then (List.range' 1 L.length).map fun (j : Nat) => sumDet j else U.map detG,
    pairs 1 L ++ (if p.adddetectors && decide (1 < U.length) then (List.range' 1 L.length).map (fun (j : Nat) => (sumDet j, sumDet (m + 1))) else [])⟩,
    m, ?_, hm2, hm3, hlen, rfl, rfl, rfl, rfl⟩
  unfold prepareDetectors
  simp only [hgroups, hag, Bool.or_true, Bool.true_and, if_true, hsingle]
  rw [hused, hmap]
  rw [groupList_keys] at htotal
  simp only [List.length_map]
  cases ha : p.addbeforefit <;> cases hb : p.adddetectors <;> cases hc : decide (1 < U.length) <;>
    simp [groupList_keys, htotal]

/-- Detectors 1, and 0 with 2, all added: `S1`, `S2` and the total `S3`. -/
example : prepareDetectors ⟨[.one (.num 1), .many [.num 0, .num 2]], true, false, false, false, false⟩ [['0', '0'], ['0', '1'], ['0', '2']] =
    some ⟨[(sumDet 1, [.num 1]), (sumDet 2, [.num 0, .num 2])], false, [detG 1, detG 0, detG 2],
      [(detG 1, sumDet 1), (detG 0, sumDet 2), (detG 2, sumDet 2), (sumDet 1, sumDet 3), (sumDet 2, sumDet 3)]⟩ := by decide +kernel

/-- Two groups that share a detector, or an empty group: the total has the name of a group. -/
theorem total_clash :
    (prepareDetectors ⟨[.one (.num 0), .one (.num 1), .many [.num 0, .num 1]], true, false, false, false, false⟩ [['0', '0'], ['0', '1']]).map
      (fun d => (Dict.get? d.sumto (sumDet 1), Dict.get? d.sumto (sumDet 2))) = some (some (sumDet 2), some (sumDet 2)) ∧
    (prepareDetectors ⟨[.many [], .many [.num 0, .num 1]], true, false, false, false, false⟩ [['0', '0'], ['0', '1']]).map
      (fun d => Dict.get? d.sumto (sumDet 2)) = some (some (sumDet 2)) := by
  constructor <;> decide +kernel

/-- A detector sum given by name is taken for two detectors, "S" and "0", and the first is none. -/
theorem sum_by_name : prepareDetectors ⟨[.one (.str ['S', '0'])], true, false, false, false, false⟩ [['S', '0']] =
      some ⟨[(sumDet 1, [.str ['S'], .str ['0']])], false, [sumDet 0], []⟩ ∧
    prepareDetectors ⟨[.one (.str ['S', '0']), .one (.num 1)], true, false, false, false, false⟩ [['S', '0'], ['0', '1']] = none := by
  constructor <;> decide +kernel

/-- Single detectors, by number or all that were found: they are added to one sum, when there are two or
more and adding is asked for; that sum is what is fitted when spectra are added. -/
theorem singles_spec (p : Params) (found : List Str) (l : List Int) (hs : ∀ x ∈ p.incl, ∃ n, x = .one (.num n))
    (hused : usedDetectors p found = l.map .num ∨ ∃ ss : List Str, usedDetectors p found = ss.map .str ∧ (∀ s ∈ ss, isdigit s = true) ∧ l = ss.map pyInt)
    (hnd : l.Nodup) :
    ∃ d : Detectors, prepareDetectors p found = some d ∧
      d.groups = [(sumDet 1, usedDetectors p found)] ∧
      (d.addspectra = true ↔ 1 < l.length ∧ p.adddetectors = true ∧ p.addbeforefit = true) ∧
      d.tofit = (if d.addspectra then [sumDet 1] else l.map detG) ∧
      d.sumto = if 1 < l.length ∧ p.adddetectors = true then l.map (fun n => (detG n, sumDet 1)) else [] := by
  have hany : ¬ (p.incl.any fun x => decide (1 < x.aslist.length)) = true := by
    rw [List.any_eq_true]
    rintro ⟨x, hx, h⟩
    obtain ⟨n, rfl⟩ := hs x hx
    simp [Inc.aslist] at h
  have hgs : (usedDetectors p found).mapM DName.group = some (l.map detG) := by
    rcases hused with h | ⟨ss, h, hd, rfl⟩
    · rw [h]
      clear h hnd
      induction l with
      | nil => rfl
      | cons a l ih => simp [List.mapM_cons, ih, group_num]
    · rw [h]
      clear h hnd
      induction ss with
      | nil => rfl
      | cons s ss ih =>
        have h1 : (DName.str s).group = some (detG (pyInt s)) := by
          have hs := hd s (by simp)
          simp only [DName.group, grpOf]
          rw [grpOfStr_core, drop_det_digit hs, core_digit hs]
          rfl
        have := ih (fun t ht => hd t (by simp [ht]))
        simp [List.mapM_cons, this, h1]
  have hlen : (usedDetectors p found).length = l.length := by
    rcases hused with h | ⟨ss, h, hd, rfl⟩ <;> simp [h]
  have hgroups : detectorGroups p (usedDetectors p found) = some [(sumDet 1, usedDetectors p found)] := by
    unfold detectorGroups
    rw [if_neg hany, hgs]
    have : (l.map detG).filter (fun g => decide (g.category = 1)) = [] := by
      rw [List.filter_eq_nil_iff]
      intro g hg
      obtain ⟨n, -, rfl⟩ := List.mem_map.mp hg
      simp [detG]
    simp only [this, List.map_nil, maxInt, sumGroup_eq]
  have hsum : ∀ (us : List DName) (l : List Int) (d : Dict Grp Grp), us.mapM DName.group = some (l.map detG) → l.Nodup → (∀ n ∈ l, detG n ∉ Dict.keys d) →
      sumtoSingles (sumDet 1) us d = some (d ++ l.map fun n => (detG n, sumDet 1)) := by
    intro us
    induction us with
    | nil =>
      intro l d h _ _
      have : l = [] := by simpa using h.symm
      subst this
      simp [sumtoSingles]
    | cons u us ih =>
      intro l d h hn hd
      rw [List.mapM_cons] at h
      cases hu : u.group with
      | none => simp [hu] at h
      | some g =>
        cases hus : us.mapM DName.group with
        | none => simp [hu, hus] at h
        | some gs =>
          simp [hu, hus] at h
          cases l with
          | nil => simp at h
          | cons n l =>
            simp only [List.map_cons, List.cons.injEq] at h
            rw [List.nodup_cons] at hn
            simp only [sumtoSingles, hu, h.1]
            rw [set_new _ _ _ (hd n (by simp)), ih l _ (by rw [hus, h.2]) hn.2]
            · simp
            · intro m hm
              simp only [Dict.keys, List.map_append, List.map_cons, List.map_nil, List.mem_append, List.mem_singleton, not_or]
              exact ⟨hd m (by simp [hm]), fun e => hn.1 (detG_inj.mp e ▸ hm)⟩
  have hsum1 : sumtoGroups [(sumDet 1, usedDetectors p found)] [] = some (l.map fun n => (detG n, sumDet 1)) := by
    simp only [sumtoGroups]
    rw [hsum _ l [] hgs hnd (by simp [Dict.keys])]
    rfl
  have hk : Dict.keys [(sumDet 1, usedDetectors p found)] = [sumDet 1] := rfl
  refine ⟨⟨[(sumDet 1, usedDetectors p found)], (decide (1 < l.length) && p.adddetectors) && p.addbeforefit,
    if ((decide (1 < l.length) && p.adddetectors) && p.addbeforefit) = true then [sumDet 1] else l.map detG,
    if 1 < l.length ∧ p.adddetectors = true then l.map (fun n => (detG n, sumDet 1)) else []⟩, ?_, rfl, ?_, rfl, rfl⟩
  · unfold prepareDetectors
    simp only [hgroups, hgs, hsum1, hlen, hk]
    cases ha : p.addbeforefit <;> cases hb : p.adddetectors <;> by_cases hc : 1 < l.length <;> simp [hc]
  · simp [and_assoc]

example : prepareDetectors ⟨[], true, true, false, false, false⟩ [['0', '1'], ['0', '0']] =
    some ⟨[(sumDet 1, [.str ['0', '0'], .str ['0', '1']])], true, [sumDet 1], [(detG 0, sumDet 1), (detG 1, sumDet 1)]⟩ := by decide +kernel

/-- **C69.** Without groups of several detectors, the group of the sum is not that of one of the detectors, also
when sums are among the detectors found. -/
theorem sum_new (p : Params) (used : List DName) (gs : Dict Grp (List DName)) (hs : ∀ x ∈ p.incl, x.aslist.length ≤ 1)
    (h : detectorGroups p used = some gs) (x : DName) (hx : x ∈ used) (g : Grp) (hg : x.group = some g) : g ∉ Dict.keys gs := by
  have hany : (p.incl.any fun x => decide (1 < x.aslist.length)) = false := by
    rw [List.any_eq_false]
    intro y hy
    have := hs y hy
    simp only [decide_eq_true_eq]
    omega
  unfold detectorGroups at h
  rw [hany] at h
  simp only [Bool.false_eq_true, if_false] at h
  cases hm : used.mapM DName.group with
  | none => rw [hm] at h; cases h
  | some l =>
    rw [hm] at h
    have hgl : g ∈ l := by
      clear h hs hany
      induction used generalizing l with
      | nil => cases hx
      | cons y ys ih =>
        rw [List.mapM_cons] at hm
        cases hy : y.group with
        | none => rw [hy] at hm; cases hm
        | some gy =>
          rw [hy] at hm
          cases hys : ys.mapM DName.group with
          | none => rw [hys] at hm; cases hm
          | some l' =>
            rw [hys] at hm
            cases hm
            rcases List.mem_cons.1 hx with rfl | hx
            · rw [hg] at hy; cases hy; exact List.mem_cons_self
            · exact List.mem_cons_of_mem _ (ih hx l' hys)
    simp only [sumGroup_eq, Option.some.injEq] at h
    subst h
    simp only [Dict.keys, List.map_cons, List.map_nil, List.mem_singleton]
    rintro rfl
    have hmem : (sumDet (match maxInt (List.map Grp.number (List.filter (fun g => decide (g.category = 1)) l)) with
        | some m => m + 1
        | none => 1)).number ∈ List.map Grp.number (List.filter (fun g => decide (g.category = 1)) l) := by
      refine List.mem_map_of_mem (List.mem_filter.2 ⟨hgl, ?_⟩)
      simp [sumDet]
    generalize List.map Grp.number (List.filter (fun g => decide (g.category = 1)) l) = nums at hmem
    obtain ⟨m, h1, h2, h3⟩ := maxInt_spec nums (List.ne_nil_of_mem hmem)
    rw [h1] at hmem
    have := h3 _ hmem
    simp only [sumDet] at this
    omega

example : detectorGroups ⟨[], true, true, false, false, false⟩ [.str ['0', '0'], .str ['S', '1']] =
    some [(sumDet 2, [.str ['0', '0'], .str ['S', '1']])] := by decide +kernel

end SC.XrfTask
