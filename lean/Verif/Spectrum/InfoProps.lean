import Verif.Spectrum.GroupProps
/-! # Property C61, part 4: the list of peaks -/
namespace SC.Spectrum
open SC.Common SC.Py

/-! ## Lemmas -/

theorem natText_digits (i : Nat) : (toString i).toList = Nat.toDigits 10 i := Nat.toList_repr

theorem natText_inj {a b : Nat} (h : (toString a).toList = (toString b).toList) : a = b := by
  rw [natText_digits, natText_digits] at h
  have := congrArg (fun l => Nat.ofDigitChars 10 l 0) h
  simpa [Nat.ofDigitChars_toDigits (b := 10) (by decide) (by decide)] using this

theorem natText_nodash (i : Nat) : '-' ∉ (toString i).toList := by
  rw [natText_digits]
  intro h
  have := Nat.isDigit_of_mem_toDigits (by decide) (by decide) h
  revert this
  decide

theorem update_new {V : Type} (l : List (Str × V)) (d : Dict Str V) (h : ((d ++ l).map Prod.fst).Nodup) :
    Dict.update d l = d ++ l := by
  induction l generalizing d with
  | nil => simp [Dict.update]
  | cons p l ih =>
    obtain ⟨k, v⟩ := p
    have hset : Dict.set d k v = d ++ [(k, v)] := by
      have hk : k ∉ d.map Prod.fst := by
        intro hk
        rw [List.map_append, List.nodup_append] at h
        exact h.2.2 _ hk _ (by simp) rfl
      clear ih h
      induction d with
      | nil => rfl
      | cons q d ih =>
        obtain ⟨x, w⟩ := q
        simp only [List.map_cons, List.mem_cons, not_or] at hk
        simp only [Dict.set, if_neg (Ne.symm hk.1), ih hk.2, List.cons_append]
    have : Dict.update d ((k, v) :: l) = Dict.update (Dict.set d k v) l := rfl
    rw [this, hset, ih]
    · simp
    · simpa using h

theorem argmax_spec (l : List ℚ) (i : Nat) (h : argmax l = some i) : ∃ hi : i < l.length, ∀ x ∈ l, x ≤ l[i] := by
  cases l with
  | nil => cases h
  | cons a l =>
    obtain ⟨h1, h2⟩ := maxOf_spec (a :: l) (by simp)
    have hi := (Option.some.inj h).symm
    have hlt : (a :: l).findIdx (fun x => decide (x = maxOf (a :: l))) < (a :: l).length :=
      List.findIdx_lt_length_of_exists ⟨_, h2, by simp⟩
    subst hi
    refine ⟨hlt, ?_⟩
    have := List.findIdx_getElem (w := hlt)
    rw [of_decide_eq_true this]
    exact h1

theorem argmax_some (l : List ℚ) (h : l ≠ []) : ∃ i, argmax l = some i := by
  cases l with
  | nil => exact absurd rfl h
  | cons a l => exact ⟨_, rfl⟩

/-- The lines that are told of for a group. -/
def infoLines (g : Str) (lines : Lines) : List Line :=
  if isScat g = true then (match lines with | [] => [] | (l, _) :: _ => l.split) else lines.map Prod.fst

/-- Their areas. -/
def infoAreas (g : Str) (lines : Lines) : List ℚ :=
  if isScat g = true then (match lines with | [] => [] | (_, v) :: _ => v.toList) else lines.map fun p => p.2.sum

/-- Their name. -/
def infoName (g : Str) (i : Nat) (l : Line) : Str :=
  if isScat g = true then g ++ (toString i).toList else l.name

theorem groupInfo_eq (shift : ℚ → ℚ) (g : Str) (lines : Lines) (imax : Nat) (h : argmax (infoAreas g lines) = some imax) :
    groupInfo shift g lines = .ok (((infoLines g lines).zip (infoAreas g lines)).mapIdx fun i p =>
      (infoName g i p.1, ⟨g, if i = imax then some g else Option.none, p.1.energy shift, p.2, p.1.width⟩)) := by
  have h1 : groupInfo shift g lines = match argmax (infoAreas g lines) with
    | Option.none => .error .valueError
    | some imax => .ok (((infoLines g lines).zip (infoAreas g lines)).mapIdx fun i p =>
      (infoName g i p.1, ⟨g, if i = imax then some g else Option.none, p.1.energy shift, p.2, p.1.width⟩)) := rfl
  rw [h1, h]

/-- The entries of a group. -/
def infos (shift : ℚ → ℚ) (g : Str) (lines : Lines) : List (Str × Info) :=
  match groupInfo shift g lines with
  | .ok l => l
  | .error _ => []

theorem infoLoop_ok (shift : ℚ → ℚ) (gs : Dict Str Lines) (d : Dict Str Info)
    (hok : ∀ p ∈ gs, ∃ l, groupInfo shift p.1 p.2 = .ok l)
    (hn : ((d ++ gs.flatMap fun p => infos shift p.1 p.2).map Prod.fst).Nodup) :
    infoLoop shift d gs = .ok (d ++ gs.flatMap fun p => infos shift p.1 p.2) := by
  induction gs generalizing d with
  | nil => simp [infoLoop]
  | cons p gs ih =>
    obtain ⟨g, lines⟩ := p
    obtain ⟨l, hl⟩ := hok (g, lines) (by simp)
    have hi : infos shift g lines = l := by unfold infos; simp only at hl; rw [hl]
    unfold infoLoop
    simp only at hl
    rw [hl]
    simp only [List.flatMap_cons, hi] at hn ⊢
    rw [update_new l d]
    · rw [ih _ (fun q hq => hok q (by simp [hq])) (by simpa using hn)]
      simp
    · refine hn.sublist ?_
      rw [← List.append_assoc, List.map_append (l₁ := d ++ l)]
      exact List.sublist_append_left _ _

/-! ## Groups of lines -/

theorem isScat_rayleigh : isScat "Rayleigh".toList = true := by decide

theorem isScat_compton : isScat "Compton".toList = true := by decide

theorem isScat_cases {g : Str} (h : isScat g = true) : g = "Compton".toList ∨ g = "Rayleigh".toList := by
  simp only [isScat, Bool.or_eq_true, decide_eq_true_eq] at h
  exact h

section
variable {d : Lines} (hd : Distinct d) (hm : Matched d) (hdash : Dashed d) (hf : Filled d) (m : ℚ)

include hdash in
theorem scat_only (g : Str) (hg : isScat g = true) (p : Line × Val) (hp : p ∈ d)
    (h : p.1.group = g) : p.1.isFluo = false ∧ p.1.name = g := by
  obtain ⟨l, v⟩ := p
  cases l with
  | fluo n gr e w =>
    exfalso
    have h1 := (hdash _ hp rfl).2
    have h2 : g.contains '-' = false := by
      rcases isScat_cases hg with rfl | rfl <;> decide
    simp only at h h1
    rw [h] at h1
    have : g.contains '-' = true := by simpa using h1
    rw [h2] at this; cases this
  | rayleigh s => exact ⟨rfl, h⟩
  | compton s => exact ⟨rfl, h⟩

include hd hdash in
/-- A group of scattering is one line. -/
theorem scat_group (g : Str) (hg : isScat g = true) (hex : ∃ p ∈ d, p.1.group = g) :
    ∃ p ∈ d, p.1.group = g ∧ p.1.isFluo = false ∧ groupLines d m g = [(p.1, p.2.map (· * m))] := by
  obtain ⟨p, hp, hgp⟩ := hex
  obtain ⟨h1, h2⟩ := scat_only hdash g hg p hp hgp
  refine ⟨p, hp, hgp, h1, ?_⟩
  have hfilter : d.filter (fun q => decide (q.1.group = g)) = [p] := by
    have hall : ∀ q ∈ d.filter (fun q => decide (q.1.group = g)), q = p := by
      intro q hq
      obtain ⟨hq1, hq2⟩ := List.mem_filter.1 hq
      have hq3 := (scat_only hdash g hg q hq1 (by simpa using hq2)).2
      exact List.inj_on_of_nodup_map hd hq1 hp (hq3.trans h2.symm)
    have hnd : (d.filter (fun q => decide (q.1.group = g))).Nodup := (List.Nodup.of_map _ hd).filter _
    have hmem : p ∈ d.filter (fun q => decide (q.1.group = g)) := List.mem_filter.2 ⟨hp, by simpa using hgp⟩
    generalize d.filter (fun q => decide (q.1.group = g)) = f at *
    cases f with
    | nil => cases hmem
    | cons a f =>
      have ha := hall a (by simp)
      subst ha
      cases f with
      | nil => rfl
      | cons b f =>
        have hb := hall b (by simp)
        subst hb
        simp at hnd
  simp [groupLines, hfilter, h1]

/-- A group that is not of scattering has fluorescence lines only. -/
theorem fluo_group (g : Str) (hg : isScat g = false) :
    ∀ p ∈ d, p.1.group = g → p.1.isFluo = true := by
  rintro ⟨l, v⟩ hp h
  cases l with
  | fluo => rfl
  | rayleigh s =>
    have h : "Rayleigh".toList = g := h
    rw [← h, isScat_rayleigh] at hg; cases hg
  | compton s =>
    have h : "Compton".toList = g := h
    rw [← h, isScat_compton] at hg; cases hg

theorem split_length (l : Line) (s : Val) (hs : sourceOf l = some s) : l.split.length = s.toList.length := by
  cases l with
  | fluo => cases hs
  | rayleigh t =>
    obtain rfl : t = s := Option.some.inj hs
    simp only [Line.split]
    split
    · next h => rw [len_toList] at h; simp [h]
    · simp
  | compton t =>
    obtain rfl : t = s := Option.some.inj hs
    simp only [Line.split]
    split
    · next h => rw [len_toList] at h; simp [h]
    · simp

include hd hm hdash hf in
/-- As many lines as areas, at least one, and the areas add up. -/
theorem group_facts (g : Str) (hex : ∃ p ∈ d, p.1.group = g) :
    (infoLines g (groupLines d m g)).length = (infoAreas g (groupLines d m g)).length ∧
    infoAreas g (groupLines d m g) ≠ [] ∧ (infoAreas g (groupLines d m g)).sum = total (groupLines d m g) := by
  cases hg : isScat g
  rotate_left
  · obtain ⟨p, hp, hgp, h1, h2⟩ := scat_group hd hdash m g hg hex
    have hs : ∃ s, sourceOf p.1 = some s := by
      obtain ⟨l, v⟩ := p
      cases l with
      | fluo => cases h1
      | rayleigh s => exact ⟨s, rfl⟩
      | compton s => exact ⟨s, rfl⟩
    obtain ⟨s, hs⟩ := hs
    unfold infoLines infoAreas
    simp only [if_pos hg, h2]
    refine ⟨?_, ?_, ?_⟩
    · rw [split_length _ s hs, hm p hp s hs, map_toList, List.length_map]
    · rw [map_toList]
      simpa using hf p hp
    · simp [total]
  · unfold infoLines infoAreas
    simp only [if_neg (Bool.eq_false_iff.1 hg)]
    refine ⟨by simp, ?_, ?_⟩
    · obtain ⟨p, hp, hgp⟩ := hex
      simp only [groupLines, ne_eq, List.map_eq_nil_iff, List.filter_eq_nil_iff, not_forall]
      exact ⟨p, hp, by simpa using hgp⟩
    · rfl

/-- The entries of a group by position. -/
theorem infos_mem (shift : ℚ → ℚ) (g : Str) (lines : Lines) (imax : Nat) (h : argmax (infoAreas g lines) = some imax)
    (x : Str × Info) :
    x ∈ infos shift g lines ↔ ∃ (i : Nat) (l : Line) (a : ℚ), (infoLines g lines)[i]? = some l ∧ (infoAreas g lines)[i]? = some a ∧
      x = (infoName g i l, ⟨g, if i = imax then some g else Option.none, l.energy shift, a, l.width⟩) := by
  unfold infos
  rw [groupInfo_eq shift g lines imax h]
  simp only [List.mem_mapIdx]
  constructor
  · rintro ⟨i, hi, rfl⟩
    rw [List.length_zip] at hi
    have h1 : i < (infoLines g lines).length := by omega
    have h2 : i < (infoAreas g lines).length := by omega
    exact ⟨i, (infoLines g lines)[i], (infoAreas g lines)[i], List.getElem?_eq_getElem h1, List.getElem?_eq_getElem h2, by
      rw [List.getElem_zip]⟩
  · rintro ⟨i, l, a, h1, h2, rfl⟩
    obtain ⟨h3, rfl⟩ := List.getElem?_eq_some_iff.1 h1
    obtain ⟨h4, rfl⟩ := List.getElem?_eq_some_iff.1 h2
    exact ⟨i, by rw [List.length_zip]; omega, by rw [List.getElem_zip]⟩

theorem infos_areas (shift : ℚ → ℚ) (g : Str) (lines : Lines) (imax : Nat) (h : argmax (infoAreas g lines) = some imax)
    (hl : (infoLines g lines).length = (infoAreas g lines).length) :
    (infos shift g lines).map (fun x => x.2.area) = infoAreas g lines := by
  unfold infos
  rw [groupInfo_eq shift g lines imax h]
  simp only
  apply List.ext_getElem
  · simp [hl]
  · intro i h1 h2
    simp

theorem infos_names (shift : ℚ → ℚ) (g : Str) (lines : Lines) (imax : Nat) (h : argmax (infoAreas g lines) = some imax) :
    (infos shift g lines).map Prod.fst = ((infoLines g lines).zip (infoAreas g lines)).mapIdx fun i p => infoName g i p.1 := by
  unfold infos
  rw [groupInfo_eq shift g lines imax h]
  apply List.ext_getElem
  · simp
  · intro i h1 h2
    simp

include hd hm hdash hf in
/-- The names of a group are distinct. -/
theorem group_names (shift : ℚ → ℚ) (g : Str) (hex : ∃ p ∈ d, p.1.group = g) :
    ((infos shift g (groupLines d m g)).map Prod.fst).Nodup := by
  obtain ⟨f1, f2, _⟩ := group_facts hd hm hdash hf m g hex
  obtain ⟨imax, hi⟩ := argmax_some _ f2
  rw [infos_names shift g _ imax hi]
  cases hg : isScat g
  rotate_left
  · rw [List.nodup_iff_getElem?_ne_getElem?]
    intro i j hij hj
    rw [List.length_mapIdx] at hj
    rw [List.getElem?_eq_getElem (by rw [List.length_mapIdx]; omega), List.getElem?_eq_getElem (by rw [List.length_mapIdx]; omega)]
    simp only [List.getElem_mapIdx, infoName, if_pos hg]
    intro e
    have := natText_inj (List.append_cancel_left (Option.some.inj e))
    omega
  · have : (((infoLines g (groupLines d m g)).zip (infoAreas g (groupLines d m g))).mapIdx fun i p => infoName g i p.1) =
        (infoLines g (groupLines d m g)).map Line.name := by
      apply List.ext_getElem
      · simp [f1]
      · intro i h1 h2
        simp [infoName, if_neg (Bool.eq_false_iff.1 hg)]
    rw [this]
    simp only [infoLines, if_neg (Bool.eq_false_iff.1 hg), groupLines, List.map_map, Function.comp_def]
    exact hd.sublist (List.filter_sublist.map _)

include hd hm hdash hf in
theorem name_of_group (shift : ℚ → ℚ) (g k : Str) (hex : ∃ p ∈ d, p.1.group = g)
    (hk : k ∈ (infos shift g (groupLines d m g)).map Prod.fst) :
    ((isScat g = true) ∧ ∃ i : Nat, k = g ++ (toString i).toList) ∨
    (isScat g = false ∧ ∃ p ∈ d, p.1.group = g ∧ p.1.isFluo = true ∧ k = p.1.name) := by
  obtain ⟨f1, f2, _⟩ := group_facts hd hm hdash hf m g hex
  obtain ⟨imax, hi⟩ := argmax_some _ f2
  obtain ⟨x, hx, rfl⟩ := List.mem_map.1 hk
  obtain ⟨i, l, a, h1, h2, rfl⟩ := (infos_mem shift g _ imax hi x).1 hx
  cases hg : isScat g
  rotate_left
  · left
    exact ⟨rfl, i, by simp [infoName, if_pos hg]⟩
  · right
    refine ⟨rfl, ?_⟩
    have hmem := List.mem_of_getElem? h1
    simp only [infoLines, if_neg (Bool.eq_false_iff.1 hg), groupLines, List.map_map] at hmem
    obtain ⟨p, hp, hpl⟩ := List.mem_map.1 hmem
    obtain ⟨hp1, hp2⟩ := List.mem_filter.1 hp
    have hp2 : p.1.group = g := by simpa using hp2
    exact ⟨p, hp1, hp2, fluo_group g hg p hp1 hp2, by simp only [infoName, if_neg (Bool.eq_false_iff.1 hg)]; rw [← hpl]; rfl⟩

include hd hm hdash hf in
/-- Names of different groups differ. -/
theorem names_disjoint (shift : ℚ → ℚ) (g g' k : Str) (hex : ∃ p ∈ d, p.1.group = g) (hex' : ∃ p ∈ d, p.1.group = g')
    (hk : k ∈ (infos shift g (groupLines d m g)).map Prod.fst) (hk' : k ∈ (infos shift g' (groupLines d m g')).map Prod.fst) : g = g' := by
  have hno : ∀ (g : Str) (i : Nat), (isScat g = true) → '-' ∉ g ++ (toString i).toList := by
    intro g i hg h
    rcases List.mem_append.1 h with h | h
    · rcases isScat_cases hg with rfl | rfl <;> revert h <;> decide
    · exact natText_nodash i h
  rcases name_of_group hd hm hdash hf m shift g k hex hk with ⟨h1, i, h2⟩ | ⟨h1, p, hp, h2, h3, h4⟩ <;>
  rcases name_of_group hd hm hdash hf m shift g' k hex' hk' with ⟨h1', i', h2'⟩ | ⟨h1', p', hp', h2', h3', h4'⟩
  · have e : (g ++ (toString i).toList).head? = (g' ++ (toString i').toList).head? := by rw [← h2, ← h2']
    rcases isScat_cases h1 with rfl | rfl <;> rcases isScat_cases h1' with rfl | rfl
    · rfl
    · revert e; simp
    · revert e; simp
    · rfl
  · exfalso
    have := (hdash p' hp' h3').1
    rw [← h4', h2] at this
    exact hno g i h1 this
  · exfalso
    have := (hdash p hp h3).1
    rw [← h4, h2'] at this
    exact hno g' i' h1' this
  · have : p = p' := List.inj_on_of_nodup_map hd hp hp' (h4.symm.trans h4')
    rw [← h2, ← h2', this]

end

/-! ## All peaks -/

theorem lineinfo_eq (s : Spec) (c b : Bool) (m : ℚ) (hmul : s.multiplier c = .ok m) (hd : Distinct s.lines)
    (hm : Matched s.lines) (hdash : Dashed s.lines) (hf : Filled s.lines) :
    ∃ gs : Dict Str Lines, s.linegroups c = .ok gs ∧ Dict.WF gs ∧
      (∀ p ∈ gs, (∃ q ∈ s.lines, q.1.group = p.1) ∧ p.2 = groupLines s.lines m p.1) ∧
      (∀ q ∈ s.lines, (q.1.group, groupLines s.lines m q.1.group) ∈ gs) ∧
      ((gs.flatMap fun p => infos s.shift p.1 p.2).map Prod.fst).Nodup ∧
      s.lineinfo c b = .ok (if b then stableSort (fun p => scalar p.2.energy) (gs.flatMap fun p => infos s.shift p.1 p.2)
        else gs.flatMap fun p => infos s.shift p.1 p.2) := by
  have hok : ∃ gs, s.linegroups c = .ok gs := by
    unfold Spec.linegroups Spec.itemsConverted
    rw [hmul]
    exact ⟨_, rfl⟩
  obtain ⟨gs, hgs⟩ := hok
  have hwf := linegroups_wf s c gs hgs
  have h1 : ∀ p ∈ gs, (∃ q ∈ s.lines, q.1.group = p.1) ∧ p.2 = groupLines s.lines m p.1 := by
    rintro ⟨g, l⟩ hp
    have hg := (get?_iff hwf g l).1 hp
    rw [linegroups_spec s c gs m hmul hd hgs] at hg
    split at hg
    · next h => exact ⟨h, (Option.some.inj hg).symm⟩
    · cases hg
  have h2 : ∀ q ∈ s.lines, (q.1.group, groupLines s.lines m q.1.group) ∈ gs := by
    intro q hq
    have hg := linegroups_spec s c gs m hmul hd hgs q.1.group
    rw [if_pos ⟨q, hq, rfl⟩] at hg
    exact Dict.get?_mem hg
  have hn : ((gs.flatMap fun p => infos s.shift p.1 p.2).map Prod.fst).Nodup := by
    rw [List.map_flatMap, List.nodup_flatMap]
    refine ⟨?_, ?_⟩
    · intro p hp
      obtain ⟨hex, he⟩ := h1 p hp
      rw [he]
      exact group_names hd hm hdash hf m s.shift p.1 hex
    · have hpw : gs.Pairwise fun a b => a.1 ≠ b.1 := List.pairwise_map.1 hwf
      refine (List.Pairwise.imp_of_mem ?_ hpw)
      intro a b ha hb hab k hka hkb
      obtain ⟨hexa, hea⟩ := h1 a ha
      obtain ⟨hexb, heb⟩ := h1 b hb
      simp only [hea] at hka
      simp only [heb] at hkb
      exact hab (names_disjoint hd hm hdash hf m s.shift a.1 b.1 k hexa hexb hka hkb)
  refine ⟨gs, hgs, hwf, h1, h2, hn, ?_⟩
  unfold Spec.lineinfo
  rw [hgs]
  simp only
  rw [infoLoop_ok s.shift gs []]
  · simp
  · intro p hp
    obtain ⟨hex, he⟩ := h1 p hp
    obtain ⟨_, f2, _⟩ := group_facts hd hm hdash hf m p.1 hex
    obtain ⟨imax, hi⟩ := argmax_some _ f2
    rw [he]
    exact ⟨_, groupInfo_eq s.shift p.1 _ imax hi⟩
  · simpa using hn

theorem flatMap_sum {α : Type} (l : List α) (f : α → List ℚ) : (l.flatMap f).sum = (l.map fun a => (f a).sum).sum := by
  induction l with
  | nil => rfl
  | cons a l ih => simp [List.flatMap_cons, ih]

section
variable (s : Spec) (c b : Bool) (m : ℚ) (hmul : s.multiplier c = .ok m) (hd : Distinct s.lines)
    (hm : Matched s.lines) (hdash : Dashed s.lines) (hf : Filled s.lines)
include hmul hd hm hdash hf

/-- The peaks of a spectrum have distinct names, their areas add up to the converted total, and they are in the
order of their energies when sorted. -/
theorem lineinfo_total : ∃ d, s.lineinfo c b = .ok d ∧ Dict.WF d ∧ (d.map fun x => x.2.area).sum = m * total s.lines ∧
    (b = true → d.Pairwise fun x y => scalar x.2.energy ≤ scalar y.2.energy) := by
  obtain ⟨gs, hgs, hwf, h1, h2, hn, he⟩ := lineinfo_eq s c b m hmul hd hm hdash hf
  refine ⟨_, he, ?_⟩
  have hp : (if b then stableSort (fun p => scalar p.2.energy) (gs.flatMap fun p => infos s.shift p.1 p.2)
        else gs.flatMap fun p => infos s.shift p.1 p.2).Perm (gs.flatMap fun p => infos s.shift p.1 p.2) := by
    split
    · exact stableSort_perm _ _
    · exact List.Perm.refl _
  refine ⟨(hp.map Prod.fst).nodup_iff.2 hn, ?_, ?_⟩
  · rw [(hp.map _).sum_eq, List.map_flatMap, flatMap_sum, ← linegroups_total s c gs m hmul hd hgs]
    congr 1
    apply List.map_congr_left
    intro p hpm
    obtain ⟨hex, hl⟩ := h1 p hpm
    obtain ⟨f1, f2, f3⟩ := group_facts hd hm hdash hf m p.1 hex
    obtain ⟨imax, hi⟩ := argmax_some _ f2
    rw [hl, infos_areas s.shift p.1 _ imax hi f1, f3]
  · rintro rfl
    exact stableSort_sorted _ _

/-- Every group has one peak with the name of the group as label, and it is the largest of the group; no other
peak has a label. -/
theorem lineinfo_labels (d : Dict Str Info) (h : s.lineinfo c b = .ok d) :
    (∀ x ∈ d, x.2.label = Option.none ∨ x.2.label = some x.2.group) ∧
    (∀ p ∈ s.lines, ∃ x ∈ d, x.2.label = some p.1.group ∧ x.2.group = p.1.group ∧
      (∀ y ∈ d, y.2.group = p.1.group → y.2.area ≤ x.2.area) ∧
      ∀ y ∈ d, y.2.label = some p.1.group → y = x) := by
  obtain ⟨gs, hgs, hwf, h1, h2, hn, he⟩ := lineinfo_eq s c b m hmul hd hm hdash hf
  rw [he] at h
  have hd' := Except.ok.inj h
  have hmem : ∀ x, x ∈ d ↔ ∃ p ∈ gs, x ∈ infos s.shift p.1 p.2 := by
    intro x
    rw [← hd', ← List.mem_flatMap (l := gs) (f := fun p => infos s.shift p.1 p.2)]
    split
    · exact (stableSort_perm _ _).mem_iff
    · exact Iff.rfl
  have hex : ∀ x ∈ d, ∃ g, (∃ q ∈ s.lines, q.1.group = g) ∧ x ∈ infos s.shift g (groupLines s.lines m g) := by
    intro x hx
    obtain ⟨p, hp, hxp⟩ := (hmem x).1 hx
    obtain ⟨hq, hl⟩ := h1 p hp
    exact ⟨p.1, hq, by rwa [hl] at hxp⟩
  have hform : ∀ g, (∃ q ∈ s.lines, q.1.group = g) → ∃ imax, argmax (infoAreas g (groupLines s.lines m g)) = some imax := by
    intro g hg
    exact argmax_some _ (group_facts hd hm hdash hf m g hg).2.1
  have hgroup : ∀ g x, (∃ q ∈ s.lines, q.1.group = g) → x ∈ infos s.shift g (groupLines s.lines m g) →
      x.2.group = g ∧ (x.2.label = Option.none ∨ x.2.label = some g) := by
    intro g x hg hx
    obtain ⟨imax, hi⟩ := hform g hg
    obtain ⟨i, l, a, _, _, rfl⟩ := (infos_mem s.shift g _ imax hi x).1 hx
    refine ⟨rfl, ?_⟩
    simp only
    split
    · exact Or.inr rfl
    · exact Or.inl rfl
  refine ⟨?_, ?_⟩
  · intro x hx
    obtain ⟨g, hg, hxg⟩ := hex x hx
    obtain ⟨e1, e2⟩ := hgroup g x hg hxg
    rwa [e1]
  · intro p hp
    have hg : ∃ q ∈ s.lines, q.1.group = p.1.group := ⟨p, hp, rfl⟩
    obtain ⟨imax, hi⟩ := hform _ hg
    obtain ⟨f1, f2, _⟩ := group_facts hd hm hdash hf m p.1.group hg
    obtain ⟨hlt, hmax⟩ := argmax_spec _ imax hi
    have hlt' : imax < (infoLines p.1.group (groupLines s.lines m p.1.group)).length := by omega
    have hin : ∀ y ∈ d, y.2.group = p.1.group → y ∈ infos s.shift p.1.group (groupLines s.lines m p.1.group) := by
      intro y hy hyg
      obtain ⟨g', hg', hyg'⟩ := hex y hy
      have := (hgroup g' y hg' hyg').1
      rw [← hyg, this]
      exact hyg'
    refine ⟨_, (hmem _).2 ⟨_, h2 p hp, (infos_mem s.shift p.1.group _ imax hi _).2
      ⟨imax, _, _, List.getElem?_eq_getElem hlt', List.getElem?_eq_getElem hlt, rfl⟩⟩, ?_, rfl, ?_, ?_⟩
    · simp
    · intro y hy hyg
      obtain ⟨i, l, a, h3, h4, rfl⟩ := (infos_mem s.shift p.1.group _ imax hi y).1 (hin y hy hyg)
      exact hmax a (List.mem_of_getElem? h4)
    · intro y hy hyl
      have hyg : y.2.group = p.1.group := by
        obtain ⟨g', hg', hyg'⟩ := hex y hy
        obtain ⟨e1, e2⟩ := hgroup g' y hg' hyg'
        rw [hyl] at e2
        rcases e2 with e2 | e2
        · cases e2
        · rw [e1]; exact (Option.some.inj e2).symm
      obtain ⟨i, l, a, h3, h4, rfl⟩ := (infos_mem s.shift p.1.group _ imax hi y).1 (hin y hy hyg)
      simp only at hyl
      by_cases hi' : i = imax
      · subst hi'
        rw [List.getElem?_eq_getElem hlt'] at h3
        rw [List.getElem?_eq_getElem hlt] at h4
        obtain rfl := Option.some.inj h3
        obtain rfl := Option.some.inj h4
        rfl
      · rw [if_neg hi'] at hyl; cases hyl

/-- A fluorescence line is told of under its own text with its energy, width and the sum over the source. -/
theorem lineinfo_fluo (d : Dict Str Info) (h : s.lineinfo c b = .ok d) (n g : Str) (e w : ℚ) (v : Val)
    (hp : (Line.fluo n g e w, v) ∈ s.lines) :
    ∃ x, Dict.get? d n = some x ∧ x.group = g ∧ x.energy = .num e ∧ x.natwidth = w ∧ x.area = v.toList.sum * m := by
  obtain ⟨gs, hgs, hwf, h1, h2, hn, he⟩ := lineinfo_eq s c b m hmul hd hm hdash hf
  obtain ⟨d', hd'e, hwfd, _⟩ := lineinfo_total s c b m hmul hd hm hdash hf
  rw [h] at hd'e
  obtain rfl := Except.ok.inj hd'e
  rw [he] at h
  have hd' := Except.ok.inj h
  have hmem : ∀ x, x ∈ d ↔ ∃ p ∈ gs, x ∈ infos s.shift p.1 p.2 := by
    intro x
    rw [← hd', ← List.mem_flatMap (l := gs) (f := fun p => infos s.shift p.1 p.2)]
    split
    · exact (stableSort_perm _ _).mem_iff
    · exact Iff.rfl
  have hg : isScat g = false := by
    rw [Bool.eq_false_iff]
    intro hg
    have := (scat_only hdash g hg _ hp rfl).1
    cases this
  obtain ⟨_, f2, _⟩ := group_facts hd hm hdash hf m g ⟨_, hp, rfl⟩
  obtain ⟨imax, hi⟩ := argmax_some _ f2
  have hin : (Line.fluo n g e w, Val.num (v.toList.sum * m)) ∈ groupLines s.lines m g := by
    simp only [groupLines, List.mem_map, List.mem_filter]
    exact ⟨_, ⟨hp, decide_eq_true rfl⟩, rfl⟩
  obtain ⟨i, hi2⟩ := List.mem_iff_getElem?.1 hin
  have hl1 : (infoLines g (groupLines s.lines m g))[i]? = some (.fluo n g e w) := by
    unfold infoLines
    rw [if_neg (Bool.eq_false_iff.1 hg), List.getElem?_map, hi2]
    rfl
  have hl2 : (infoAreas g (groupLines s.lines m g))[i]? = some (v.toList.sum * m) := by
    unfold infoAreas
    rw [if_neg (Bool.eq_false_iff.1 hg), List.getElem?_map, hi2]
    simp [Val.sum, Val.toList]
  have hnm : infoName g i (.fluo n g e w) = n := by
    unfold infoName
    rw [if_neg (Bool.eq_false_iff.1 hg)]
    rfl
  have hx := (infos_mem s.shift g _ imax hi _).2 ⟨i, _, _, hl1, hl2, rfl⟩
  rw [hnm] at hx
  exact ⟨_, Dict.get?_of_mem hwfd ((hmem _).2 ⟨_, h2 _ hp, hx⟩), rfl, rfl, rfl, rfl⟩

/-- Every energy of the source of a scattering line is told of under the name of the scattering with the
position of the energy. -/
theorem lineinfo_scatter (d : Dict Str Info) (h : s.lineinfo c b = .ok d) (l : Line) (v src : Val) (hl : sourceOf l = some src)
    (hp : (l, v) ∈ s.lines) (i : Nat) (e a : ℚ) (hs : src.toList[i]? = some e) (hv : v.toList[i]? = some a) :
    ∃ x, Dict.get? d (l.name ++ (toString i).toList) = some x ∧ x.group = l.name ∧
      scalar x.energy = scatEnergy s.shift l e ∧ x.natwidth = 0 ∧ x.area = a * m := by
  obtain ⟨gs, hgs, hwf, h1, h2, hn, he⟩ := lineinfo_eq s c b m hmul hd hm hdash hf
  obtain ⟨d', hd'e, hwfd, _⟩ := lineinfo_total s c b m hmul hd hm hdash hf
  rw [h] at hd'e
  obtain rfl := Except.ok.inj hd'e
  rw [he] at h
  have hd' := Except.ok.inj h
  have hmem : ∀ x, x ∈ d ↔ ∃ p ∈ gs, x ∈ infos s.shift p.1 p.2 := by
    intro x
    rw [← hd', ← List.mem_flatMap (l := gs) (f := fun p => infos s.shift p.1 p.2)]
    split
    · exact (stableSort_perm _ _).mem_iff
    · exact Iff.rfl
  have hg : isScat l.group = true ∧ l.group = l.name := by
    cases l with
    | fluo => cases hl
    | rayleigh => exact ⟨isScat_rayleigh, rfl⟩
    | compton => exact ⟨isScat_compton, rfl⟩
  obtain ⟨_, f2, _⟩ := group_facts hd hm hdash hf m l.group ⟨_, hp, rfl⟩
  obtain ⟨imax, hi⟩ := argmax_some _ f2
  obtain ⟨q, hq, hqg, hqf, hql⟩ := scat_group hd hdash m l.group hg.1 ⟨_, hp, rfl⟩
  have hq' : q = (l, v) := by
    refine List.inj_on_of_nodup_map hd hq hp ?_
    have := (scat_only hdash l.group hg.1 q hq hqg).2
    exact this.trans hg.2
  subst hq'
  have hsplit : ∃ l', l.split[i]? = some l' ∧ scalar (l'.energy s.shift) = scatEnergy s.shift l e ∧ l'.width = 0 := by
    cases l with
    | fluo => cases hl
    | rayleigh t =>
      obtain rfl : t = src := Option.some.inj hl
      simp only [Line.split]
      split
      · next hlen =>
        cases t with
        | num t =>
          cases i with
          | zero => exact ⟨_, rfl, by simpa [Line.energy, scalar, scatEnergy, Val.toList] using hs, rfl⟩
          | succ i => simp [Val.toList] at hs
        | arr t =>
          obtain ⟨t, rfl⟩ := List.length_eq_one_iff.1 hlen
          cases i with
          | zero => exact ⟨_, rfl, by simpa [Line.energy, scalar, scatEnergy, Val.toList] using hs, rfl⟩
          | succ i => simp [Val.toList] at hs
      · exact ⟨.rayleigh (.num e), by simp [hs], rfl, rfl⟩
    | compton t =>
      obtain rfl : t = src := Option.some.inj hl
      simp only [Line.split]
      split
      · next hlen =>
        cases t with
        | num t =>
          cases i with
          | zero =>
            have : t = e := by simpa [Val.toList] using hs
            exact ⟨_, rfl, by simp [Line.energy, scalar, scatEnergy, Val.map, this], rfl⟩
          | succ i => simp [Val.toList] at hs
        | arr t =>
          obtain ⟨t, rfl⟩ := List.length_eq_one_iff.1 hlen
          cases i with
          | zero =>
            have : t = e := by simpa [Val.toList] using hs
            exact ⟨_, rfl, by simp [Line.energy, scalar, scatEnergy, Val.map, this], rfl⟩
          | succ i => simp [Val.toList] at hs
      · exact ⟨.compton (.num e), by simp [hs], rfl, rfl⟩
  obtain ⟨l', hl1, hl2, hl3⟩ := hsplit
  have hx := (infos_mem s.shift l.group _ imax hi _).2 ⟨i, l', a * m, by
      unfold infoLines
      rw [if_pos hg.1, hql]
      exact hl1, by
      unfold infoAreas
      rw [if_pos hg.1, hql]
      simp [map_toList, hv], rfl⟩
  have hnm : infoName l.group i l' = l.name ++ (toString i).toList := by
    unfold infoName
    rw [if_pos hg.1, hg.2]
  rw [hnm] at hx
  exact ⟨_, Dict.get?_of_mem hwfd ((hmem _).2 ⟨_, h2 _ hp, hx⟩), hg.2, hl2, hl3, rfl⟩

end

/-- Two iron lines and two energies of the source. -/
def exampleSpec : Spec :=
  ⟨[(.fluo "Fe-KL3".toList "Fe-K".toList 6 0, .arr [1, 2]), (.fluo "Fe-KM3".toList "Fe-K".toList 7 0, .arr [1, 1]),
    (.rayleigh (.arr [10, 9]), .arr [1, 4]), (.compton (.arr [10, 9]), .arr [3, 2])], Option.none, .rate, fun e => e - 1, 12⟩

example : exampleSpec.lineinfo true true = .ok [
    ("Fe-KL3".toList, ⟨"Fe-K".toList, some "Fe-K".toList, .num 6, 3, 0⟩),
    ("Fe-KM3".toList, ⟨"Fe-K".toList, Option.none, .num 7, 2, 0⟩),
    ("Compton1".toList, ⟨"Compton".toList, Option.none, .num 8, 2, 0⟩),
    ("Rayleigh1".toList, ⟨"Rayleigh".toList, some "Rayleigh".toList, .num 9, 4, 0⟩),
    ("Compton0".toList, ⟨"Compton".toList, some "Compton".toList, .num 9, 3, 0⟩),
    ("Rayleigh0".toList, ⟨"Rayleigh".toList, Option.none, .num 10, 1, 0⟩)] := by decide +kernel

example : Distinct exampleSpec.lines ∧ Matched exampleSpec.lines ∧ Dashed exampleSpec.lines ∧ Filled exampleSpec.lines := by
  refine ⟨by unfold Distinct; decide +kernel, ?_, ?_, ?_⟩
  · intro p hp s hs
    simp only [exampleSpec, List.mem_cons, List.not_mem_nil, or_false] at hp
    rcases hp with rfl | rfl | rfl | rfl <;> cases hs <;> rfl
  · unfold Dashed; decide +kernel
  · unfold Filled; decide +kernel

end SC.Spectrum
