import Verif.FitCfg.Model
import Mathlib.Tactic.FieldSimp
import Mathlib.Tactic.Ring
import Mathlib.Tactic.Linarith
/-! Helper lemmas: the adapted lines as ratios to the first line. -/
namespace SC.FitCfg
open SC.Py

theorem select_cons {α : Type} (b : Bool) (ind : List Bool) (a : α) (l : List α) :
    select (b :: ind) (a :: l) = if b then a :: select ind l else select ind l := by
  cases b <;> simp [select]

theorem select_length {α : Type} (ind : List Bool) (l : List α) (h : l.length = ind.length) :
    (select ind l).length = ind.count true := by
  induction ind generalizing l with
  | nil => cases l <;> simp [select] at h ⊢
  | cons b ind ih =>
    cases l with
    | nil => simp at h
    | cons a l =>
      simp only [List.length_cons, Nat.add_right_cancel_iff] at h
      rw [select_cons]
      cases b <;> simp [ih l h]

theorem select_pad {α : Type} (n k : Nat) (l r : List α) (h : l.length = n) :
    select (List.replicate n true ++ List.replicate k false) (l ++ r) = l := by
  induction n generalizing l with
  | zero =>
    have : l = [] := List.eq_nil_of_length_eq_zero h
    subst this
    simp only [List.replicate_zero, List.nil_append]
    induction k generalizing r with
    | zero => simp [select]
    | succ k ih =>
      cases r with
      | nil => simp [select]
      | cons a r => rw [List.replicate_succ, select_cons]; simpa using ih r
  | succ n ih =>
    cases l with
    | nil => simp at h
    | cons a l =>
      simp only [List.length_cons, Nat.add_right_cancel_iff] at h
      rw [List.replicate_succ, List.cons_append, List.cons_append, select_cons]
      simp [ih l h]

theorem padTo_length {α : Type} (n : Nat) (d : α) (l : List α) : (padTo n d l).length = max n l.length := by
  simp [padTo]; omega

/-- The flags. -/
def flags (c : Lines) : List Bool := c.flag.map fun f => decide (f ≠ 0)

/-- The values of the lines in use. -/
def sel {α : Type} (c : Lines) (d : α) (l : List α) : List α := select (flags c) ((padTo (flags c).length d l).take (flags c).length)

theorem sel_length {α : Type} (c : Lines) (d : α) (l : List α) : (sel c d l).length = (flags c).count true := by
  unfold sel
  apply select_length
  rw [List.length_take, padTo_length]
  omega

/-- Lines in use first, followed by lines not in use. -/
def pack (norg : Nat) (es ws : List Rat) (fs ss : List Rat) : Lines :=
  ⟨padTo norg none (es.map some), padTo norg (some 0) (ws.map some), padTo norg 0 fs, padTo norg 0 ss⟩

/-- Energies relative to the first. -/
def ratios (h : Rat) : List Val → List Rat
  | [] => []
  | e0 :: r => 1 :: r.map fun e => (div e e0).getD h

theorem zipIdx_tail {α β : Type} (f : α × Nat → β) (g : α → β) (hf : ∀ a k, 0 < k → f (a, k) = g a) (l : List α) (k : Nat) (hk : 0 < k) :
    (l.zipIdx k).map f = l.map g := by
  induction l generalizing k with
  | nil => rfl
  | cons a l ih =>
    rw [List.zipIdx_cons, List.map_cons, List.map_cons, hf a k hk, ih (k + 1) (by omega)]

theorem div_self_cases (e : Val) : div e e = some 1 ∨ div e e = none := by
  cases e with
  | none => right; rfl
  | some x =>
    unfold div
    by_cases hx : x = 0
    · right; simp [hx]
    · left; simp [hx]

theorem fillEnergy_eq (E h : Rat) (e0 : Val) (r : List Val) :
    fillEnergy E h ((e0 :: r).map fun e => (div e e0).map (· * E)) = (ratios h (e0 :: r)).map (· * E) := by
  unfold fillEnergy ratios
  rw [List.map_cons, List.zipIdx_cons, List.map_cons, List.map_cons]
  congr 1
  · rcases div_self_cases e0 with h' | h' <;> simp [h']
  · rw [zipIdx_tail _ (fun v : Val => v.getD (h * E)), List.map_map, List.map_map]
    · apply List.map_congr_left
      intro e _
      cases hd : div e e0 <;> simp [hd]
    · intro a k hk
      cases a with
      | none => simp; omega
      | some q => rfl
    · omega

theorem fillWeight_eq (w0 : Val) (r : List Val) :
    fillWeight ((w0 :: r).map fun w => div w w0) = ratios (1 / 10000000000) (w0 :: r) := by
  unfold fillWeight ratios
  rw [List.map_cons, List.zipIdx_cons, List.map_cons]
  congr 1
  · rcases div_self_cases w0 with h' | h' <;> simp [h']
  · rw [zipIdx_tail _ (fun v : Val => v.getD (1 / 10000000000)), List.map_map]
    · rfl
    · intro a k hk
      cases a with
      | none => simp; omega
      | some q => rfl
    · omega

theorem ratios_snoc_none (h : Rat) (es : List Val) (hes : es ≠ []) : ratios h (es ++ [none]) = ratios h es ++ [h] := by
  cases es with
  | nil => exact absurd rfl hes
  | cons e0 r =>
    have : (div none e0 : Val) = none := rfl
    simp [ratios, this]

theorem ratios_length (h : Rat) (es : List Val) : (ratios h es).length = es.length := by
  cases es <;> simp [ratios]

theorem ratios_head (h : Rat) (es : List Val) (hes : es ≠ []) : ∃ r, ratios h es = 1 :: r := by
  cases es with
  | nil => exact absurd rfl hes
  | cons e0 r => exact ⟨_, rfl⟩

/-- Relative energies stay. -/
theorem ratios_scaled (h E : Rat) (hE : E ≠ 0) (rs : List Rat) (r : List Rat) (hr : rs = 1 :: r) :
    ratios h ((rs.map (· * E)).map some) = rs := by
  subst hr
  simp only [List.map_cons, ratios, one_mul, List.map_map]
  congr 1
  conv_rhs => rw [← List.map_id r]
  apply List.map_congr_left
  intro x _
  simp [div, hE]

theorem ratios_again (h : Rat) (rs r : List Rat) (hr : rs = 1 :: r) : ratios h (rs.map some) = rs := by
  have := ratios_scaled h 1 (by decide) rs r hr
  simpa using this

theorem sel_eq_extract {α : Type} (c : Lines) (n : Nat) (d : α) (l : List α) :
    extract (flags c) n d l = padTo n d (sel c d l) := rfl

/-- Without high energy. -/
theorem adaptEnergy_plain (E : Rat) (c : Lines) (hn : 0 < (flags c).count true) :
    adaptEnergy E 0 c = some (pack (flags c).length ((ratios 0 (sel c none c.energy)).map (· * E))
      (ratios (1 / 10000000000) (sel c none c.weight)) (sel c 1 c.flag) (sel c 0 c.scatter), (flags c).count true) := by
  have he := sel_length c none c.energy
  have hw := sel_length c none c.weight
  have hf := sel_length c 1 c.flag
  have hs := sel_length c 0 c.scatter
  have hpad : ∀ {α : Type} (d : α) (l : List α), l.length = (flags c).count true → padTo ((flags c).count true) d l = l := by
    intro α d l hl
    simp [padTo, hl]
  unfold adaptEnergy
  simp only [isHigh, ne_eq, not_true_eq_false, decide_false, Bool.false_eq_true, if_false, Nat.add_zero]
  change (match (extract (flags c) ((flags c).count true) none c.energy).head?, (extract (flags c) ((flags c).count true) none c.weight).head? with
    | some e0, some w0 => _
    | _, _ => none) = _
  simp only [List.length_map] at *
  change (match (extract (flags c) ((flags c).count true) none c.energy).head?, (extract (flags c) ((flags c).count true) none c.weight).head? with
    | some e0, some w0 => some ((⟨padTo _ none ((fillEnergy E 0 ((extract (flags c) ((flags c).count true) none c.energy).map fun e => (div e e0).map (· * E))).map some),
        padTo _ (some 0) ((fillWeight ((extract (flags c) ((flags c).count true) none c.weight).map fun w => div w w0)).map some),
        padTo _ 0 (extract (flags c) ((flags c).count true) 1 c.flag), padTo _ 0 (extract (flags c) ((flags c).count true) 0 c.scatter)⟩ : Lines), (flags c).count true)
    | _, _ => none) = _
  simp only [sel_eq_extract, hpad _ _ he, hpad _ _ hw, hpad _ _ hf, hpad _ _ hs]
  cases hse : sel c none c.energy with
  | nil => rw [hse] at he; simp at he; omega
  | cons e0 r =>
    cases hsw : sel c none c.weight with
    | nil => rw [hsw] at hw; simp at hw; omega
    | cons w0 rw' =>
      simp only [List.head?_cons, fillEnergy_eq, fillWeight_eq]
      simp [pack, flags]

/-- The last element. -/
def lastD (l : List Rat) : Rat := l.getLast?.getD 0

/-- The last line is a high energy with a low weight. -/
def High (E : Rat) (rs ws : List Rat) : Prop := lastD ws < 1 / 100000 ∧ E < lastD rs * E

instance (E : Rat) (rs ws : List Rat) : Decidable (High E rs ws) := inferInstanceAs (Decidable (_ ∧ _))

theorem alreadyHigh_eq (E h : Rat) (rs ws : List Rat) (w : Rat) (hr : rs ≠ []) (hw : ∃ r, ws = 1 :: r) :
    alreadyHigh E ((rs ++ [h]).map (· * E)) (ws ++ [w]) = some (decide (High E rs ws)) := by
  obtain ⟨r', x, rfl⟩ : ∃ r' x, rs = r' ++ [x] := ⟨rs.dropLast, rs.getLast hr, (List.dropLast_append_getLast hr).symm⟩
  have hwne : ws ≠ [] := by obtain ⟨r, rfl⟩ := hw; simp
  have hws : ws = ws.dropLast ++ [ws.getLast hwne] := (List.dropLast_append_getLast hwne).symm
  have hlast : lastD ws = ws.getLast hwne := by
    unfold lastD
    rw [List.getLast?_eq_getLast_of_ne_nil hwne]; rfl
  have h1 : ((r' ++ [x] ++ [h]).map (· * E)).reverse = (h * E) :: (x * E) :: (r'.map (· * E)).reverse := by simp
  have h2 : (ws ++ [w]).reverse = w :: ws.getLast hwne :: ws.dropLast.reverse := by
    conv_lhs => rw [hws]
    simp
  unfold alreadyHigh
  rw [h1, h2]
  obtain ⟨r, rfl⟩ := hw
  simp only [List.cons_append]
  rw [Option.some.injEq]
  apply decide_eq_decide.2
  unfold High
  rw [hlast]
  simp [lastD]

theorem ratios_ne (h : Rat) (es : List Val) (hes : es ≠ []) : ratios h es ≠ [] := by
  obtain ⟨r, hr⟩ := ratios_head h es hes
  simp [hr]

/-- With a high energy. -/
theorem adaptEnergy_high (E h : Rat) (hh : h ≠ 0) (c : Lines) (hn : 0 < (flags c).count true) :
    adaptEnergy E h c =
      if High E (ratios h (sel c none c.energy)) (ratios (1 / 10000000000) (sel c none c.weight)) then
        some (pack (flags c).length ((ratios h (sel c none c.energy)).map (· * E))
          (ratios (1 / 10000000000) (sel c none c.weight)) (sel c 1 c.flag) (sel c 0 c.scatter), (flags c).count true)
      else
        some (pack (flags c).length ((ratios h (sel c none c.energy) ++ [h]).map (· * E))
          (ratios (1 / 10000000000) (sel c none c.weight) ++ [1 / 10000000000]) (sel c 1 c.flag ++ [1]) (sel c 0 c.scatter ++ [0]),
          (flags c).count true + 1) := by
  have he := sel_length c none c.energy
  have hw := sel_length c none c.weight
  have hf := sel_length c 1 c.flag
  have hs := sel_length c 0 c.scatter
  have hpad : ∀ {α : Type} (d : α) (l : List α), l.length = (flags c).count true → padTo ((flags c).count true + 1) d l = l ++ [d] := by
    intro α d l hl
    simp [padTo, hl]
  unfold adaptEnergy
  have hhi : isHigh h = true := by simp [isHigh, hh]
  simp only [hhi, if_true]
  generalize hout : (fun (es ws fs ss : List Rat) => pack (flags c).length es ws fs ss) = out
  change (match (extract (flags c) ((flags c).count true + 1) none c.energy).head?, (extract (flags c) ((flags c).count true + 1) none c.weight).head? with
    | some e0, some w0 =>
      match alreadyHigh E (fillEnergy E h ((extract (flags c) ((flags c).count true + 1) none c.energy).map fun e => (div e e0).map (· * E)))
          (fillWeight ((extract (flags c) ((flags c).count true + 1) none c.weight).map fun w => div w w0)) with
      | none => none
      | some true => some (pack (flags c).length
          (fillEnergy E h ((extract (flags c) ((flags c).count true + 1) none c.energy).map fun e => (div e e0).map (· * E))).dropLast
          (fillWeight ((extract (flags c) ((flags c).count true + 1) none c.weight).map fun w => div w w0)).dropLast
          (extract (flags c) ((flags c).count true + 1) 1 c.flag).dropLast (extract (flags c) ((flags c).count true + 1) 0 c.scatter).dropLast,
          (flags c).count true + 1 - 1)
      | some false => some (pack (flags c).length
          (fillEnergy E h ((extract (flags c) ((flags c).count true + 1) none c.energy).map fun e => (div e e0).map (· * E)))
          (fillWeight ((extract (flags c) ((flags c).count true + 1) none c.weight).map fun w => div w w0))
          (extract (flags c) ((flags c).count true + 1) 1 c.flag) (extract (flags c) ((flags c).count true + 1) 0 c.scatter),
          (flags c).count true + 1)
    | _, _ => none) = _
  simp only [sel_eq_extract, hpad _ _ he, hpad _ _ hw, hpad _ _ hf, hpad _ _ hs]
  have hene : sel c none c.energy ≠ [] := by intro h'; rw [h'] at he; simp at he; omega
  have hwne : sel c none c.weight ≠ [] := by intro h'; rw [h'] at hw; simp at hw; omega
  have hE := ratios_snoc_none h _ hene
  have hW := ratios_snoc_none (1 / 10000000000) _ hwne
  have hal := alreadyHigh_eq E h (ratios h (sel c none c.energy)) (ratios (1 / 10000000000) (sel c none c.weight)) (1 / 10000000000)
    (ratios_ne _ _ hene) (ratios_head _ _ hwne)
  clear hpad
  generalize sel c none c.energy = es at *
  generalize sel c none c.weight = ws at *
  cases es with
  | nil => exact absurd rfl hene
  | cons e0 r =>
    cases ws with
    | nil => exact absurd rfl hwne
    | cons w0 r' =>
      simp only [List.cons_append, List.head?_cons]
      rw [fillEnergy_eq, fillWeight_eq]
      rw [List.cons_append] at hE hW
      rw [hE, hW, hal]
      by_cases hH : High E (ratios h (e0 :: r)) (ratios (1 / 10000000000) (w0 :: r'))
      · simp only [decide_eq_true hH, if_pos hH]
        simp
      · simp only [decide_eq_false hH, if_neg hH]

/-- No line in use. -/
theorem adaptEnergy_none (E h : Rat) (c : Lines) (hn : (flags c).count true = 0) : adaptEnergy E h c = none := by
  have he := sel_length c none c.energy
  have hw := sel_length c none c.weight
  rw [hn] at he hw
  have he' := List.eq_nil_of_length_eq_zero he
  have hw' := List.eq_nil_of_length_eq_zero hw
  unfold adaptEnergy
  by_cases hh : isHigh h = true
  · simp only [hh, if_true]
    change (match (extract (flags c) ((flags c).count true + 1) none c.energy).head?, (extract (flags c) ((flags c).count true + 1) none c.weight).head? with
      | some e0, some w0 => _
      | _, _ => none) = _
    simp only [List.length_map] at *
    have h1 : extract (List.map (fun f => decide (f ≠ 0)) c.flag) ((List.map (fun f => decide (f ≠ 0)) c.flag).count true + 1) none c.energy = [none] := by
      change extract (flags c) ((flags c).count true + 1) none c.energy = [none]
      rw [sel_eq_extract, he', hn]; rfl
    have h2 : extract (List.map (fun f => decide (f ≠ 0)) c.flag) ((List.map (fun f => decide (f ≠ 0)) c.flag).count true + 1) none c.weight = [none] := by
      change extract (flags c) ((flags c).count true + 1) none c.weight = [none]
      rw [sel_eq_extract, hw', hn]; rfl
    rw [show (flags c) = List.map (fun f => decide (f ≠ 0)) c.flag from rfl, h1, h2]
    rfl
  · simp only [hh]
    have h1 : extract (List.map (fun f => decide (f ≠ 0)) c.flag) ((List.map (fun f => decide (f ≠ 0)) c.flag).count true + 0) none c.energy = [] := by
      change extract (flags c) ((flags c).count true + 0) none c.energy = []
      rw [sel_eq_extract, he', hn]; rfl
    rw [if_neg (by simp)]
    rw [h1]
    rfl

/-! ## Lines that were adapted before -/

theorem flags_pack (norg : Nat) (es ws fs ss : List Rat) (hf : ∀ f ∈ fs, f ≠ 0) :
    flags (pack norg es ws fs ss) = List.replicate fs.length true ++ List.replicate (norg - fs.length) false := by
  unfold flags pack padTo
  rw [List.map_append, List.map_replicate]
  congr 1
  · apply List.eq_replicate_iff.2
    refine ⟨by simp, fun b hb => ?_⟩
    obtain ⟨f, hf', rfl⟩ := List.mem_map.1 hb
    simpa using hf f hf'

theorem sel_pack {α : Type} (norg : Nat) (es ws fs ss : List Rat) (hf : ∀ f ∈ fs, f ≠ 0) (d d' : α) (l : List α) (hl : l.length = fs.length) :
    sel (pack norg es ws fs ss) d (padTo norg d' l) = l := by
  have hlen : (flags (pack norg es ws fs ss)).length = (padTo norg d' l).length := by
    rw [flags_pack _ _ _ _ _ hf, padTo_length, hl]; simp; omega
  unfold sel
  rw [hlen]
  have : padTo (padTo norg d' l).length d (padTo norg d' l) = padTo norg d' l := by simp [padTo]
  rw [this, List.take_length, flags_pack _ _ _ _ _ hf]
  exact select_pad _ _ _ _ hl

theorem mem_select {α : Type} (ind : List Bool) (l : List α) (x : α) (h : x ∈ select ind l) : (x, true) ∈ l.zip ind := by
  unfold select at h
  obtain ⟨y, hy, hx⟩ := List.mem_filterMap.1 h
  obtain ⟨a, b⟩ := y
  cases b with
  | false => simp at hx
  | true => simp at hx; subst hx; exact hy

/-- The flags of the lines in use. -/
theorem sel_flag_ne (c : Lines) : ∀ f ∈ sel c 1 c.flag, f ≠ 0 := by
  intro f hf
  unfold sel at hf
  have h1 : padTo (flags c).length 1 c.flag = c.flag := by simp [padTo, flags]
  rw [h1] at hf
  have h2 : c.flag.take (flags c).length = c.flag := by simp [flags]
  rw [h2] at hf
  have := mem_select _ _ _ hf
  unfold flags at this
  rw [List.zip_map_right] at this
  obtain ⟨⟨a, b⟩, hab, heq⟩ := List.mem_map.1 this
  simp only [Prod.map_apply, id_eq, Prod.mk.injEq] at heq
  have hab' : a = b := by
    rw [List.zip_eq_zipWith] at hab
    obtain ⟨i, hi, h⟩ := List.getElem_of_mem hab
    simp at h
    rw [← h.1, ← h.2]
  have := heq.2
  rw [← heq.1, hab']
  simpa using this

theorem count_pack (norg : Nat) (es ws fs ss : List Rat) (hf : ∀ f ∈ fs, f ≠ 0) : (flags (pack norg es ws fs ss)).count true = fs.length := by
  rw [flags_pack _ _ _ _ _ hf, List.count_append]
  simp [List.count_replicate]

theorem length_pack (norg : Nat) (es ws fs ss : List Rat) (hf : ∀ f ∈ fs, f ≠ 0) : (flags (pack norg es ws fs ss)).length = max norg fs.length := by
  rw [flags_pack _ _ _ _ _ hf]
  simp; omega

/-- Packing does not depend on the number of lines up to the number of lines in use. -/
theorem pack_max (norg n : Nat) (es ws fs ss : List Rat) (he : es.length = n) (hw : ws.length = n) (hf : fs.length = n) (hs : ss.length = n) :
    pack (max norg n) es ws fs ss = pack norg es ws fs ss := by
  have : ∀ {α : Type} (d : α) (l : List α), l.length = n → padTo (max norg n) d l = padTo norg d l := by
    intro α d l hl
    unfold padTo
    rw [hl]
    congr 2
    omega
  unfold pack
  rw [this _ _ (by simpa using he), this _ _ (by simpa using hw), this _ _ hf, this _ _ hs]

/-- The lists of a relative description of `n` lines. -/
structure IsRel (n : Nat) (rs ws fs ss : List Rat) : Prop where
  r : rs.length = n
  w : ws.length = n
  f : fs.length = n
  s : ss.length = n
  r1 : ∃ t, rs = 1 :: t
  w1 : ∃ t, ws = 1 :: t
  f0 : ∀ f ∈ fs, f ≠ 0

theorem isRel_sel (h : Rat) (c : Lines) (hn : 0 < (flags c).count true) :
    IsRel ((flags c).count true) (ratios h (sel c none c.energy)) (ratios (1 / 10000000000) (sel c none c.weight)) (sel c 1 c.flag) (sel c 0 c.scatter) := by
  have he := sel_length c none c.energy
  have hw := sel_length c none c.weight
  have hene : sel c none c.energy ≠ [] := by intro h'; rw [h'] at he; simp at he; omega
  have hwne : sel c none c.weight ≠ [] := by intro h'; rw [h'] at hw; simp at hw; omega
  exact ⟨by rw [ratios_length, he], by rw [ratios_length, hw], sel_length c 1 c.flag, sel_length c 0 c.scatter,
    ratios_head _ _ hene, ratios_head _ _ hwne, sel_flag_ne c⟩

theorem IsRel.snoc {n : Nat} {rs ws fs ss : List Rat} (hR : IsRel n rs ws fs ss) (h w : Rat) :
    IsRel (n + 1) (rs ++ [h]) (ws ++ [w]) (fs ++ [1]) (ss ++ [0]) := by
  obtain ⟨hr, hw, hf, hs, ⟨t, ht⟩, ⟨u, hu⟩, h0⟩ := hR
  refine ⟨by simp [hr], by simp [hw], by simp [hf], by simp [hs], ⟨t ++ [h], by simp [ht]⟩, ⟨u ++ [w], by simp [hu]⟩, ?_⟩
  intro f hf'
  rcases List.mem_append.1 hf' with h' | h'
  · exact h0 f h'
  · simp only [List.mem_singleton] at h'; subst h'; decide

theorem IsRel.pos {n : Nat} {rs ws fs ss : List Rat} (hR : IsRel n rs ws fs ss) : 0 < n := by
  obtain ⟨t, ht⟩ := hR.r1
  have := hR.r
  rw [ht] at this
  simp at this
  omega

/-- Adapting adapted lines, without high energy. -/
theorem adaptEnergy_packed (E E' : Rat) (hE : E ≠ 0) (norg n : Nat) (rs ws fs ss : List Rat) (hR : IsRel n rs ws fs ss) :
    adaptEnergy E' 0 (pack norg (rs.map (· * E)) ws fs ss) = some (pack norg (rs.map (· * E')) ws fs ss, n) := by
  have hc := count_pack norg (rs.map (· * E)) ws fs ss hR.f0
  have hl := length_pack norg (rs.map (· * E)) ws fs ss hR.f0
  have hpos := hR.pos
  have hfn := hR.f
  rw [adaptEnergy_plain _ _ (by omega), hc, hl]
  have h1 : sel (pack norg (rs.map (· * E)) ws fs ss) none (pack norg (rs.map (· * E)) ws fs ss).energy = (rs.map (· * E)).map some :=
    sel_pack _ _ _ _ _ hR.f0 _ _ _ (by simp [hR.r, hR.f])
  have h2 : sel (pack norg (rs.map (· * E)) ws fs ss) none (pack norg (rs.map (· * E)) ws fs ss).weight = ws.map some :=
    sel_pack _ _ _ _ _ hR.f0 _ _ _ (by simp [hR.w, hR.f])
  have h3 : sel (pack norg (rs.map (· * E)) ws fs ss) 1 (pack norg (rs.map (· * E)) ws fs ss).flag = fs :=
    sel_pack _ _ _ _ _ hR.f0 _ _ _ rfl
  have h4 : sel (pack norg (rs.map (· * E)) ws fs ss) 0 (pack norg (rs.map (· * E)) ws fs ss).scatter = ss :=
    sel_pack _ _ _ _ _ hR.f0 _ _ _ (by simp [hR.s, hR.f])
  obtain ⟨t, ht⟩ := hR.r1
  obtain ⟨u, hu⟩ := hR.w1
  rw [h1, h2, h3, h4, ratios_scaled 0 E hE rs t ht, ratios_again _ ws u hu, hR.f,
    pack_max _ _ _ _ _ _ (by simp [hR.r]) hR.w hR.f hR.s]

/-- Adapting adapted lines, with a high energy. -/
theorem adaptEnergy_packed_high (E E' h : Rat) (hE : E ≠ 0) (hh : h ≠ 0) (norg n : Nat) (rs ws fs ss : List Rat) (hR : IsRel n rs ws fs ss) :
    adaptEnergy E' h (pack norg (rs.map (· * E)) ws fs ss) =
      if High E' rs ws then some (pack norg (rs.map (· * E')) ws fs ss, n)
      else some (pack (max norg n) ((rs ++ [h]).map (· * E')) (ws ++ [1 / 10000000000]) (fs ++ [1]) (ss ++ [0]), n + 1) := by
  have hc := count_pack norg (rs.map (· * E)) ws fs ss hR.f0
  have hl := length_pack norg (rs.map (· * E)) ws fs ss hR.f0
  have hpos := hR.pos
  have hfn := hR.f
  rw [adaptEnergy_high _ _ hh _ (by omega), hc, hl]
  have h1 : sel (pack norg (rs.map (· * E)) ws fs ss) none (pack norg (rs.map (· * E)) ws fs ss).energy = (rs.map (· * E)).map some :=
    sel_pack _ _ _ _ _ hR.f0 _ _ _ (by simp [hR.r, hR.f])
  have h2 : sel (pack norg (rs.map (· * E)) ws fs ss) none (pack norg (rs.map (· * E)) ws fs ss).weight = ws.map some :=
    sel_pack _ _ _ _ _ hR.f0 _ _ _ (by simp [hR.w, hR.f])
  have h3 : sel (pack norg (rs.map (· * E)) ws fs ss) 1 (pack norg (rs.map (· * E)) ws fs ss).flag = fs :=
    sel_pack _ _ _ _ _ hR.f0 _ _ _ rfl
  have h4 : sel (pack norg (rs.map (· * E)) ws fs ss) 0 (pack norg (rs.map (· * E)) ws fs ss).scatter = ss :=
    sel_pack _ _ _ _ _ hR.f0 _ _ _ (by simp [hR.s, hR.f])
  obtain ⟨t, ht⟩ := hR.r1
  obtain ⟨u, hu⟩ := hR.w1
  rw [h1, h2, h3, h4, ratios_scaled h E hE rs t ht, ratios_again _ ws u hu, hR.f,
    pack_max _ _ _ _ _ _ (by simp [hR.r]) hR.w hR.f hR.s]

theorem high_iff (E : Rat) (hE : 0 < E) (rs ws : List Rat) : High E rs ws ↔ lastD ws < 1 / 100000 ∧ 1 < lastD rs := by
  unfold High
  constructor
  · rintro ⟨h1, h2⟩
    refine ⟨h1, ?_⟩
    by_contra h3
    have := mul_le_mul_of_nonneg_right (not_lt.1 h3) hE.le
    linarith
  · rintro ⟨h1, h2⟩
    refine ⟨h1, ?_⟩
    have := mul_lt_mul_of_pos_right h2 hE
    linarith

theorem high_snoc (E h : Rat) (hE : 0 < E) (rs ws : List Rat) : High E (rs ++ [h]) (ws ++ [1 / 10000000000]) ↔ 1 < h := by
  rw [high_iff E hE]
  unfold lastD
  simp
  intro _
  norm_num

/-- Adapting twice is adapting once. -/
theorem adaptEnergy_twice (E E' h : Rat) (hE : 0 < E) (hE' : 0 < E') (hh : h = 0 ∨ 1 < h) (c c' : Lines) (n : Nat)
    (h1 : adaptEnergy E h c = some (c', n)) : adaptEnergy E' h c' = adaptEnergy E' h c := by
  have hn : 0 < (flags c).count true := by
    rcases Nat.eq_zero_or_pos ((flags c).count true) with h0 | h0
    · rw [adaptEnergy_none _ _ _ h0] at h1; exact absurd h1 (by simp)
    · exact h0
  have hR := isRel_sel h c hn
  rcases hh with rfl | hh
  · rw [adaptEnergy_plain _ _ hn] at h1 ⊢
    simp only [Option.some.injEq, Prod.mk.injEq] at h1
    obtain ⟨rfl, rfl⟩ := h1
    exact adaptEnergy_packed E E' hE.ne' _ _ _ _ _ _ hR
  · have h0 : h ≠ 0 := by rintro rfl; exact absurd hh (by norm_num)
    rw [adaptEnergy_high _ _ h0 _ hn] at h1 ⊢
    generalize ratios h (sel c none c.energy) = rs at *
    generalize ratios (1 / 10000000000) (sel c none c.weight) = ws at *
    generalize sel c 1 c.flag = fs at *
    generalize sel c 0 c.scatter = ss at *
    by_cases hH : High E rs ws
    · have hH' : High E' rs ws := (high_iff E' hE' _ _).2 ((high_iff E hE _ _).1 hH)
      rw [if_pos hH] at h1
      simp only [Option.some.injEq, Prod.mk.injEq] at h1
      obtain ⟨rfl, rfl⟩ := h1
      rw [adaptEnergy_packed_high E E' h hE.ne' h0 _ _ _ _ _ _ hR, if_pos hH', if_pos hH']
    · have hH' : ¬ High E' rs ws := fun h => hH ((high_iff E hE _ _).2 ((high_iff E' hE' _ _).1 h))
      rw [if_neg hH] at h1
      simp only [Option.some.injEq, Prod.mk.injEq] at h1
      obtain ⟨rfl, rfl⟩ := h1
      rw [adaptEnergy_packed_high E E' h hE.ne' h0 _ _ _ _ _ _ (hR.snoc h _), if_pos ((high_snoc E' h hE' _ _).2 hh), if_neg hH']

end SC.FitCfg
