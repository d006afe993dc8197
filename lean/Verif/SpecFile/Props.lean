import Verif.SpecFile.Model
import Mathlib.Data.List.Basic
/-! # C77: look-ups in a spec file -/
namespace SC.SpecFile
open SC.Scan (Str)
open SC.Py (Dict)

/-! ## Labels -/

/-- Two names are the same but for case. -/
def Same (a b : Str) : Prop := a.map Char.toLower = b.map Char.toLower

instance (a b : Str) : Decidable (Same a b) := by unfold Same; infer_instance

/-- `i` is the first place with the name of `l`. -/
def First (names : List Str) (l : Str) (i : Nat) : Prop :=
  (∃ x, names[i]? = some x ∧ Same x l) ∧ ∀ j < i, ∀ y, names[j]? = some y → ¬ Same y l

theorem index_first (names : List Str) (l : Str) (i : Nat) :
    index (names.map lower) (lower l) = some i ↔ First names l i := by
  induction names generalizing i with
  | nil => simp [index, First]
  | cons x r ih =>
    simp only [List.map_cons, index]
    by_cases hx : lower x = lower l
    · rw [if_pos hx]
      simp only [Option.some.injEq]
      constructor
      · rintro rfl
        exact ⟨⟨x, rfl, hx⟩, by intro j hj; omega⟩
      · rintro ⟨_, h2⟩
        rcases Nat.eq_zero_or_pos i with h | h
        · exact h.symm
        · exact absurd hx (h2 0 h x rfl)
    · rw [if_neg hx]
      cases i with
      | zero =>
        simp only [Option.map_eq_some_iff]
        constructor
        · rintro ⟨a, _, ha⟩; omega
        · rintro ⟨⟨y, h1, h2⟩, _⟩
          simp only [List.getElem?_cons_zero, Option.some.injEq] at h1
          subst h1
          exact absurd h2 hx
      | succ i =>
        simp only [Option.map_eq_some_iff, Nat.add_right_cancel_iff, exists_eq_right]
        rw [ih]
        unfold First
        simp only [List.getElem?_cons_succ]
        constructor
        · rintro ⟨h1, h2⟩
          refine ⟨h1, ?_⟩
          intro j hj y hy
          cases j with
          | zero =>
            simp only [List.getElem?_cons_zero, Option.some.injEq] at hy
            subst hy; exact hx
          | succ j => exact h2 j (by omega) y (by simpa using hy)
        · rintro ⟨h1, h2⟩
          refine ⟨h1, ?_⟩
          intro j hj y hy
          exact h2 (j + 1) (by omega) y (by simpa using hy)

theorem index_none (names : List Str) (l : Str) :
    index (names.map lower) (lower l) = none ↔ ∀ x ∈ names, ¬ Same x l := by
  induction names with
  | nil => simp [index]
  | cons x r ih =>
    simp only [List.map_cons, index, List.forall_mem_cons]
    by_cases hx : lower x = lower l
    · rw [if_pos hx]
      have : Same x l := hx
      simp [this]
    · rw [if_neg hx]
      have : ¬ Same x l := hx
      simp [this, ih]

theorem indices_ok (names labels : List Str) (ind : List Nat) :
    indices (names.map lower) (labels.map lower) = .ok ind ↔ List.Forall₂ (First names) labels ind := by
  induction labels generalizing ind with
  | nil =>
    simp only [List.map_nil, indices, Except.ok.injEq, List.forall₂_nil_left_iff]
    exact ⟨fun h => h.symm, fun h => h.symm⟩
  | cons l r ih =>
    simp only [List.map_cons, indices]
    cases hi : index (names.map lower) (lower l) with
    | none =>
      simp only [reduceCtorEq, false_iff]
      intro h
      cases h with
      | cons h1 h2 => rw [← index_first, hi] at h1; simp at h1
    | some i =>
      have h1 := (index_first names l i).1 hi
      cases hr : indices (names.map lower) (r.map lower) with
      | error e =>
        simp only [reduceCtorEq, false_iff]
        intro h
        cases h with
        | cons h1 h2 => rw [← ih, hr] at h2; simp at h2
      | ok t =>
        simp only [Except.ok.injEq]
        constructor
        · rintro rfl
          exact List.Forall₂.cons h1 ((ih t).1 hr)
        · intro h
          cases h with
          | cons h2 h3 =>
            rw [← index_first, hi] at h2
            rw [← ih, hr] at h3
            simp only [Option.some.injEq] at h2
            simp only [Except.ok.injEq] at h3
            rw [h2, h3]

theorem indices_error (names labels : List Str) :
    indices (names.map lower) (labels.map lower) = .error .valueError ↔ ∃ l ∈ labels, ∀ x ∈ names, ¬ Same x l := by
  induction labels with
  | nil => simp [indices]
  | cons l r ih =>
    simp only [List.map_cons, indices]
    cases hi : index (names.map lower) (lower l) with
    | none =>
      have h1 := (index_none names l).1 hi
      simp only [true_iff]
      exact ⟨l, by simp, h1⟩
    | some i =>
      have h1 : ¬ ∀ x ∈ names, ¬ Same x l := by
        rw [← index_none, hi]; simp
      cases hr : indices (names.map lower) (r.map lower) with
      | error e =>
        have : e = .valueError := by
          cases e <;> first | rfl | (exfalso; revert hr; clear ih; induction r with
            | nil => simp [indices]
            | cons a b ihb =>
              simp only [List.map_cons, indices]
              split
              · simp
              · split
                · rename_i h; intro h'; simp only [Except.error.injEq] at h'; subst h'; exact ihb h
                · simp)
        subst this
        simp only [true_iff]
        obtain ⟨l', h2, h3⟩ := ih.1 hr
        exact ⟨l', by simp [h2], h3⟩
      | ok t =>
        simp only [reduceCtorEq, false_iff]
        rintro ⟨l', h2, h3⟩
        rcases List.mem_cons.1 h2 with rfl | h2
        · exact h1 h3
        · have := ih.2 ⟨l', h2, h3⟩
          rw [hr] at this
          simp at this

/-- **C77.** Asking for columns by name: row by row the values of the first column with each name, case
ignored, in the order asked for. -/
theorem data_ok (names : List Str) (rows : List (List Rat)) (labels : List Str) (hl : labels ≠ []) (out : List (List Rat)) :
    dataFromScan names rows labels = .ok out ↔
      ∃ ind : List Nat, List.Forall₂ (First names) labels ind ∧ out = rows.map fun r => ind.map fun i => r.getD i 0 := by
  unfold dataFromScan
  rw [if_neg (by simpa using hl)]
  constructor
  · intro h
    cases hi : indices (names.map lower) (labels.map lower) with
    | error e => simp [hi] at h
    | ok ind =>
      simp only [hi, Except.ok.injEq] at h
      exact ⟨ind, (indices_ok names labels ind).1 hi, h.symm⟩
  · rintro ⟨ind, h1, rfl⟩
    rw [(indices_ok names labels ind).2 h1]

/-- **C77.** Asking for a column that does not exist raises ValueError, also when others exist. -/
theorem data_error (names : List Str) (rows : List (List Rat)) (labels : List Str) :
    dataFromScan names rows labels = .error .valueError ↔ ∃ l ∈ labels, ∀ x ∈ names, ¬ Same x l := by
  unfold dataFromScan
  rw [← indices_error]
  cases labels with
  | nil => simp [indices]
  | cons l r =>
    simp only [List.isEmpty_cons, Bool.false_eq_true, if_false]
    cases indices (names.map lower) ((l :: r).map lower) <;> simp

/-- **C77.** The motors asked for, in that order. -/
theorem motors_ok (names : List Str) (values : List Rat) (motors : List Str) (out : List Rat) :
    motorValues names values motors = .ok out ↔
      ∃ ind : List Nat, List.Forall₂ (First names) motors ind ∧ out = ind.map fun i => values.getD i 0 := by
  unfold motorValues
  constructor
  · intro h
    cases hi : indices (names.map lower) (motors.map lower) with
    | error e => simp [hi] at h
    | ok ind =>
      simp only [hi, Except.ok.injEq] at h
      exact ⟨ind, (indices_ok names motors ind).1 hi, h.symm⟩
  · rintro ⟨ind, h1, rfl⟩
    rw [(indices_ok names motors ind).2 h1]

/-- **C77.** `haslabels` tells for which labels the data can be read. -/
theorem has_iff (names labels : List Str) (i : Nat) (l : Str) (hl : labels[i]? = some l) (rows : List (List Rat)) :
    (has names labels)[i]? = some true ↔ ∃ out : List (List Rat), dataFromScan names rows [l] = .ok out := by
  have h1 : (has names labels)[i]? = some ((names.map lower).contains (lower l)) := by
    unfold has
    simp [hl]
  rw [h1]
  have h2 : (∃ out : List (List Rat), dataFromScan names rows [l] = .ok out) ↔ ∃ x ∈ names, Same x l := by
    constructor
    · rintro ⟨out, ho⟩
      obtain ⟨ind, h3, _⟩ := (data_ok names rows [l] (by simp) out).1 ho
      cases h3 with
      | cons h4 _ =>
        obtain ⟨⟨x, h5, h6⟩, _⟩ := h4
        exact ⟨x, List.mem_of_getElem? h5, h6⟩
    · rintro ⟨x, hx, hs⟩
      cases ho : dataFromScan names rows [l] with
      | ok out => exact ⟨out, rfl⟩
      | error e =>
        exfalso
        unfold dataFromScan at ho
        simp only [List.isEmpty_cons, Bool.false_eq_true, if_false] at ho
        cases hi : index (names.map lower) (lower l) with
        | none => exact (index_none names l).1 hi x hx hs
        | some k => simp [indices, hi] at ho
  rw [h2]
  simp only [Option.some.injEq, List.contains_iff_mem, List.mem_map]
  constructor
  · rintro ⟨x, hx, hs⟩; exact ⟨x, hx, hs⟩
  · rintro ⟨x, hx, hs⟩; exact ⟨x, hx, hs⟩

example : dataFromScan [['A'], ['b']] [[1, 2], [3, 4]] [['B'], ['a']] = .ok [[2, 1], [4, 3]] := rfl
example : First [['A'], ['b']] ['B'] 1 := by
  refine ⟨⟨['b'], rfl, by decide⟩, ?_⟩
  intro j hj y hy
  have : j = 0 := by omega
  subst this
  simp only [List.getElem?_cons_zero, Option.some.injEq] at hy
  subst hy; decide

/-- Not so: of two names that differ in case only the first can be read. -/
theorem case_hidden (rows : List (List Rat)) : dataFromScan [['a'], ['A']] rows [['A']] = .ok (rows.map fun r => [r.getD 0 0]) := rfl

/-! ## Location of XIA files -/

/-- The line is `#C key:value`, with blanks around key and value. -/
def Says (line k v : Str) : Prop :=
  tC <+: line ∧ ∃ a b : Str, ':' ∉ a ∧ ':' ∉ b ∧ line.drop 2 = a ++ ':' :: b ∧ strip a = k ∧ strip b = v

theorem split_free (a : Str) (h : ':' ∉ a) : split a = [a] := by
  induction a with
  | nil => rfl
  | cons c r ih =>
    simp only [List.mem_cons, not_or] at h
    unfold split
    rw [ih h.2]
    simp [Ne.symm h.1]

theorem split_colon (a b : Str) (h : ':' ∉ a) : split (a ++ ':' :: b) = a :: split b := by
  induction a with
  | nil =>
    simp only [List.nil_append]
    rw [split]
    cases hb : split b with
    | nil =>
      exfalso
      revert hb
      cases b with
      | nil => simp [split]
      | cons c s => unfold split; split <;> (try split) <;> simp
    | cons w r => simp
  | cons c r ih =>
    simp only [List.mem_cons, not_or] at h
    rw [List.cons_append, split, ih h.2]
    simp [Ne.symm h.1]

theorem says_step (xia : Str → Str × Str × Str) (l : Loc) {line k v : Str} (h : Says line k v) :
    locStep xia l line = l.put k v := by
  obtain ⟨hp, a, b, ha, hb, hl, rfl, rfl⟩ := h
  have hp' : tC.isPrefixOf line = true := by rw [List.isPrefixOf_iff_prefix]; exact hp
  have hx : tXia.isPrefixOf line = false := by
    obtain ⟨t, rfl⟩ := hp
    rfl
  unfold locStep
  rw [hl, split_colon a b ha, split_free b hb]
  simp [hp', hx]

/-- Lines of other kinds. -/
def Silent (line : Str) : Prop :=
  ¬ tXia <+: line ∧ (∀ v, ¬ Says line kDir v) ∧ (∀ v, ¬ Says line kRadix v) ∧ (∀ v, ¬ Says line kScan v) ∧ ∀ v, ¬ Says line kImage v

theorem split_two {s a b : Str} (h : split s = [a, b]) : ':' ∉ a ∧ ':' ∉ b ∧ s = a ++ ':' :: b := by
  by_cases hc : ':' ∈ s
  · obtain ⟨p, q, rfl, hp⟩ := List.eq_append_cons_of_mem hc
    rw [split_colon p q hp] at h
    simp only [List.cons.injEq] at h
    obtain ⟨rfl, h⟩ := h
    by_cases hq : ':' ∈ q
    · obtain ⟨p', q', rfl, hp'⟩ := List.eq_append_cons_of_mem hq
      rw [split_colon p' q' hp'] at h
      simp only [List.cons.injEq] at h
      exfalso
      have : split q' ≠ [] := by
        cases q' with
        | nil => simp [split]
        | cons c s => unfold split; split <;> (try split) <;> simp
      exact this h.2
    · rw [split_free q hq] at h
      simp only [List.cons.injEq, and_true] at h
      subst h
      exact ⟨hp, hq, rfl⟩
  · rw [split_free s hc] at h
    simp at h

theorem silent_step (xia : Str → Str × Str × Str) (l : Loc) {line : Str} (h : Silent line) : locStep xia l line = l := by
  obtain ⟨hx, h1, h2, h3, h4⟩ := h
  have hx' : tXia.isPrefixOf line = false := by
    rw [Bool.eq_false_iff]
    intro hh
    exact hx (List.isPrefixOf_iff_prefix.1 hh)
  unfold locStep
  simp only [hx', Bool.false_eq_true, if_false]
  split
  · rename_i hp
    have hp' : tC <+: line := List.isPrefixOf_iff_prefix.1 hp
    split
    · rename_i a b hs
      obtain ⟨ha, hb, he⟩ := split_two hs
      have hsay : Says line (strip a) (strip b) := ⟨hp', a, b, ha, hb, he, rfl, rfl⟩
      unfold Loc.put
      split
      · rename_i hk; rw [hk] at hsay; exact absurd hsay (h1 _)
      · split
        · rename_i hk; rw [hk] at hsay; exact absurd hsay (h2 _)
        · split
          · rename_i hk; rw [hk] at hsay; exact absurd hsay (h3 _)
          · split
            · rename_i hk; rw [hk] at hsay; exact absurd hsay (h4 _)
            · rfl
    · rfl
  · rfl

/-- **C77.** A header with the four lines of a zap scan, in this order and with any other lines around:
the location is exactly what these lines say. -/
theorem loc_lines (xia : Str → Str × Str × Str) (p0 p1 p2 p3 p4 : List Str) (s1 s2 s3 s4 d r n i : Str)
    (h0 : ∀ x ∈ p0, Silent x) (h1 : ∀ x ∈ p1, Silent x) (h2 : ∀ x ∈ p2, Silent x) (h3 : ∀ x ∈ p3, Silent x) (h4 : ∀ x ∈ p4, Silent x)
    (hd : Says s1 kDir d) (hr : Says s2 kRadix r) (hn : Says s3 kScan n) (hi : Says s4 kImage i) :
    xiaLoc xia (p0 ++ s1 :: (p1 ++ s2 :: (p2 ++ s3 :: (p3 ++ s4 :: p4)))) = ⟨d, r, n, i⟩ := by
  have sil : ∀ (p : List Str), (∀ x ∈ p, Silent x) → ∀ l : Loc, p.foldl (locStep xia) l = l := by
    intro p
    induction p with
    | nil => intro _ l; rfl
    | cons x t ih =>
      intro hp l
      rw [List.foldl_cons, silent_step xia l (hp x (by simp))]
      exact ih (fun y hy => hp y (by simp [hy])) l
  unfold xiaLoc
  simp only [List.foldl_append, List.foldl_cons]
  rw [sil p0 h0, says_step xia _ hd, sil p1 h1, says_step xia _ hr, sil p2 h2, says_step xia _ hn, sil p3 h3, says_step xia _ hi,
    sil p4 h4]
  rfl

/-- **C77.** A line with the name of an XIA file decides when no later line says something. -/
theorem loc_file (xia : Str → Str × Str × Str) (p q : List Str) (f : Str) (hq : ∀ x ∈ q, Silent x) :
    xiaLoc xia (p ++ (tXia ++ f) :: q) = ⟨(xia f).1, (xia f).2.1, (xia f).2.2, ['0']⟩ := by
  have sil : ∀ (p : List Str), (∀ x ∈ p, Silent x) → ∀ l : Loc, p.foldl (locStep xia) l = l := by
    intro p
    induction p with
    | nil => intro _ l; rfl
    | cons x t ih =>
      intro hp l
      rw [List.foldl_cons, silent_step xia l (hp x (by simp))]
      exact ih (fun y hy => hp y (by simp [hy])) l
  unfold xiaLoc
  rw [List.foldl_append, List.foldl_cons, sil q hq]
  generalize List.foldl (locStep xia) ⟨[], [], [], []⟩ p = l
  have e2 : tXia.isPrefixOf (tXia ++ f) = true := by rw [List.isPrefixOf_iff_prefix]; exact List.prefix_append _ _
  have e3 : (tXia ++ f).drop 10 = f := rfl
  unfold locStep
  simp [e2, e3]

def lDir : Str := tC ++ kDir ++ [' ', ':', ' ', '/', 'd']
def lColon : Str := tC ++ kDir ++ [':', ' ', 'C', ':', '/', 'd']

example : Says lDir kDir ['/', 'd'] :=
  ⟨⟨_, rfl⟩, [' '] ++ kDir ++ [' '], [' ', '/', 'd'], by decide, by decide, rfl, rfl, rfl⟩
example : Silent (tC ++ ['h', 'i']) := by
  refine ⟨by decide, ?_, ?_, ?_, ?_⟩ <;>
  · rintro v ⟨_, a, b, _, _, h, _⟩
    have : (':' : Char) ∈ (tC ++ ['h', 'i']).drop 2 := by rw [h]; simp
    revert this; decide

/-- Not so: a directory with a colon is not seen, without a message. -/
theorem loc_colon (xia : Str → Str × Str × Str) : xiaLoc xia [lColon] = ⟨[], [], [], []⟩ := rfl

/-! ## Images -/

/-- **C77.** The dictionary of images: for each name and number the last scan which gives it. -/
theorem images_last (scans : List Scan) (d0 d : Dict (Str × Nat) Image) (h : images scans d0 = .ok d) (k : Str × Nat) :
    Dict.get? d k = ((scans.filterMap fun s => match imageOf s with
      | .ok (some (k', i)) => if k' = k then some i else none
      | _ => none).getLast?).or (Dict.get? d0 k) := by
  induction scans generalizing d0 with
  | nil =>
    unfold images at h
    simp only [Except.ok.injEq] at h
    subst h
    simp
  | cons s r ih =>
    unfold images at h
    cases hi : imageOf s with
    | error e => simp [hi] at h
    | ok o =>
      cases o with
      | none =>
        simp only [hi] at h
        rw [ih d0 h]
        simp only [List.filterMap_cons, hi]
      | some p =>
        obtain ⟨k', i⟩ := p
        simp only [hi] at h
        rw [ih _ h, Dict.get?_set]
        simp only [List.filterMap_cons, hi]
        by_cases hk : k' = k
        · simp only [hk, if_true]
          rw [List.getLast?_cons]
          cases hg : (r.filterMap fun s => match imageOf s with
            | .ok (some (k', i)) => if k' = k then some i else none
            | _ => none).getLast? <;> simp
        · simp only [hk, if_false]

/-- The entries of a command. -/
structure Cmd (s : Scan) (sf ef : Rat) (n m : Nat) : Prop where
  ex : ∃ l, SC.Scan.parse s.command = some l ∧ EdfHead.numOf l .startfast = some sf ∧ EdfHead.numOf l .endfast = some ef ∧
    EdfHead.intOf l .npixelsfast = some (n : Int) ∧ EdfHead.intOf l .nstepsslow = some (m : Int)

/-- **C77 (part).** Numbers of pixels and lines, size and pixel size in the fast direction. What is missing
because it is false: the same for the slow direction, see `images_slow`. -/
theorem image_fast_partial {s : Scan} {sf ef : Rat} {n m : Nat} (hc : Cmd s sf ef n m) {k : Str × Nat} {i : Image}
    (h : imageOf s = .ok (some (k, i))) :
    i.specnumber = s.number ∧ i.npixels = n ∧ i.nlines = m + 1 ∧ i.sizeFast = ef - sf - (ef - sf) / n ∧
      i.pixelFast = (ef - sf) / ((n : Rat) - 1) ∧ k.1 = i.name ∧ 1 < n := by
  obtain ⟨l, h1, h2, h3, h4, h5⟩ := hc.ex
  unfold imageOf at h
  simp only [h1, h2, h3, h4, h5, Option.getD_some, Int.toNat_natCast] at h
  split at h
  · unfold SC.Scan.zaplineScansize SC.Scan.zaplinePixelsize SC.Scan.ascanPixelsize at h
    by_cases h0 : n = 0
    · simp [h0] at h
    · by_cases h6 : (n : Rat) - 1 = 0
      · simp [h0, h6] at h
      · simp only [h0, h6, if_false] at h
        have hn : 1 < n := by
          rcases Nat.lt_or_ge 1 n with hh | hh
          · exact hh
          · have : n = 1 := by omega
            subst this; simp at h6
        cases hh : comments s.header with
        | error e => simp [hh] at h
        | ok hd =>
          simp only [hh] at h
          split at h
          · split at h
            · simp at h
            · simp only [Except.ok.injEq, Option.some.injEq, Prod.mk.injEq] at h
              obtain ⟨hk, hi⟩ := h
              subst hi; subst hk
              exact ⟨rfl, rfl, rfl, rfl, rfl, rfl, hn⟩
          · simp at h
  · simp at h

/-- Not so: size and step of the slow direction are computed from the fast one. -/
theorem images_slow {s : Scan} {sf ef : Rat} {n m : Nat} (hc : Cmd s sf ef n m) {k : Str × Nat} {i : Image}
    (h : imageOf s = .ok (some (k, i))) : i.sizeSlow = ef - sf ∧ i.pixelSlow = (ef - sf) / n := by
  obtain ⟨l, h1, h2, h3, h4, h5⟩ := hc.ex
  unfold imageOf at h
  simp only [h1, h2, h3, h4, h5, Option.getD_some, Int.toNat_natCast] at h
  split at h
  · unfold SC.Scan.zaplineScansize SC.Scan.zaplinePixelsize SC.Scan.ascanPixelsize at h
    by_cases h0 : n = 0
    · simp [h0] at h
    · by_cases h6 : (n : Rat) - 1 = 0
      · simp [h0, h6] at h
      · simp only [h0, h6, if_false] at h
        cases hh : comments s.header with
        | error e => simp [hh] at h
        | ok hd =>
          simp only [hh] at h
          split at h
          · split at h
            · simp at h
            · simp only [Except.ok.injEq, Option.some.injEq, Prod.mk.injEq] at h
              obtain ⟨hk, hi⟩ := h
              subst hi; subst hk
              exact ⟨rfl, rfl⟩
          · simp at h
  · simp at h

/-- The text occurs in the line. -/
def Has (t line : Str) : Prop := ∃ a b : Str, line = a ++ t ++ b

theorem contains_iff (t line : Str) : contains t line = true ↔ Has t line := by
  induction line with
  | nil =>
    unfold contains Has
    cases t with
    | nil => simp
    | cons c r => simp
  | cons c r ih =>
    unfold contains
    rw [Bool.or_eq_true, ih, List.isPrefixOf_iff_prefix]
    constructor
    · rintro (⟨b, hb⟩ | ⟨a, b, hab⟩)
      · exact ⟨[], b, by simp [hb]⟩
      · exact ⟨c :: a, b, by simp [hab]⟩
    · rintro ⟨a, b, hab⟩
      cases a with
      | nil => exact Or.inl ⟨b, by simpa using hab.symm⟩
      | cons x a =>
        simp only [List.cons_append, List.cons.injEq] at hab
        exact Or.inr ⟨a, b, hab.2⟩

/-- The value of a comment: what is between the first colon and the next one (or the end), without blanks
around. -/
def Comment (line v : Str) : Prop :=
  ∃ a b r : Str, ':' ∉ a ∧ ':' ∉ b ∧ line = a ++ ':' :: (b ++ r) ∧ (r = [] ∨ ∃ r', r = ':' :: r') ∧ strip b = v

theorem comment_value {line w : Str} (h : (split line)[1]? = some w) : Comment line (strip w) := by
  by_cases hc : ':' ∈ line
  · obtain ⟨p, q, rfl, hp⟩ := List.eq_append_cons_of_mem hc
    rw [split_colon p q hp] at h
    by_cases hq : ':' ∈ q
    · obtain ⟨p', q', rfl, hp'⟩ := List.eq_append_cons_of_mem hq
      rw [split_colon p' q' hp'] at h
      simp only [List.getElem?_cons_succ, List.getElem?_cons_zero, Option.some.injEq] at h
      subst h
      exact ⟨p, p', ':' :: q', hp, hp', rfl, Or.inr ⟨q', rfl⟩, rfl⟩
    · rw [split_free q hq] at h
      simp only [List.getElem?_cons_succ, List.getElem?_cons_zero, Option.some.injEq] at h
      subst h
      exact ⟨p, q, [], hp, hq, by simp, Or.inl rfl, rfl⟩
  · rw [split_free line hc] at h
    simp at h

theorem comments_spec (header : List Str) (out : List Str) (h : comments header = .ok out) :
    List.Forall₂ Comment (header.filter fun s => contains tC s) out := by
  induction header generalizing out with
  | nil =>
    unfold comments at h
    simp only [Except.ok.injEq] at h
    subst h
    exact List.Forall₂.nil
  | cons s r ih =>
    unfold comments at h
    rw [List.filter_cons]
    split at h
    · rename_i hc
      rw [if_pos hc]
      cases hs : (split s)[1]? with
      | none => simp [hs] at h
      | some w =>
        cases hr : comments r with
        | error e => simp [hs, hr] at h
        | ok t =>
          simp only [hs, hr, Except.ok.injEq] at h
          subst h
          exact List.Forall₂.cons (comment_value hs) (ih t hr)
    · rename_i hc
      rw [if_neg hc]
      exact ih out h

/-- **C77.** Directory, name and number of an image are the values of the first three comments, and name
and number make its key. -/
theorem image_header {s : Scan} {k : Str × Nat} {i : Image} (h : imageOf s = .ok (some (k, i))) :
    ∃ (l1 l2 l3 : Str) (r : List Str), (s.header.filter fun x => contains tC x) = l1 :: l2 :: l3 :: r ∧
      Comment l1 i.dir ∧ Comment l2 i.name ∧ Comment l3 i.scannumber ∧
      k.1 = i.name ∧ i.scannumber ≠ [] ∧ (∀ c ∈ i.scannumber, c.isDigit = true) ∧ k.2 = SC.Scan.natOf i.scannumber := by
  unfold imageOf at h
  split at h
  · split at h
    · simp at h
    · simp only at h
      split at h
      · cases hh : comments s.header with
        | error e => simp [hh] at h
        | ok hd =>
          have hsp := comments_spec _ _ hh
          simp only [hh] at h
          split at h
          · rename_i h0 h1 h2 e0 e1 e2
            split at h
            · simp at h
            · rename_i n hn
              simp only [Except.ok.injEq, Option.some.injEq, Prod.mk.injEq] at h
              obtain ⟨hk, hi⟩ := h
              subst hi; subst hk
              generalize (s.header.filter fun x => contains tC x) = fl at hsp
              cases hsp with
              | nil => simp at e0
              | cons a1 t1 => cases t1 with
                | nil => simp at e1
                | cons a2 t2 => cases t2 with
                  | nil => simp at e2
                  | cons a3 t3 =>
                    simp only [List.getElem?_cons_succ, List.getElem?_cons_zero, Option.some.injEq] at e0 e1 e2
                    subst e0; subst e1; subst e2
                    unfold toInt at hn
                    split at hn
                    · rename_i hd
                      simp only [Option.some.injEq] at hn
                      exact ⟨_, _, _, _, rfl, a1, a2, a3, rfl, hd.1, by simpa using hd.2, hn.symm⟩
                    · simp at hn
          · simp at h
      · simp at h
  · simp at h

def cmd1 : Str := ['z', 'a', 'p', 'i', 'm', 'a', 'g', 'e', ' ', 's', 'a', 'm', 'y', ' ', '0', ' ', '4', ' ', '2', ' ', '9', ' ', 's', 'a', 'm', 'z', ' ', '1', ' ', '3', ' ', '5']
def hd1 : List Str := [tC ++ ['a', ':', ' ', 'd'], tC ++ ['b', ':', 'r'], tC ++ ['c', ':', '0', '7']]
def scan1 : Scan := ⟨['3'], cmd1, hd1⟩
def scan2 : Scan := ⟨['3'], cmd1, (tC ++ ['h', 'i']) :: hd1⟩

example : Cmd scan1 0 4 2 5 := ⟨_, rfl, by decide +kernel, by decide +kernel, by decide +kernel, by decide +kernel⟩
example : (match imageOf scan1 with
    | .ok (some x) => some x
    | _ => none) = some ((['r'], 7), ⟨['3'], 2, 6, 2, 4, 4, 2, false, ['d'], ['r'], ['0', '7']⟩) := by decide +kernel

/-- Not so: the list cannot be made when a scan has a comment without colon. -/
theorem images_comment : (match images [scan1, scan2] [] with
    | .error e => some e
    | .ok _ => none) = some .indexError := by decide +kernel

end SC.SpecFile
