import Verif.Grid.Model
import Verif.Naming.Lemmas
import Verif.Xia.PropsGroup2
/-! # Names of result groups (C66) -/
namespace SC.Grid
open SC.Numpy SC.Py SC.Naming
open SC.Xia (pyInt strInt)

/-- The prefix of the names of detectors. -/
abbrev det : Str := ['d', 'e', 't', 'e', 'c', 't', 'o', 'r']
abbrev xia : Str := ['x', 'i', 'a']

theorem isdigit_iff (s : Str) : isdigit s = true ↔ s ≠ [] ∧ ∀ c ∈ s, c.isDigit = true := by
  simp [isdigit]

theorem isdigit_pad (w n : Nat) : isdigit (pad w n) = true := (isdigit_iff _).2 ⟨pad_ne_nil w n, pad_digit w n⟩

theorem pyInt_pad' (w n : Nat) : pyInt (pad w n) = n := by simp [pyInt, pad_value]

theorem digits_pad (n : Nat) : Nat.toDigits 10 n = pad 0 n := by simp [pad]

theorem digit_ne {s : Str} (h : isdigit s = true) {c : Char} (hc : c.isDigit = false) (t : Str) : s ≠ c :: t := by
  rintro rfl
  have := ((isdigit_iff _).1 h).2 c (by simp)
  simp [hc] at this

theorem isPrefixOf_digit {s : Str} (h : isdigit s = true) {c : Char} (hc : c.isDigit = false) (p : Str) :
    (c :: p).isPrefixOf s = false := by
  cases s with
  | nil => rfl
  | cons d s =>
    have : c ≠ d := by
      rintro rfl
      exact digit_ne h hc s rfl
    simp [List.isPrefixOf, this]

theorem drop_det_digit {s : Str} (h : isdigit s = true) : dropPrefix det (dropPrefix xia s) = s := by
  rw [dropPrefix, dropPrefix, isPrefixOf_digit h (by decide)]
  simp only [Bool.false_eq_true, if_false]
  rw [isPrefixOf_digit h (by decide)]
  simp

theorem drop_det (s : Str) : dropPrefix det (dropPrefix xia (det ++ s)) = s := by
  simp [dropPrefix, List.isPrefixOf]

theorem drop_xia {s : Str} (h : det.isPrefixOf s = false) : dropPrefix det (dropPrefix xia (xia ++ s)) = s := by
  have : dropPrefix xia (xia ++ s) = s := by simp [dropPrefix, List.isPrefixOf]
  rw [this, dropPrefix, h]; simp

/-- The group of what is left of a text without prefixes. -/
def core (s : Str) : Option Grp :=
  if isdigit s then some ⟨det ++ fmt02 (pyInt s), pyInt s, 0⟩
  else if ['S'].isPrefixOf s then
    match intOf (s.drop 1) with
    | none => none
    | some n => some ⟨['d', 'e', 't', 'e', 'c', 't', 'o', 'r', 'S'] ++ strInt n, n, 1⟩
  else if [['p', 'a', 'r', 'a', 'm', 'e', 't', 'e', 'r', 's'], ['c', 'o', 'n', 'c', 'e', 'n', 't', 'r', 'a', 't', 'i', 'o', 'n', 's']].any fun p => hasSub p s then some ⟨s, -1, 0⟩
  else if s ≠ [] then some ⟨s, -1, -1⟩
  else some counters

theorem grpOfStr_core (s : Str) : grpOfStr s = core (dropPrefix det (dropPrefix xia s)) := rfl

theorem core_digit {s : Str} (h : isdigit s = true) : core s = some ⟨det ++ fmt02 (pyInt s), pyInt s, 0⟩ := by
  rw [core, if_pos h]

theorem fmt02_nat (n : Nat) : fmt02 n = pad 2 n := by simp [fmt02]

theorem strip_of {s : Str} (h : ∀ c ∈ s, blank c = false) : strip s = s := by
  have h1 : ∀ l : Str, (∀ c ∈ l, blank c = false) → l.dropWhile blank = l := by
    intro l hl
    cases l with
    | nil => rfl
    | cons c l => simp [List.dropWhile, hl c (by simp)]
  rw [strip, h1 s h, h1 s.reverse (by simpa using h), List.reverse_reverse]

theorem blank_digit {c : Char} (h : c.isDigit = true) : blank c = false := by
  cases hb : blank c with
  | false => rfl
  | true =>
    simp only [blank, Bool.or_eq_true, decide_eq_true_eq] at hb
    rcases hb with ((rfl | rfl) | rfl) | rfl <;> simp_all (decide := true)

theorem intOf_digit {s : Str} (h : isdigit s = true) : intOf s = some (pyInt s) := by
  rw [intOf, strip_of fun c hc => blank_digit (((isdigit_iff s).1 h).2 c hc)]
  split
  · exact absurd rfl (digit_ne h (by decide) _)
  · exact absurd rfl (digit_ne h (by decide) _)
  · rw [if_pos h]

theorem intOf_str (n : Int) : intOf (strInt n) = some n := by
  rw [strInt]
  split
  · next h =>
    rw [digits_pad, intOf_digit (isdigit_pad _ _), pyInt_pad']
    simp [h]
  · next h =>
    have hd := isdigit_pad 0 n.natAbs
    rw [digits_pad, intOf, strip_of]
    · simp only [hd, if_true, pyInt_pad']
      congr 1; omega
    · intro c hc
      rcases List.mem_cons.1 hc with rfl | hc
      · decide
      · exact blank_digit (((isdigit_iff _).1 hd).2 c hc)

theorem core_S (t : Str) : core ('S' :: t) =
    (intOf t).map fun n => ⟨['d', 'e', 't', 'e', 'c', 't', 'o', 'r', 'S'] ++ strInt n, n, 1⟩ := by
  have h : isdigit ('S' :: t) = false := by
    rw [Bool.eq_false_iff]; intro h; exact digit_ne h (by decide) t rfl
  simp only [core, h, Bool.false_eq_true, if_false, List.isPrefixOf, List.drop_one, List.tail_cons]
  cases intOf t <;> simp

/-- A detector with a number: its name, its label and every way to write its number give it back. -/
theorem detector_roundtrip (n w : Nat) : ∃ g l, grpOf (.num n) = some g ∧ g.number = n ∧ g.category = 0 ∧
    xialabel g = some l ∧ grpOf (.str g.name) = some g ∧ grpOf (.str l) = some g ∧ grpOf (.group g) = some g ∧
    grpOf (.str (pad w n)) = some g ∧ grpOf (.str (xia ++ pad w n)) = some g ∧ grpOf (.str (det ++ pad w n)) = some g := by
  have hx : ∀ w : Nat, grpOfStr (xia ++ pad w n) = some ⟨det ++ fmt02 n, n, 0⟩ := by
    intro w
    rw [grpOfStr_core, drop_xia (isPrefixOf_digit (isdigit_pad w n) (by decide) _), core_digit (isdigit_pad w n), pyInt_pad']
  have hd : ∀ w : Nat, grpOfStr (det ++ pad w n) = some ⟨det ++ fmt02 n, n, 0⟩ := by
    intro w
    rw [grpOfStr_core, drop_det, core_digit (isdigit_pad w n), pyInt_pad']
  refine ⟨_, xia ++ fmt02 n, rfl, rfl, rfl, rfl, ?_, ?_, rfl, ?_, hx w, hd w⟩
  · show grpOfStr (det ++ fmt02 n) = _
    rw [fmt02_nat, hd 2, fmt02_nat]
  · show grpOfStr (xia ++ fmt02 n) = _
    rw [fmt02_nat, hx 2, fmt02_nat]
  · show grpOfStr (pad w n) = _
    rw [grpOfStr_core, drop_det_digit (isdigit_pad w n), core_digit (isdigit_pad w n), pyInt_pad']

/-- A sum of detectors: its name and its label give it back. -/
theorem sum_roundtrip (n : Int) : ∃ g l, grpOf (.str ('S' :: strInt n)) = some g ∧ g.number = n ∧ g.category = 1 ∧
    xialabel g = some l ∧ grpOf (.str g.name) = some g ∧ grpOf (.str l) = some g := by
  have hc : core ('S' :: strInt n) = some ⟨['d', 'e', 't', 'e', 'c', 't', 'o', 'r', 'S'] ++ strInt n, n, 1⟩ := by
    rw [core_S, intOf_str]; rfl
  have h0 : dropPrefix det (dropPrefix xia ('S' :: strInt n)) = 'S' :: strInt n := by
    simp [dropPrefix, List.isPrefixOf]
  refine ⟨⟨['d', 'e', 't', 'e', 'c', 't', 'o', 'r', 'S'] ++ strInt n, n, 1⟩, xia ++ 'S' :: strInt n, ?_, ?_, ?_, ?_, ?_, ?_⟩
  · show grpOfStr ('S' :: strInt n) = _
    rw [grpOfStr_core, h0, hc]
  · rfl
  · rfl
  · rfl
  · show grpOfStr (det ++ 'S' :: strInt n) = _
    rw [grpOfStr_core, drop_det, hc]
  · show grpOfStr (xia ++ 'S' :: strInt n) = _
    rw [grpOfStr_core, drop_xia (by simp [List.isPrefixOf]), hc]

/-- Different detectors and different sums have different groups. -/
theorem groups_differ (n m : Nat) (k j : Int) : ∃ a b c d, grpOf (.num n) = some a ∧ grpOf (.num m) = some b ∧
    grpOf (.str ('S' :: strInt k)) = some c ∧ grpOf (.str ('S' :: strInt j)) = some d ∧
    (a.name = b.name ↔ n = m) ∧ (c.name = d.name ↔ k = j) ∧ a.name ≠ c.name := by
  obtain ⟨a, _, ha, hn, _, _, ha', _⟩ := detector_roundtrip n 0
  obtain ⟨b, _, hb, hm, _, _, hb', _⟩ := detector_roundtrip m 0
  obtain ⟨c, _, hc, hk, hc1, _, hc', _⟩ := sum_roundtrip k
  obtain ⟨d, _, hd, hj, _, _, hd', _⟩ := sum_roundtrip j
  refine ⟨a, b, c, d, ha, hb, hc, hd, ⟨fun h => ?_, fun h => ?_⟩, ⟨fun h => ?_, fun h => ?_⟩, fun h => ?_⟩
  · rw [h, hb'] at ha'; cases ha'; omega
  · subst h; rw [ha] at hb; cases hb; rfl
  · rw [h, hd'] at hc'; cases hc'; omega
  · subst h; rw [hc] at hd; cases hd; rfl
  · rw [h, hc'] at ha'; cases ha'; simp_all

/-- Any other name is the name of its group. -/
theorem plain_name (s : Str) (h0 : s ≠ []) (hx : ¬ xia <+: s) (hd : ¬ det <+: s) (hS : ¬ ['S'] <+: s)
    (hn : ∃ c ∈ s, c.isDigit = false) : ∃ g, grpOf (.str s) = some g ∧ g.name = s ∧ g.number = -1 := by
  have h1 : dropPrefix det (dropPrefix xia s) = s := by
    have a : xia.isPrefixOf s = false := by rw [Bool.eq_false_iff]; intro h; exact hx (List.isPrefixOf_iff_prefix.1 h)
    have b : det.isPrefixOf s = false := by rw [Bool.eq_false_iff]; intro h; exact hd (List.isPrefixOf_iff_prefix.1 h)
    rw [dropPrefix, dropPrefix, a]
    simp only [Bool.false_eq_true, if_false]
    rw [b]; simp
  have h2 : isdigit s = false := by
    rw [Bool.eq_false_iff]; intro h
    obtain ⟨c, hc, hn⟩ := hn
    have := ((isdigit_iff s).1 h).2 c hc
    simp [hn] at this
  have h3 : ['S'].isPrefixOf s = false := by rw [Bool.eq_false_iff]; intro h; exact hS (List.isPrefixOf_iff_prefix.1 h)
  show ∃ g, grpOfStr s = some g ∧ _
  rw [grpOfStr_core, h1, core, h2, h3]
  simp only [Bool.false_eq_true, if_false, h0, ne_eq, not_false_eq_true, if_true]
  split <;> exact ⟨_, rfl, rfl, rfl⟩

theorem core_name (s : Str) (g : Grp) (h : core s = some g) (hx : xia.isPrefixOf s = false) (hd : det.isPrefixOf s = false) :
    grpOfStr g.name = some g := by
  have keep : dropPrefix det (dropPrefix xia s) = s := by
    rw [dropPrefix, dropPrefix, hx]
    simp only [Bool.false_eq_true, if_false]
    rw [hd]; simp
  have h' := h
  unfold core at h'
  split at h'
  · next hdig =>
    cases h'
    have hnn : (0 : Int) ≤ pyInt s := by simp [pyInt]
    obtain ⟨n, hn⟩ := Int.eq_ofNat_of_zero_le hnn
    show grpOfStr (det ++ fmt02 (pyInt s)) = _
    rw [hn, fmt02_nat, grpOfStr_core, drop_det, core_digit (isdigit_pad _ _), pyInt_pad', fmt02_nat]
  · split at h'
    · split at h'
      · simp at h'
      · next n _ =>
        cases h'
        show grpOfStr (det ++ 'S' :: strInt n) = _
        rw [grpOfStr_core, drop_det, core_S, intOf_str]; rfl
    · split at h'
      · cases h'
        show grpOfStr s = _
        rw [grpOfStr_core, keep, h]
      · split at h'
        · cases h'
          show grpOfStr s = _
          rw [grpOfStr_core, keep, h]
        · cases h'
          rfl

/-- The name of a group gives the group back, unless prefixes were repeated. -/
theorem name_roundtrip (s : Str) (g : Grp) (h : grpOf (.str s) = some g)
    (hx : ¬ xia <+: dropPrefix det (dropPrefix xia s)) (hd : ¬ det <+: dropPrefix det (dropPrefix xia s)) :
    grpOf (.str g.name) = some g := by
  refine core_name _ g (by rw [← grpOfStr_core]; exact h) ?_ ?_
  · rw [Bool.eq_false_iff]; intro h; exact hx (List.isPrefixOf_iff_prefix.1 h)
  · rw [Bool.eq_false_iff]; intro h; exact hd (List.isPrefixOf_iff_prefix.1 h)

/-- With a repeated prefix the name of the group is that of another group. -/
theorem repeated_prefix : ∃ g g', grpOf (.str (xia ++ xia ++ ['0', '1'])) = some g ∧ g.category = -1 ∧
    grpOf (.str g.name) = some g' ∧ g'.category = 0 ∧ g'.number = 1 := by
  refine ⟨⟨xia ++ ['0', '1'], -1, -1⟩, ⟨det ++ ['0', '1'], 1, 0⟩, by decide, by decide, by decide, by decide, by decide⟩

/-- A name that begins with "S" must go on with a number. -/
theorem name_with_S : grpOf (.str ['S', 'i']) = none ∧ grpOf (.str ['s', 'i']) = some ⟨['s', 'i'], -1, -1⟩ := by
  constructor <;> decide

/-- The groups of fit parameters and concentrations count as a single detector, with the label "xia-1". -/
theorem parameters_label : ∃ g, grpOf (.str ['p', 'a', 'r', 'a', 'm', 'e', 't', 'e', 'r', 's']) = some g ∧ g.category = 0 ∧
    xialabel g = some (xia ++ ['-', '1']) := ⟨_, rfl, rfl, by decide⟩

/-- Nothing at all, and what is left of an empty text, are the counters. -/
theorem counters_group : grpOf .none = some counters ∧ grpOf (.str []) = some counters ∧ grpOf (.str xia) = some counters ∧
    grpOf (.other true) = none := by
  refine ⟨rfl, rfl, rfl, rfl⟩

-- detector 5 by its number, and sum 1
example : grpOf (.num 5) = some ⟨det ++ ['0', '5'], 5, 0⟩ ∧ grpOf (.str (xia ++ ['S', '1'])) = some ⟨det ++ ['S', '1'], 1, 1⟩ ∧
    grpOf (.num 123) = some ⟨det ++ ['1', '2', '3'], 123, 0⟩ := by
  refine ⟨by decide, by decide, by decide⟩

-- a plain name
example : grpOf (.str ['I', '0']) = some ⟨['I', '0'], -1, -1⟩ := by decide

-- the hypotheses of name_roundtrip are met by "xia07"
example : grpOf (.str (xia ++ ['0', '7'])) = some ⟨det ++ ['0', '7'], 7, 0⟩ ∧
    ¬ xia <+: dropPrefix det (dropPrefix xia (xia ++ ['0', '7'])) ∧ ¬ det <+: dropPrefix det (dropPrefix xia (xia ++ ['0', '7'])) := by
  refine ⟨by decide, by decide, by decide⟩

end SC.Grid
