import Verif.Stack.Spec
import Verif.Xia.Lemmas
import Verif.Scan.CmdProps
import Mathlib.Tactic.IntervalCases
import Mathlib.Data.Fintype.Card
/-! # Lemmas for C45 -/
namespace SC.Stack
open SC.Py
variable {V : Type}

theorem sameImage_refl (a : Arr V) : SameImage a a := ⟨rfl, fun _ _ => rfl⟩
theorem SameImage.symm {a b : Arr V} (h : SameImage a b) : SameImage b a :=
  ⟨h.1.symm, fun j hj => (h.2 j (by rw [h.1]; exact hj)).symm⟩
theorem SameImage.trans {a b c : Arr V} (h : SameImage a b) (g : SameImage b c) : SameImage a c :=
  ⟨h.1.trans g.1, fun j hj => (h.2 j hj).trans (g.2 j (by rw [← h.1]; exact hj))⟩

theorem destshape_eq (k n h w : Nat) (hk : k < 3) : destshape k n (h, w)
    = .ok (if k = 0 then [n, h, w] else if k = 1 then [h, n, w] else [h, w, n]) := by
  interval_cases k <;> rfl

theorem writeIndex_eq (k i : Nat) (hk : k < 3) : writeIndex k i
    = .ok (if k = 0 then [some i, none, none] else if k = 1 then [none, some i, none] else [none, none, some i]) := by
  interval_cases k <;> rfl

theorem isStack_lt {k n h w : Nat} {a : Arr V} (hs : IsStack k n h w a) : k < 3 ∧ a.shape.length = 3 := by
  rcases hs with ⟨rfl, e⟩ | ⟨rfl, e⟩ | ⟨rfl, e⟩ <;> rw [e] <;> exact ⟨by decide, rfl⟩

/-- Reading an image of one dataset. -/
def readArr (k : Nat) (a : Arr V) (i : Nat) : Except Err (Arr V) :=
  (getAt a (readIndex k a.shape.length i)).map newaxis

theorem readArr_spec {k n h w : Nat} {a : Arr V} (hs : IsStack k n h w a) (i : Nat) :
    (i < n → ∃ im, readArr k a i = .ok im ∧ SameImage im (image k h w i a)) ∧
    (n ≤ i → readArr k a i = .error .index) := by
  rcases hs with ⟨rfl, e⟩ | ⟨rfl, e⟩ | ⟨rfl, e⟩
  · constructor
    · intro hi
      refine ⟨⟨[h, w], a.dtype, fun j => a.data (merge [some i, none, none] j)⟩, ?_, rfl, ?_⟩
      · simp [readArr, readIndex, getAt, e, selShape, hi, Except.map, newaxis, List.replicate]
      · intro j hj
        match j, hj with
        | [y, x], _ => simp [merge, image]
    · intro hi
      simp [readArr, readIndex, getAt, e, selShape, Nat.not_lt.mpr hi, Except.map]
  · constructor
    · intro hi
      refine ⟨⟨[h, w], a.dtype, fun j => a.data (merge [none, some i, none] j)⟩, ?_, rfl, ?_⟩
      · simp [readArr, readIndex, getAt, e, selShape, hi, Except.map, newaxis]
      · intro j hj
        match j, hj with
        | [y, x], _ => simp [merge, image]
    · intro hi
      simp [readArr, readIndex, getAt, e, selShape, Nat.not_lt.mpr hi, Except.map]
  · constructor
    · intro hi
      refine ⟨⟨[h, w], a.dtype, fun j => a.data (merge [none, none, some i] j)⟩, ?_, rfl, ?_⟩
      · simp [readArr, readIndex, getAt, e, selShape, hi, Except.map, newaxis, List.replicate]
      · intro j hj
        match j, hj with
        | [y, x], _ => simp [merge, image]
    · intro hi
      simp [readArr, readIndex, getAt, e, selShape, Nat.not_lt.mpr hi, Except.map, List.replicate]

theorem writeArr_spec {k n h w : Nat} {a : Arr V} (hs : IsStack k n h w a) (img : Arr V) (hi : img.shape = [h, w]) (i : Nat)
    (hn : i < n) :
    ∃ a', writeArr k a img i = .ok a' ∧ IsStack k n h w a' ∧ a'.dtype = a.dtype ∧ a'.shape = a.shape ∧
      SameImage (image k h w i a') img ∧ ∀ i', i' ≠ i → SameImage (image k h w i' a') (image k h w i' a) := by
  obtain ⟨hk, -⟩ := isStack_lt hs
  rw [writeArr, writeIndex_eq k i hk]
  rcases hs with ⟨rfl, e⟩ | ⟨rfl, e⟩ | ⟨rfl, e⟩
  · refine ⟨⟨[n, h, w], a.dtype, fun p => match sel [some i, none, none] p with
          | some j => img.data j
          | none => a.data p⟩, ?_, .inl ⟨rfl, rfl⟩, rfl, e.symm, ⟨hi.symm, ?_⟩, ?_⟩
    · simp only [setAt, e, if_true, selShape, hn, Option.map_some, hi]
      rfl
    · intro j hj
      match j, hj with
      | [y, x], _ => simp [image, sel]
    · intro i' hne
      refine ⟨rfl, fun j hj => ?_⟩
      match j, hj with
      | [y, x], _ => simp [image, sel, hne]
  · refine ⟨⟨[h, n, w], a.dtype, fun p => match sel [none, some i, none] p with
          | some j => img.data j
          | none => a.data p⟩, ?_, .inr (.inl ⟨rfl, rfl⟩), rfl, e.symm, ⟨hi.symm, ?_⟩, ?_⟩
    · simp only [setAt, e, one_ne_zero, if_false, if_true, selShape, hn, Option.map_some, hi]
      rfl
    · intro j hj
      match j, hj with
      | [y, x], _ => simp [image, sel]
    · intro i' hne
      refine ⟨rfl, fun j hj => ?_⟩
      match j, hj with
      | [y, x], _ => simp [image, sel, hne]
  · refine ⟨⟨[h, w, n], a.dtype, fun p => match sel [none, none, some i] p with
          | some j => img.data j
          | none => a.data p⟩, ?_, .inr (.inr ⟨rfl, rfl⟩), rfl, e.symm, ⟨hi.symm, ?_⟩, ?_⟩
    · simp only [setAt, e, OfNat.ofNat_ne_zero, OfNat.ofNat_ne_one, if_false, if_true, selShape, hn, Option.map_some, hi]
      rfl
    · intro j hj
      match j, hj with
      | [y, x], _ => simp [image, sel]
    · intro i' hne
      refine ⟨rfl, fun j hj => ?_⟩
      match j, hj with
      | [y, x], _ => simp [image, sel, hne]

theorem lastWritten_cons {W : Type} (e : Write W) (l : List (Write W)) (di ii : Nat) (b : W) :
    lastWritten (e :: l) di ii b = lastWritten l di ii (if e.1 = di ∧ e.2.1 = ii then e.2.2 else b) := by
  simp only [lastWritten, List.reverse_cons, List.find?_append]
  cases h : l.reverse.find? fun e => e.1 == di && e.2.1 == ii with
  | some x => simp
  | none =>
    by_cases he : e.1 = di ∧ e.2.1 = ii
    · simp [he.1, he.2]
    · have : (e.1 == di && e.2.1 == ii) = false := by
        simp only [Bool.and_eq_false_iff, beq_eq_false_iff_ne]
        by_cases h1 : e.1 = di
        · exact .inr fun h2 => he ⟨h1, h2⟩
        · exact .inl h1
      simp [List.find?, this, he]

/-! ## free places -/

/-- Counting: among `len + 1` different numbers one is not used when every used number has its own item. -/
theorem exists_free (used : Nat → Prop) {K : Type} [DecidableEq K] (keys : List K) (f : Nat → K)
    (hf : ∀ i, used i → f i ∈ keys) (inj : ∀ i j, used i → used j → f i = f j → i = j) (a : Nat) :
    ∃ i, a ≤ i ∧ i < a + (keys.length + 1) ∧ ¬ used i := by
  by_contra hc
  have hc' : ∀ i, a ≤ i → i < a + (keys.length + 1) → used i := by
    intro i h1 h2
    by_contra h3
    exact hc ⟨i, h1, h2, h3⟩
  have hl : ((List.range' a (keys.length + 1)).map f).Nodup := by
    refine List.Nodup.map_on ?_ List.nodup_range'
    intro x hx y hy hxy
    rw [List.mem_range'_1] at hx hy
    exact inj x y (hc' x hx.1 hx.2) (hc' y hy.1 hy.2) hxy
  have hs : ((List.range' a (keys.length + 1)).map f) ⊆ keys := by
    intro k hk
    rw [List.mem_map] at hk
    obtain ⟨i, hi, rfl⟩ := hk
    rw [List.mem_range'_1] at hi
    exact hf i (hc' i hi.1 hi.2)
  have := (hl.subperm hs).length_le
  simp at this

theorem freeEntry_spec (file : Dict Str (Arr V)) (names : List Str) (ext : Str) : ∀ (fuel num : Nat),
    (∃ i, num ≤ i ∧ i < num + fuel ∧ datasetsexist file names ext (entryPath i) = false) →
    num ≤ freeEntry file names ext fuel num ∧
    datasetsexist file names ext (entryPath (freeEntry file names ext fuel num)) = false ∧
    ∀ j, num ≤ j → j < freeEntry file names ext fuel num → datasetsexist file names ext (entryPath j) = true
  | 0, num, ⟨i, h1, h2, _⟩ => by omega
  | fuel + 1, num, ⟨i, h1, h2, h3⟩ => by
    rw [freeEntry]
    split
    · rename_i h
      have hi : num ≠ i := by rintro rfl; rw [h] at h3; cases h3
      obtain ⟨a, b, c⟩ := freeEntry_spec file names ext fuel (num + 1) ⟨i, by omega, by omega, h3⟩
      refine ⟨by omega, b, fun j hj hj' => ?_⟩
      by_cases he : j = num
      · rw [he]; exact h
      · exact c j (by omega) hj'
    · rename_i h
      refine ⟨le_refl _, by simpa using h, fun j hj hj' => by omega⟩

theorem freeDest_spec {W : Type} (files : Dict Str W) (dir : Str) (names : List Str) (ext : Str) : ∀ (fuel num : Nat),
    (∃ i, num ≤ i ∧ i < num + fuel ∧ filesexist files names ext (destPath dir i) = false) →
    filesexist files names ext (destPath dir (freeDest files dir names ext fuel num)) = false ∧
    ∀ j, num ≤ j → j < freeDest files dir names ext fuel num → filesexist files names ext (destPath dir j) = true
  | 0, num, ⟨i, h1, h2, _⟩ => by omega
  | fuel + 1, num, ⟨i, h1, h2, h3⟩ => by
    rw [freeDest]
    split
    · rename_i h
      have hi : num ≠ i := by rintro rfl; rw [h] at h3; cases h3
      obtain ⟨b, c⟩ := freeDest_spec files dir names ext fuel (num + 1) ⟨i, by omega, by omega, h3⟩
      refine ⟨b, fun j hj hj' => ?_⟩
      by_cases he : j = num
      · rw [he]; exact h
      · exact c j (by omega) hj'
    · rename_i h
      exact ⟨by simpa using h, fun j hj hj' => by omega⟩

theorem digits_noslash (n : Nat) (c : Char) (hc : c.isDigit = false) : c ∉ Nat.toDigits 10 n := by
  intro h
  have := Nat.isDigit_of_mem_toDigits (by decide) (by decide) h
  rw [hc] at this
  cases this

theorem toDigits_inj {n m : Nat} (h : Nat.toDigits 10 n = Nat.toDigits 10 m) : n = m := by
  rw [← (SC.Scan.natVal_repr n).2, ← (SC.Scan.natVal_repr m).2, h]

/-- Text up to the first separator. -/
theorem sep_first {c : Char} {a b a' b' : Str} (h : a ++ c :: b = a' ++ c :: b') (ha : c ∉ a) (ha' : c ∉ a') : a = a' ∧ b = b' := by
  induction a generalizing a' with
  | nil =>
    cases a' with
    | nil => simpa using h
    | cons x a' =>
      simp only [List.nil_append, List.cons_append, List.cons.injEq] at h
      exact absurd (by rw [h.1]; simp) ha'
  | cons y a ih =>
    cases a' with
    | nil =>
      simp only [List.nil_append, List.cons_append, List.cons.injEq] at h
      exact absurd (by rw [← h.1]; simp) ha
    | cons x a' =>
      simp only [List.cons_append, List.cons.injEq] at h
      obtain ⟨r1, r2⟩ := ih h.2 (fun hh => ha (by simp [hh])) (fun hh => ha' (by simp [hh]))
      exact ⟨by rw [h.1, r1], r2⟩

theorem entryPath_ne (num : Nat) (h : num ≠ 0) : entryPath num ≠ ['/'] ∧ entryPath num = "/entry".toList ++ Nat.toDigits 10 num := by
  have : entryPath num = "/entry".toList ++ Nat.toDigits 10 num := by rw [entryPath, if_neg h]
  refine ⟨?_, this⟩
  rw [this]
  intro e
  have := congrArg List.length e
  simp at this

theorem compose_entry (ext name : Str) (num : Nat) (h : num ≠ 0) :
    composesetname ext (entryPath num) name = "/entry".toList ++ (Nat.toDigits 10 num ++ '/' :: (name ++ ext)) := by
  obtain ⟨h1, h2⟩ := entryPath_ne num h
  rw [composesetname, if_neg h1, h2]
  simp

theorem compose_inj {ext path n1 n2 : Str} (h : composesetname ext path n1 = composesetname ext path n2) : n1 = n2 := by
  unfold composesetname at h
  split at h
  · simpa using h
  · simpa using h

theorem freeEntry_exists (file : Dict Str (Arr V)) (names : List Str) (ext : Str) :
    ∃ i, 0 ≤ i ∧ i < 0 + (file.length + 2) ∧ datasetsexist file names ext (entryPath i) = false := by
  classical
  obtain ⟨f, hf⟩ : ∃ f : Nat → Str, ∀ i, datasetsexist file names ext (entryPath i) = true →
      ∃ name ∈ names, f i = composesetname ext (entryPath i) name ∧ f i ∈ Dict.keys file := by
    have : ∀ i, ∃ s : Str, datasetsexist file names ext (entryPath i) = true →
      ∃ name ∈ names, s = composesetname ext (entryPath i) name ∧ s ∈ Dict.keys file := by
      intro i
      by_cases h : datasetsexist file names ext (entryPath i) = true
      · have h' := h
        rw [datasetsexist, Bool.not_eq_true', List.all_eq_false] at h'
        obtain ⟨name, n1, n2⟩ := h'
        refine ⟨composesetname ext (entryPath i) name, fun _ => ⟨name, n1, rfl, ?_⟩⟩
        rw [← Dict.get?_isSome]
        simpa [Option.isSome_iff_ne_none] using n2
      · exact ⟨[], fun h' => absurd h' h⟩
    exact ⟨fun i => (this i).choose, fun i => (this i).choose_spec⟩
  obtain ⟨i, i1, i2, i3⟩ := exists_free (fun i => i ≠ 0 ∧ datasetsexist file names ext (entryPath i) = true) (Dict.keys file) f
    (fun i hi => by obtain ⟨_, _, _, h⟩ := hf i hi.2; exact h)
    (by
      intro i j hi hj he
      obtain ⟨a, -, ea, -⟩ := hf i hi.2
      obtain ⟨b, -, eb, -⟩ := hf j hj.2
      rw [ea, eb, compose_entry _ _ _ hi.1, compose_entry _ _ _ hj.1] at he
      have := List.append_cancel_left he
      exact toDigits_inj (sep_first this (digits_noslash _ _ rfl) (digits_noslash _ _ rfl)).1) 1
  refine ⟨i, by omega, ?_, ?_⟩
  · simp only [Dict.keys, List.length_map] at i2
    omega
  · cases h : datasetsexist file names ext (entryPath i) with
    | false => rfl
    | true => exact absurd ⟨by omega, h⟩ i3

theorem destPath_pos (dir : Str) (num : Nat) (h : num ≠ 0) (s : Str) :
    join (destPath dir num) s = dir ++ '_' :: (Nat.toDigits 10 num ++ '/' :: s) := by
  have e : destPath dir num = dir ++ '_' :: Nat.toDigits 10 num := by rw [destPath, if_neg h]
  have hl : ¬ (destPath dir num = [] ∨ (destPath dir num).getLast? = some '/') := by
    rw [e]
    rintro (h1 | h1)
    · simp at h1
    · rw [List.getLast?_append, List.getLast?_cons] at h1
      have hne : Nat.toDigits 10 num ≠ [] := (SC.Scan.natVal_repr num).1.1
      obtain ⟨x, hx⟩ := Option.isSome_iff_exists.mp (show (Nat.toDigits 10 num).getLast?.isSome from by simp [hne])
      simp only [hx, Option.getD_some, Option.some_or, Option.some.injEq] at h1
      subst h1
      exact digits_noslash num '/' rfl (List.mem_of_getLast? hx)
  rw [join, if_neg hl, e]
  simp

theorem freeDest_exists {W : Type} (files : Dict Str W) (dir : Str) (names : List Str) (ext : Str) (hn : names ≠ []) :
    ∃ i, 0 ≤ i ∧ i < 0 + (files.length + 2) ∧ filesexist files names ext (destPath dir i) = false := by
  classical
  obtain ⟨s, ns, rfl⟩ := List.exists_cons_of_ne_nil hn
  obtain ⟨f, hf⟩ : ∃ f : Nat → Str, ∀ i, filesexist files (s :: ns) ext (destPath dir i) = true →
      (join (destPath dir i) s).isPrefixOf (f i) = true ∧ f i ∈ Dict.keys files := by
    have : ∀ i, ∃ t : Str, filesexist files (s :: ns) ext (destPath dir i) = true →
      (join (destPath dir i) s).isPrefixOf t = true ∧ t ∈ Dict.keys files := by
      intro i
      by_cases h : filesexist files (s :: ns) ext (destPath dir i) = true
      · have h' := h
        rw [filesexist, List.all_cons, Bool.and_eq_true, List.any_eq_true] at h'
        obtain ⟨⟨p, p1, p2⟩, -⟩ := h'
        refine ⟨p.1, fun _ => ⟨?_, List.mem_map.mpr ⟨p, p1, rfl⟩⟩⟩
        rw [globs, Bool.and_eq_true] at p2
        exact p2.1
      · exact ⟨[], fun h' => absurd h' h⟩
    exact ⟨fun i => (this i).choose, fun i => (this i).choose_spec⟩
  obtain ⟨i, i1, i2, i3⟩ := exists_free (fun i => i ≠ 0 ∧ filesexist files (s :: ns) ext (destPath dir i) = true) (Dict.keys files) f
    (fun i hi => (hf i hi.2).2)
    (by
      intro i j hi hj he
      obtain ⟨a, ha⟩ := List.isPrefixOf_iff_prefix.mp (hf i hi.2).1
      obtain ⟨b, hb⟩ := List.isPrefixOf_iff_prefix.mp (hf j hj.2).1
      rw [← ha, ← hb, destPath_pos _ _ hi.1, destPath_pos _ _ hj.1, List.append_assoc, List.append_assoc] at he
      have := List.append_cancel_left he
      simp only [List.cons_append, List.append_assoc, List.cons.injEq, true_and] at this
      exact toDigits_inj (sep_first this (digits_noslash _ _ rfl) (digits_noslash _ _ rfl)).1) 1
  refine ⟨i, by omega, ?_, ?_⟩
  · simp only [Dict.keys, List.length_map] at i2
    omega
  · cases h : filesexist files (s :: ns) ext (destPath dir i) with
    | false => rfl
    | true => exact absurd ⟨by omega, h⟩ i3

theorem createdatasets_spec (zero : V) (shape : List Nat) (dtype : Nat) (l : List Str) : ∀ (file : Dict Str (Arr V)),
    l.Nodup → (∀ s ∈ l, Dict.get? file s = none) →
    ∃ file', createdatasets zero shape dtype l file = .ok file' ∧
      ∀ k, Dict.get? file' k = if k ∈ l then some ⟨shape, dtype, fun _ => zero⟩ else Dict.get? file k := by
  induction l with
  | nil => intro file _ _; exact ⟨file, rfl, fun k => by simp⟩
  | cons s l ih =>
    intro file hn h
    rw [List.nodup_cons] at hn
    obtain ⟨file', e, hk⟩ := ih (Dict.set file s ⟨shape, dtype, fun _ => zero⟩) hn.2 (by
      intro t ht
      rw [Dict.get?_set, if_neg (by rintro rfl; exact hn.1 ht)]
      exact h t (by simp [ht]))
    refine ⟨file', ?_, fun k => ?_⟩
    · rw [createdatasets, h s (by simp)]
      exact e
    · rw [hk, Dict.get?_set]
      by_cases h1 : k ∈ l
      · simp [h1]
      · by_cases h2 : s = k
        · simp [h2]
        · simp [h1, h2, Ne.symm h2]

/-! ## order of numbers -/

theorem natVal_cons (c : Char) (t : Str) : SC.Scan.natVal (c :: t) = SC.Scan.digitVal c * 10 ^ t.length + SC.Scan.natVal t := by
  have := SC.Scan.natVal_append [c] t
  rw [List.singleton_append] at this
  rw [this]
  simp [SC.Scan.natVal]

theorem digit_bounds {c : Char} (h : c.isDigit = true) : 48 ≤ c.toNat ∧ c.toNat ≤ 57 := by
  rw [Char.isDigit] at h
  simp only [ge_iff_le, Bool.and_eq_true, decide_eq_true_eq] at h
  exact ⟨h.1, h.2⟩

theorem natVal_lt (t : Str) (h : ∀ c ∈ t, c.isDigit = true) : SC.Scan.natVal t < 10 ^ t.length := by
  induction t with
  | nil => simp [SC.Scan.natVal]
  | cons c t ih =>
    rw [natVal_cons, List.length_cons, Nat.pow_succ]
    have h1 := ih fun d hd => h d (by simp [hd])
    have h2 := digit_bounds (h c (by simp))
    have h3 : SC.Scan.digitVal c ≤ 9 := by rw [SC.Scan.digitVal]; omega
    have h4 : SC.Scan.digitVal c * 10 ^ t.length ≤ 9 * 10 ^ t.length := Nat.mul_le_mul_right _ h3
    omega

theorem lex_value : ∀ (a b : Str), a.length = b.length → (∀ c ∈ a, c.isDigit = true) → (∀ c ∈ b, c.isDigit = true) →
    (a < b ↔ SC.Scan.natVal a < SC.Scan.natVal b)
  | [], [], _, _, _ => by simp
  | x :: a, y :: b, hl, ha, hb => by
    simp only [List.length_cons, Nat.add_right_cancel_iff] at hl
    have ih := lex_value a b hl (fun c hc => ha c (by simp [hc])) (fun c hc => hb c (by simp [hc]))
    have h1 := natVal_lt a fun c hc => ha c (by simp [hc])
    have h2 := natVal_lt b fun c hc => hb c (by simp [hc])
    have dx := digit_bounds (ha x (by simp))
    have dy := digit_bounds (hb y (by simp))
    rw [List.cons_lt_cons_iff, natVal_cons, natVal_cons, hl, ih]
    rw [hl] at h1
    have hxy : x < y ↔ SC.Scan.digitVal x < SC.Scan.digitVal y := by
      rw [Char.lt_def, SC.Scan.digitVal, SC.Scan.digitVal, UInt32.lt_iff_toNat_lt]
      have e1 : x.val.toNat = x.toNat := rfl
      have e2 : y.val.toNat = y.toNat := rfl
      omega
    have hxe : x = y ↔ SC.Scan.digitVal x = SC.Scan.digitVal y := by
      constructor
      · rintro rfl; rfl
      · intro h
        rw [SC.Scan.digitVal, SC.Scan.digitVal] at h
        exact Char.toNat_inj.mp (by omega)
    rw [hxy, hxe]
    generalize SC.Scan.digitVal x = u at *
    generalize SC.Scan.digitVal y = v at *
    constructor
    · rintro (h | ⟨h, h'⟩)
      · have : (u + 1) * 10 ^ b.length ≤ v * 10 ^ b.length := Nat.mul_le_mul_right _ h
        rw [Nat.add_mul] at this
        omega
      · rw [h]; omega
    · intro h
      by_cases he : u = v
      · right; subst he; exact ⟨rfl, by omega⟩
      · left
        by_contra hc
        have : (v + 1) * 10 ^ b.length ≤ u * 10 ^ b.length := Nat.mul_le_mul_right _ (by omega)
        rw [Nat.add_mul] at this
        omega

theorem natVal_pad (w i : Nat) : SC.Scan.natVal (SC.Naming.pad w i) = i := by
  rw [SC.Naming.pad, SC.Scan.natVal_append, (SC.Scan.natVal_repr i).2]
  have : ∀ m, SC.Scan.natVal (List.replicate m '0') = 0 := by
    intro m
    induction m with
    | zero => simp [SC.Scan.natVal]
    | succ m ih =>
      rw [List.replicate_succ, natVal_cons, ih]
      simp [SC.Scan.digitVal]
  rw [this]
  simp

theorem lt_append_left (p a b : Str) : p ++ a < p ++ b ↔ a < b := by
  induction p with
  | nil => rfl
  | cons c p ih =>
    rw [List.cons_append, List.cons_append, List.cons_lt_cons_iff, ih]
    simp

theorem lt_append_right : ∀ (a b : Str), a.length = b.length → ∀ c : Str, a ++ c < b ++ c ↔ a < b
  | [], [], _, c => by simp
  | x :: a, y :: b, h, c => by
    rw [List.cons_append, List.cons_append, List.cons_lt_cons_iff, List.cons_lt_cons_iff,
      lt_append_right a b (by simpa using h) c]

end SC.Stack
