import Verif.Mca.Lemmas
/-! # C43: spectra in SPEC files and colours -/
namespace SC.Mca
open SC.Axis (roundEven roundEven_near roundEven_int)
open SC.Scan (IsNumber IsSign IsNat natVal natVal_repr natVal_append floatOf_eq natOf_eq)

/-! ## the spectrum -/

/-- **C43.**  Sixteen values on every line but the last, which has one to sixteen; all lines but the
last end with a backslash. -/
theorem mca_layout (data : List Rat) (h : data ≠ []) :
    ∃ L : List (List Rat), L ≠ [] ∧ L.flatten = data ∧ (∀ c ∈ L.dropLast, c.length = 16) ∧
      (∀ c ∈ L, c ≠ [] ∧ c.length ≤ 16) ∧
      array2SpecMca data = ['@', 'A', ' '] ++
        List.intercalate ['\\', '\n'] (L.map fun c => c.flatMap fun q => fmtG 8 q ++ [' ']) ++ ['\n'] := by
  obtain ⟨L, l0, l1, l2, l3, l4⟩ := mcaBody_layout _ data (le_refl _) h
  refine ⟨L, l0, l1, l2, l3, ?_⟩
  rw [List.append_assoc, array2SpecMca]
  exact congrArg _ l4

/-- **C43.**  What is read back from the text of a spectrum, whatever follows: as many numbers, each
of which is a number with eight digits closest to the count. -/
theorem mca_read (data : List Rat) (h : data ≠ []) (rest : Str) :
    ∃ toks vals, readMca (array2SpecMca data ++ rest) = some (toks, rest) ∧
      List.Forall₂ IsFloat toks vals ∧ List.Forall₂ (Nearest 8) data vals := by
  have h1 : readMca (array2SpecMca data ++ rest) = some (data.map (fmtG 8), rest) := by
    have : array2SpecMca data ++ rest = '@' :: 'A' :: ' ' :: (mcaBody data ++ rest) := rfl
    rw [this, readMca]
    have : tokens [] (' ' :: (mcaBody data ++ rest)) = tokens [] (mcaBody data ++ rest) := by
      simp only [tokens, flush, if_true]
    rw [this, tokens_body _ data (le_refl _) h]
  have h2 : ∀ data : List Rat, ∃ vals, List.Forall₂ IsFloat (data.map (fmtG 8)) vals ∧ List.Forall₂ (Nearest 8) data vals := by
    intro data
    induction data with
    | nil => exact ⟨[], .nil, .nil⟩
    | cons q data ih =>
      obtain ⟨vals, i1, i2⟩ := ih
      obtain ⟨r, r1, r2⟩ := fmtG_spec 8 (by norm_num) q
      exact ⟨r :: vals, .cons r1 i1, .cons r2 i2⟩
  obtain ⟨vals, i1, i2⟩ := h2 data
  exact ⟨_, vals, h1, i1, i2⟩

theorem mca_empty (rest : Str) : readMca (array2SpecMca [] ++ '\n' :: rest) = some ([], rest) := rfl

/-- **C43.**  Counts with at most eight digits, such as whole numbers below a hundred million, are read
back exactly. -/
theorem mca_roundtrip (data : List Rat) (h : data ≠ []) (hd : ∀ q ∈ data, HasDigits 8 q) (rest : Str) :
    ∃ toks, readMca (array2SpecMca data ++ rest) = some (toks, rest) ∧ List.Forall₂ IsFloat toks data := by
  obtain ⟨toks, vals, h1, h2, h3⟩ := mca_read data h rest
  refine ⟨toks, h1, ?_⟩
  have : vals = data := by
    clear h1 h2 h
    induction h3 with
    | nil => rfl
    | @cons q r _ _ hn _ ih =>
      rw [ih fun q hq => hd q (by simp [hq])]
      congr 1
      have := hn.2 q (hd q (by simp))
      rw [sub_self, abs_zero] at this
      exact sub_eq_zero.mp (abs_eq_zero.mp (le_antisymm this (abs_nonneg _)))
  rwa [this] at h2

/-- **C43.**  Other counts are not: this one has nine digits. -/
theorem mca_digits_lost : readMca (array2SpecMca [123456789]) = some (["1.2345679e+08".toList], []) ∧
    IsFloat "1.2345679e+08".toList 123456790 := by
  refine ⟨by decide +kernel, "1.2345679".toList, 12345679 / 10000000, ?_, .inr ⟨['+'], "08".toList, ?_⟩⟩
  · refine ⟨[], ['1'], "2345679".toList, .inl rfl, by decide, by decide, .inr ⟨by decide, rfl⟩, ?_⟩
    have : natVal "2345679".toList = 2345679 := by decide +kernel
    have h1 : natVal ['1'] = 1 := by decide +kernel
    have h2 : "2345679".toList.length = 7 := by decide +kernel
    rw [this, h1, h2]
    norm_num
  · have : natVal "08".toList = 8 := by decide +kernel
    refine ⟨.inr (.inl rfl), ⟨by decide, by decide⟩, rfl, ?_⟩
    rw [this, if_neg (by decide)]
    norm_num

/-! ## the file -/

theorem strInt_spec (n : Int) : (SC.Xia.strInt n ≠ [] ∧ ∀ c ∈ SC.Xia.strInt n, c.isDigit = true ∨ c = '-') ∧
    pyInt (SC.Xia.strInt n) = some n := by
  have key : ∀ k : Nat, ∃ a l, Nat.toDigits 10 k = a :: l ∧ a.isDigit = true ∧
      SC.Scan.unsigned (Nat.toDigits 10 k) = Nat.toDigits 10 k := by
    intro k
    obtain ⟨⟨h1, h2⟩, -⟩ := natVal_repr k
    obtain ⟨a, l, e⟩ := List.exists_cons_of_ne_nil h1
    have ha := h2 a (by rw [e]; simp)
    refine ⟨a, l, e, ha, ?_⟩
    rw [e]
    unfold SC.Scan.unsigned
    split
    · rename_i h; cases h; exact absurd ha (by decide)
    · rename_i h; cases h; exact absurd ha (by decide)
    · rfl
  unfold SC.Xia.strInt
  split
  · rename_i h
    obtain ⟨⟨h1, h2⟩, h3⟩ := natVal_repr n.toNat
    obtain ⟨a, l, e, ha, hu⟩ := key n.toNat
    refine ⟨⟨h1, fun c hc => .inl (h2 c hc)⟩, ?_⟩
    have hm : ¬ ((Nat.toDigits 10 n.toNat).head? = some '-') := by
      rw [e]
      simp only [List.head?_cons, Option.some.injEq]
      rintro rfl
      exact absurd ha (by decide)
    simp only [pyInt, hu, natOf_eq, h3]
    rw [if_pos ⟨h1, List.all_eq_true.mpr h2⟩, if_neg hm, Int.toNat_of_nonneg h]
  · rename_i h
    obtain ⟨⟨h1, h2⟩, h3⟩ := natVal_repr n.natAbs
    refine ⟨⟨by simp, ?_⟩, ?_⟩
    · intro c hc
      rcases List.mem_cons.mp hc with rfl | hc
      · exact .inr rfl
      · exact .inl (h2 c hc)
    · have hu : SC.Scan.unsigned ('-' :: Nat.toDigits 10 n.natAbs) = Nat.toDigits 10 n.natAbs := rfl
      simp only [pyInt, hu, natOf_eq, h3]
      rw [if_pos ⟨h1, List.all_eq_true.mpr h2⟩, if_pos (by rfl)]
      congr 1
      omega

theorem pyDecimal_spec {m : Str} {q : Rat} (h : IsNumber m q) : pyDecimal m = some q := by
  have hv := floatOf_eq h
  obtain ⟨sg, w, f, hs, hw, hf, ht, -⟩ := h
  have head : ∀ r : Str, (∀ c ∈ r.head?, SC.Scan.isSign c = false) → SC.Scan.unsigned (sg ++ r) = r :=
    fun r hr => SC.Scan.unsigned_eq sg r hs hr
  have hdig : ∀ c : Char, c.isDigit = true → SC.Scan.isSign c = false := by
    intro c hc
    simp only [SC.Scan.isSign, Bool.or_eq_false_iff, decide_eq_false_iff_not]
    exact ⟨SC.Scan.digit_ne hc rfl, SC.Scan.digit_ne hc rfl⟩
  have hhead : ∀ r : Str, (r = [] ∨ ∃ f, r = '.' :: f) → ∀ c ∈ (w ++ r).head?, SC.Scan.isSign c = false := by
    intro r hr c hc
    cases w with
    | nil =>
      rcases hr with rfl | ⟨f, rfl⟩
      · simp at hc
      · simp only [List.nil_append, List.head?_cons, Option.mem_some_iff] at hc
        rw [← hc]
        decide
    | cons a w =>
      simp only [List.cons_append, List.head?_cons, Option.mem_some_iff] at hc
      subst hc
      exact hdig _ (hw _ (by simp))
  have fin : ∀ r : Str, (r = [] ∨ ∃ f, r = '.' :: f) → r.drop 1 = f → w ++ f ≠ [] → m = sg ++ (w ++ r) → pyDecimal m = some q := by
    intro r hr hrf h0 hm
    have hu : SC.Scan.unsigned m = w ++ r := by rw [hm]; exact head _ (hhead r hr)
    simp only [pyDecimal, hu, SC.Scan.whole_eq w r hw hr, SC.Scan.behind_eq w r hw hr, hrf, hv]
    have hall : (w ++ f).all Char.isDigit = true := by
      rw [List.all_eq_true]
      intro c hc
      rcases List.mem_append.mp hc with h | h
      · exact hw c h
      · exact hf c h
    rw [if_pos ⟨h0, hall⟩]
  rcases ht with ⟨rfl, h0, e⟩ | ⟨h0, e⟩
  · exact fin [] (.inl rfl) rfl (by simp [h0]) (by rw [e, List.append_nil])
  · exact fin ('.' :: f) (.inr ⟨f, rfl⟩) rfl (by simp [h0]) (by rw [e, List.append_assoc])

theorem isNumber_noE {m : Str} {q0 : Rat} (h : IsNumber m q0) : ∀ c ∈ m, (c != 'e') = true := by
  obtain ⟨sg, w, f, hs, hw, hf, ht, -⟩ := h
  intro c hc
  have hsg : ∀ c ∈ sg, (c != 'e') = true := by
    rcases hs with rfl | rfl | rfl <;> simp
  have hd : ∀ c : Char, c.isDigit = true → (c != 'e') = true := by
    intro c h
    simpa using SC.Scan.digit_ne h (by decide : 'e'.isDigit = false)
  rcases ht with ⟨-, -, rfl⟩ | ⟨-, rfl⟩
  · rcases List.mem_append.mp hc with h | h
    · exact hsg c h
    · exact hd c (hw c h)
  · rcases List.mem_append.mp hc with h | h
    · rcases List.mem_append.mp h with h | h
      · exact hsg c h
      · exact hd c (hw c h)
    · rcases List.mem_cons.mp h with rfl | h
      · rfl
      · exact hd c (hf c h)

theorem pyInt_signed (sg ex : Str) (hs : IsSign sg) (hx : IsNat ex) :
    pyInt (sg ++ ex) = some (if sg = ['-'] then -(natVal ex : Int) else natVal ex) := by
  obtain ⟨h0, h1⟩ := hx
  obtain ⟨a, l, rfl⟩ := List.exists_cons_of_ne_nil h0
  have ha := h1 a (by simp)
  have hu : SC.Scan.unsigned (sg ++ a :: l) = a :: l := SC.Scan.unsigned_eq sg _ hs (by
    intro c hc
    simp only [List.head?_cons, Option.mem_some_iff] at hc
    subst hc
    simp only [SC.Scan.isSign, Bool.or_eq_false_iff, decide_eq_false_iff_not]
    exact ⟨SC.Scan.digit_ne ha rfl, SC.Scan.digit_ne ha rfl⟩)
  have hm : a ≠ '-' := SC.Scan.digit_ne ha rfl
  simp only [pyInt, hu, natOf_eq]
  rw [if_pos ⟨by simp, List.all_eq_true.mpr h1⟩]
  rcases hs with rfl | rfl | rfl <;> simp [hm]

/-- **C43.**  `float` gives the number of which the text is the notation. -/
theorem pyFloat_spec {t : Str} {q : Rat} (h : IsFloat t q) : pyFloat t = some q := by
  obtain ⟨m, q0, hm, ⟨rfl, rfl⟩ | ⟨sg, ex, hs, hx, rfl, rfl⟩⟩ := h
  · have : t.dropWhile (· != 'e') = [] := List.dropWhile_eq_nil_iff.2 (isNumber_noE hm)
    rw [pyFloat, this]
    exact pyDecimal_spec hm
  · have h1 : (m ++ 'e' :: (sg ++ ex)).dropWhile (· != 'e') = 'e' :: (sg ++ ex) := by
      rw [List.dropWhile_append_of_pos (isNumber_noE hm)]
      simp
    have h2 : (m ++ 'e' :: (sg ++ ex)).takeWhile (· != 'e') = m := by
      rw [List.takeWhile_append_of_pos (isNumber_noE hm)]
      simp
    rw [pyFloat, h1]
    simp only [h2, pyDecimal_spec hm, pyInt_signed sg ex hs hx, Option.bind_some, Option.map_some]

theorem plain_head {t : Str} (h : Plain t) (ht : ∀ c ∈ t, c ≠ '\t' ∧ c ≠ '\r') (c : Char) (hc : c ∈ t) : isWhite c = false := by
  obtain ⟨h1, h2, h3⟩ := h.2 c hc
  obtain ⟨h4, h5⟩ := ht c hc
  simp [isWhite, h1, h2, h4, h5]

theorem isFloat_chars {t : Str} {q : Rat} (h : IsFloat t q) : ∀ c ∈ t, c.isDigit = true ∨ c ∈ ['+', '-', '.', 'e'] := by
  have hm : ∀ {m : Str} {q0 : Rat}, IsNumber m q0 → ∀ c ∈ m, c.isDigit = true ∨ c ∈ ['+', '-', '.', 'e'] := by
    rintro m q0 ⟨sg, w, f, hs, hw, hf, ht, -⟩ c hc
    have hsg : ∀ c ∈ sg, c ∈ ['+', '-', '.', 'e'] := by
      rcases hs with rfl | rfl | rfl <;> simp
    rcases ht with ⟨-, -, rfl⟩ | ⟨-, rfl⟩
    · rcases List.mem_append.mp hc with h | h
      · exact .inr (hsg c h)
      · exact .inl (hw c h)
    · rcases List.mem_append.mp hc with h | h
      · rcases List.mem_append.mp h with h | h
        · exact .inr (hsg c h)
        · exact .inl (hw c h)
      · rcases List.mem_cons.mp h with rfl | h
        · simp
        · exact .inl (hf c h)
  obtain ⟨m, q0, h, ⟨rfl, rfl⟩ | ⟨sg, ex, hs, hx, rfl, -⟩⟩ := h
  · exact hm h
  · intro c hc
    rcases List.mem_append.mp hc with h' | h'
    · exact hm h c h'
    · rcases List.mem_cons.mp h' with rfl | h'
      · simp
      · rcases List.mem_append.mp h' with h' | h'
        · right
          rcases hs with rfl | rfl | rfl
          · simp at h'
          · simp at h'; simp [h']
          · simp at h'; simp [h']
        · exact .inl (hx.2 c h')

theorem number_char {c : Char} (h : c.isDigit = true ∨ c ∈ ['+', '-', '.', 'e']) :
    isWhite c = false ∧ c ≠ ' ' ∧ c ≠ '#' ∧ c ≠ '\n' := by
  have hd : ∀ d : Char, d.isDigit = false → c.isDigit = true → c ≠ d := fun d hd hc => SC.Scan.digit_ne hc hd
  rcases h with h | h
  · have a := hd ' ' rfl h
    have b := hd '\t' rfl h
    have e := hd '\n' rfl h
    have f := hd '\r' rfl h
    exact ⟨by simp [isWhite, a, b, e, f], a, hd '#' rfl h, e⟩
  · simp only [List.mem_cons, List.not_mem_nil, or_false] at h
    rcases h with rfl | rfl | rfl | rfl <;> decide

theorem digits_all (n : Int) : ∀ c ∈ SC.Xia.strInt n, c.isDigit = true ∨ c ∈ ['+', '-', '.', 'e'] := by
  intro c hc
  rcases (strInt_spec n).1.2 c hc with h | h
  · exact .inl h
  · right
    simp [h]

/-- Fields of numbers behind a keyword. -/
theorem fields_spec (pat : Str) (hp : pat.head? = some '#') (ts : List Str) (hts : ts ≠ [])
    (h0 : ∀ t ∈ ts, t ≠ []) (h : ∀ t ∈ ts, ∀ c ∈ t, c.isDigit = true ∨ c ∈ ['+', '-', '.', 'e']) :
    splitBlank (strip (removeAll pat (pat ++ ts.flatMap fun t => ' ' :: t).length (pat ++ ts.flatMap fun t => ' ' :: t))) = ts := by
  rw [removeAll_prefix pat _ '#' hp ?_]
  · obtain ⟨a, ts, rfl⟩ := List.exists_cons_of_ne_nil hts
    rw [List.flatMap_cons, List.cons_append]
    have ha0 := h0 a (by simp)
    rw [strip_word]
    · -- split
      have gen : ∀ (ts : List Str) (a : Str), (∀ t ∈ a :: ts, ∀ c ∈ t, c.isDigit = true ∨ c ∈ ['+', '-', '.', 'e']) →
          splitBlank (a ++ ts.flatMap fun t => ' ' :: t) = a :: ts := by
        intro ts
        induction ts with
        | nil =>
          intro a h
          rw [List.flatMap_nil, List.append_nil]
          exact splitBlank_last a fun c hc => (number_char (h a (by simp) c hc)).2.1
        | cons b ts ih =>
          intro a h
          rw [List.flatMap_cons, List.cons_append, splitBlank_word a _ fun c hc => (number_char (h a (by simp) c hc)).2.1,
            ih b fun t ht => h t (by simp at ht ⊢; exact .inr ht)]
      exact gen ts a h
    · intro c hc
      obtain ⟨x, l, rfl⟩ := List.exists_cons_of_ne_nil ha0
      simp only [List.cons_append, List.head?_cons, Option.mem_some_iff] at hc
      subst hc
      exact (number_char (h (x :: l) (by simp) x (by simp))).1
    · intro c hc
      have last : ∀ (ts : List Str) (a : Str), a ≠ [] → (∀ t ∈ ts, t ≠ []) →
          ∃ t ∈ a :: ts, (a ++ ts.flatMap fun t => ' ' :: t).getLast? = t.getLast? ∧ t ≠ [] := by
        intro ts
        induction ts with
        | nil =>
          intro a ha _
          exact ⟨a, by simp, by simp, ha⟩
        | cons b ts ih =>
          intro a ha hb
          obtain ⟨t, t1, t2, t3⟩ := ih b (hb b (by simp)) (fun t ht => hb t (by simp [ht]))
          refine ⟨t, by simp at t1 ⊢; exact .inr t1, ?_, t3⟩
          rw [List.flatMap_cons, List.cons_append, List.getLast?_append, List.getLast?_cons, t2]
          obtain ⟨x, hx⟩ := Option.isSome_iff_exists.mp (show t.getLast?.isSome from by simp [t3])
          simp [hx]
      obtain ⟨t, t1, t2, t3⟩ := last ts a ha0 (fun t ht => h0 t (by simp [ht]))
      rw [t2] at hc
      exact (number_char (h t t1 c (List.mem_of_getLast? hc))).1
  · intro hc
    rw [List.mem_flatMap] at hc
    obtain ⟨t, t1, t2⟩ := hc
    rcases List.mem_cons.mp t2 with e | e
    · cases e
    · exact (number_char (h t t1 _ e)).2.2.1 rfl

theorem channLine_eq (a b : Int) : channLine a b = sCHANN ++ [SC.Xia.strInt (b - a + 1), SC.Xia.strInt a, SC.Xia.strInt b, ['1']].flatMap fun t => ' ' :: t := by
  simp [channLine]

theorem calibLine_eq (z g : Rat) : calibLine z g = sCALIB ++ [fmtG 7 z, fmtG 7 g, fmtG 7 0].flatMap fun t => ' ' :: t := by
  simp [calibLine]

theorem headerLine_chann (py3 : Bool) (hd : Header) (a b : Int) :
    headerLine py3 hd (channLine a b) = .ok { hd with ch0 := a, ch1 := b } := by
  have hne : sCALIB.isPrefixOf (channLine a b) = false := rfl
  have hp : sCHANN.isPrefixOf (channLine a b) = true := by
    rw [List.isPrefixOf_iff_prefix, channLine_eq]
    exact ⟨_, rfl⟩
  rw [headerLine, hne, hp]
  simp only [Bool.false_eq_true, if_false, if_true]
  have := fields_spec sCHANN rfl [SC.Xia.strInt (b - a + 1), SC.Xia.strInt a, SC.Xia.strInt b, ['1']] (by simp)
    (by
      intro t ht
      simp only [List.mem_cons, List.not_mem_nil, or_false] at ht
      rcases ht with rfl | rfl | rfl | rfl
      · exact (strInt_spec _).1.1
      · exact (strInt_spec _).1.1
      · exact (strInt_spec _).1.1
      · simp)
    (by
      intro t ht
      simp only [List.mem_cons, List.not_mem_nil, or_false] at ht
      rcases ht with rfl | rfl | rfl | rfl
      · exact digits_all _
      · exact digits_all _
      · exact digits_all _
      · intro c hc
        simp at hc
        subst hc
        exact .inl rfl)
  rw [← channLine_eq] at this
  rw [this]
  have h1 : pyInt ['1'] = some 1 := by decide +kernel
  simp only [List.mapM_cons, List.mapM_nil, (strInt_spec _).2, h1]
  rfl

theorem headerLine_calib (hd : Header) (z g : Rat) :
    ∃ z' g', Nearest 7 z z' ∧ Nearest 7 g g' ∧ headerLine false hd (calibLine z g) = .ok { hd with coeff := some [z', g', 0] } := by
  obtain ⟨z', z1, z2⟩ := fmtG_spec 7 (by norm_num) z
  obtain ⟨g', g1, g2⟩ := fmtG_spec 7 (by norm_num) g
  have o1 : IsFloat (fmtG 7 0) 0 := fmtG_exact 7 (by norm_num) 0 ⟨0, 0, by simp, by simp⟩
  refine ⟨z', g', z2, g2, ?_⟩
  have hp : sCALIB.isPrefixOf (calibLine z g) = true := by
    rw [List.isPrefixOf_iff_prefix, calibLine_eq]
    exact ⟨_, rfl⟩
  rw [headerLine, hp]
  simp only [Bool.false_eq_true, if_false, if_true]
  have := fields_spec sCALIB rfl [fmtG 7 z, fmtG 7 g, fmtG 7 0] (by simp)
    (by
      intro t ht
      simp only [List.mem_cons, List.not_mem_nil, or_false] at ht
      rcases ht with rfl | rfl | rfl
      · exact (isFloat_plain z1).1
      · exact (isFloat_plain g1).1
      · exact (isFloat_plain o1).1)
    (by
      intro t ht
      simp only [List.mem_cons, List.not_mem_nil, or_false] at ht
      rcases ht with rfl | rfl | rfl
      · exact isFloat_chars z1
      · exact isFloat_chars g1
      · exact isFloat_chars o1)
  rw [← calibLine_eq] at this
  rw [this]
  simp only [List.mapM_cons, List.mapM_nil, pyFloat_spec z1, pyFloat_spec g1, pyFloat_spec o1]
  rfl

theorem line_noNewline (ts : List Str) (h : ∀ t ∈ ts, ∀ c ∈ t, c.isDigit = true ∨ c ∈ ['+', '-', '.', 'e']) :
    '\n' ∉ ts.flatMap fun t => ' ' :: t := by
  intro hc
  rw [List.mem_flatMap] at hc
  obtain ⟨t, t1, t2⟩ := hc
  rcases List.mem_cons.mp t2 with e | e
  · cases e
  · exact (number_char (h t t1 _ e)).2.2.2 rfl

theorem channLine_noNewline (a b : Int) : '\n' ∉ channLine a b := by
  rw [channLine_eq, List.mem_append, not_or]
  refine ⟨by decide, line_noNewline _ ?_⟩
  intro t ht
  simp only [List.mem_cons, List.not_mem_nil, or_false] at ht
  rcases ht with rfl | rfl | rfl | rfl
  · exact digits_all _
  · exact digits_all _
  · exact digits_all _
  · intro c hc
    simp at hc
    subst hc
    exact .inl rfl

theorem calibLine_noNewline (z g : Rat) : '\n' ∉ calibLine z g := by
  rw [calibLine_eq, List.mem_append, not_or]
  refine ⟨by decide, line_noNewline _ ?_⟩
  intro t ht
  simp only [List.mem_cons, List.not_mem_nil, or_false] at ht
  rcases ht with rfl | rfl | rfl
  · exact isFloat_chars (fmtG_spec 7 (by norm_num) z).choose_spec.1
  · exact isFloat_chars (fmtG_spec 7 (by norm_num) g).choose_spec.1
  · exact isFloat_chars (fmtG_spec 7 (by norm_num) 0).choose_spec.1

/-- The file line by line. -/
theorem save_lines (filename t1 t2 : Str) (mca : List Rat) (zero gain : Rat) (ch0 ch1 : Option Int) :
    save filename t1 t2 mca zero gain ch0 ch1 = ("#F ".toList ++ filename) ++ '\n' :: (("#D ".toList ++ t1) ++ '\n' :: ([] ++ '\n' ::
      ("#S 1 spectrocrunch".toList ++ '\n' :: (("#D ".toList ++ t2) ++ '\n' :: ("#@MCA %16C".toList ++ '\n' ::
      (channLine (ch0.getD 0) (ch1.getD (ch0.getD 0 + mca.length - 1)) ++ '\n' :: (calibLine zero gain ++ '\n' ::
      (array2SpecMca mca ++ ['\n'])))))))) := by
  have e1 : sS1 = "#S 1 spectrocrunch".toList ++ ['\n'] := by decide +kernel
  have e2 : sMCA = "#@MCA %16C".toList ++ ['\n'] := by decide +kernel
  unfold save
  rw [e1, e2]
  generalize "#F ".toList = a
  generalize "#D ".toList = b
  generalize "#S 1 spectrocrunch".toList = c
  generalize "#@MCA %16C".toList = d
  dsimp only
  generalize channLine _ _ = f
  generalize calibLine _ _ = g
  generalize array2SpecMca _ = h
  simp only [List.append_assoc, List.cons_append, List.nil_append, List.singleton_append]

/-- No line of a spectrum starts with `#`. -/
theorem body_noHash (mca : List Rat) : '#' ∉ array2SpecMca mca := by
  have hcell : ∀ q, '#' ∉ cell q := by
    intro q h
    rcases List.mem_append.mp h with h | h
    · exact (number_char (isFloat_chars (fmtG_spec 8 (by norm_num) q).choose_spec.1 _ h)).2.2.1 rfl
    · simp at h
  have hfl : ∀ (l : List Nat) (f : Nat → Rat), '#' ∉ l.flatMap fun i => cell (f i) := by
    intro l f h
    rw [List.mem_flatMap] at h
    obtain ⟨i, -, hi⟩ := h
    exact hcell _ hi
  rw [array2SpecMca, List.mem_append, not_or]
  refine ⟨by decide, ?_⟩
  intro h
  rw [List.mem_flatMap] at h
  obtain ⟨k, -, hk⟩ := h
  rw [mcaLine, List.mem_append] at hk
  rcases hk with hk | hk
  · split at hk
    · rw [List.mem_append] at hk
      rcases hk with hk | hk
      · exact hfl _ _ hk
      · split at hk <;> simp at hk
    · exact hfl _ _ hk
  · simp at hk

theorem splitLines_chars (s : Str) (x : Char) (h : x ∉ s) : ∀ l ∈ splitLines s, x ∉ l := by
  induction s with
  | nil => simp [splitLines]
  | cons c s ih =>
    obtain ⟨a, b, e⟩ := List.exists_cons_of_ne_nil (splitLines_ne s)
    have ih' := ih (fun hh => h (by simp [hh]))
    rw [e] at ih'
    intro l hl
    rw [splitLines, e] at hl
    simp only at hl
    split at hl
    · rcases List.mem_cons.mp hl with rfl | hl
      · simp
      · exact ih' l hl
    · rcases List.mem_cons.mp hl with rfl | hl
      · intro hx
        rcases List.mem_cons.mp hx with rfl | hx
        · exact h (by simp)
        · exact ih' a (by simp) hx
      · exact ih' l (by simp [hl])

/-- **C43.**  The header of the scan in a saved file. -/
theorem save_header (filename t1 t2 : Str) (hf : '\n' ∉ filename) (h1 : '\n' ∉ t1) (h2 : '\n' ∉ t2) (mca : List Rat)
    (zero gain : Rat) (ch0 ch1 : Option Int) :
    scanHeader (save filename t1 t2 mca zero gain ch0 ch1) = ["#S 1 spectrocrunch".toList, "#D ".toList ++ t2,
      "#@MCA %16C".toList, channLine (ch0.getD 0) (ch1.getD (ch0.getD 0 + mca.length - 1)), calibLine zero gain] := by
  rw [save_lines, scanHeader, splitLines_line _ _ (by simp [hf]), splitLines_line _ _ (by simp [h1]),
    splitLines_line _ _ (by simp), splitLines_line _ _ (by decide), splitLines_line _ _ (by simp [h2]),
    splitLines_line _ _ (by decide), splitLines_line _ _ (channLine_noNewline _ _), splitLines_line _ _ (calibLine_noNewline _ _)]
  have hrest : (splitLines (array2SpecMca mca ++ ['\n'])).filter (fun l => l.head? == some '#') = [] := by
    rw [List.filter_eq_nil_iff]
    intro l hl
    have := splitLines_chars _ '#' (by simp [body_noHash mca]) l hl
    cases l with
    | nil => simp
    | cons a l =>
      have : a ≠ '#' := by rintro rfl; simp at this
      simp [this]
  have d1 : ("#S".toList.isPrefixOf ("#F ".toList ++ filename)) = false := rfl
  have d2 : ("#S".toList.isPrefixOf ("#D ".toList ++ t1)) = false := rfl
  have d3 : ("#S".toList.isPrefixOf ([] : Str)) = false := rfl
  have d4 : ("#S".toList.isPrefixOf "#S 1 spectrocrunch".toList) = true := by decide +kernel
  have c1 : ("#S 1 spectrocrunch".toList.head? == some '#') = true := by decide +kernel
  have c2 : (("#D ".toList ++ t2).head? == some '#') = true := rfl
  have c3 : ("#@MCA %16C".toList.head? == some '#') = true := by decide +kernel
  have c4 : ∀ a b, ((channLine a b).head? == some '#') = true := fun _ _ => rfl
  have c5 : ((calibLine zero gain).head? == some '#') = true := rfl
  rw [List.dropWhile_cons_of_pos (by rw [d1]; rfl), List.dropWhile_cons_of_pos (by rw [d2]; rfl),
    List.dropWhile_cons_of_pos (by rw [d3]; rfl), List.dropWhile_cons_of_neg (by rw [d4]; simp),
    List.filter_cons_of_pos (p := fun l : Str => l.head? == some '#') c1, List.filter_cons_of_pos (p := fun l : Str => l.head? == some '#') c2, List.filter_cons_of_pos (p := fun l : Str => l.head? == some '#') c3, List.filter_cons_of_pos (p := fun l : Str => l.head? == some '#') (c4 _ _),
    List.filter_cons_of_pos (p := fun l : Str => l.head? == some '#') c5, hrest]

/-- **C43.**  The spectrum in a saved file, for every spectrum, calibration and first channel. -/
theorem save_counts (filename t1 t2 : Str) (hf : '\n' ∉ filename) (h1 : '\n' ∉ t1) (h2 : '\n' ∉ t2) (mca : List Rat)
    (hm : mca ≠ []) (zero gain : Rat) (ch0 ch1 : Option Int) :
    ∃ toks vals, readMca (fromMca true (save filename t1 t2 mca zero gain ch0 ch1)) = some (toks, ['\n']) ∧
      List.Forall₂ IsFloat toks vals ∧ List.Forall₂ (Nearest 8) mca vals := by
  have e : fromMca true (save filename t1 t2 mca zero gain ch0 ch1) = array2SpecMca mca ++ ['\n'] := by
    rw [save_lines, fromMca_line _ _ (by simp [hf]) rfl, fromMca_line _ _ (by simp [h1]) rfl,
      fromMca_line _ _ (by simp) rfl, fromMca_line _ _ (by decide) rfl, fromMca_line _ _ (by simp [h2]) rfl,
      fromMca_line _ _ (by decide) rfl, fromMca_line _ _ (channLine_noNewline _ _) rfl,
      fromMca_line _ _ (calibLine_noNewline _ _) rfl]
    rfl
  rw [e]
  exact mca_read mca hm ['\n']

/-- **C43.**  Deviation: Python 3 never reads a saved file back. -/
theorem read_fails (filename t1 t2 : Str) (hf : '\n' ∉ filename) (h1 : '\n' ∉ t1) (h2 : '\n' ∉ t2) (mca : List Rat)
    (zero gain : Rat) (ch0 ch1 : Option Int) (got : List Rat) :
    read true (scanHeader (save filename t1 t2 mca zero gain ch0 ch1)) got = .error .typeError := by
  rw [save_header _ _ _ hf h1 h2]
  have e : ∀ a b, [("#S 1 spectrocrunch".toList : Str), "#D ".toList ++ t2, "#@MCA %16C".toList, channLine a b,
      calibLine zero gain].foldlM (headerLine true) ⟨some [0, 1], 0, 0⟩ = .ok ⟨none, a, b⟩ := by
    intro a b
    have k1 : ∀ hd, headerLine true hd "#S 1 spectrocrunch".toList = .ok hd := fun hd => rfl
    have k2 : ∀ hd, headerLine true hd ("#D ".toList ++ t2) = .ok hd := fun hd => rfl
    have k3 : ∀ hd, headerLine true hd "#@MCA %16C".toList = .ok hd := fun hd => rfl
    have k5 : ∀ hd, headerLine true hd (calibLine zero gain) = .ok { hd with coeff := none } := by
      intro hd
      have hp : sCALIB.isPrefixOf (calibLine zero gain) = true := by
        rw [List.isPrefixOf_iff_prefix, calibLine_eq]
        exact ⟨_, rfl⟩
      rw [headerLine, hp]
      rfl
    simp only [List.foldlM_cons, List.foldlM_nil, k1, k2, k3, k5, headerLine_chann, bind, Except.bind, pure, Except.pure]
  rw [read, e]

/-- **C43.**  With a `map` that gives a list (Python 2), the channels and energies of a saved file are
those of the calibration written with seven digits; the counts get a zero as last channel. -/
theorem read_spec (filename t1 t2 : Str) (hf : '\n' ∉ filename) (h1 : '\n' ∉ t1) (h2 : '\n' ∉ t2) (mca : List Rat)
    (zero gain : Rat) (ch0 : Option Int) (got : List Rat) (hg : got.length + 1 = mca.length) (hn : 2 ≤ mca.length) :
    ∃ z g r, Nearest 7 zero z ∧ Nearest 7 gain g ∧
      read false (scanHeader (save filename t1 t2 mca zero gain ch0 none)) got = .ok r ∧
      r.mca = got ++ [0] ∧ r.coeff = [z, g, 0] ∧ r.mca.length = mca.length ∧
      r.channels = (List.range mca.length).map (fun (k : Nat) => ch0.getD 0 + (k : Int)) ∧
      r.energy = r.channels.map fun x => z + g * (x : Rat) := by
  obtain ⟨z, g, hz, hgn, hc⟩ := headerLine_calib ⟨some [0, 1], ch0.getD 0, ch0.getD 0 + mca.length - 1⟩ zero gain
  rw [save_header _ _ _ hf h1 h2]
  have e : [("#S 1 spectrocrunch".toList : Str), "#D ".toList ++ t2, "#@MCA %16C".toList,
      channLine (ch0.getD 0) (ch0.getD 0 + mca.length - 1),
      calibLine zero gain].foldlM (headerLine false) ⟨some [0, 1], 0, 0⟩
      = .ok ⟨some [z, g, 0], ch0.getD 0, ch0.getD 0 + mca.length - 1⟩ := by
    have k1 : ∀ hd, headerLine false hd "#S 1 spectrocrunch".toList = .ok hd := fun hd => rfl
    have k2 : ∀ hd, headerLine false hd ("#D ".toList ++ t2) = .ok hd := fun hd => rfl
    have k3 : ∀ hd, headerLine false hd "#@MCA %16C".toList = .ok hd := fun hd => rfl
    simp only [List.foldlM_cons, List.foldlM_nil, k1, k2, k3, hc, headerLine_chann, bind, Except.bind, pure, Except.pure]
  have hg0 : got ≠ [] := by
    rintro rfl
    simp at hg
    omega
  have hch : ¬ (ch0.getD 0 = ch0.getD 0 + (mca.length : Int) - 1) := by omega
  have hcount : (ch0.getD 0 + (mca.length : Int) - 1 + 1 - ch0.getD 0).toNat = mca.length := by omega
  refine ⟨z, g, ⟨got ++ [0], (List.range mca.length).map (fun (k : Nat) => ch0.getD 0 + (k : Int)),
    ((List.range mca.length).map (fun (k : Nat) => ch0.getD 0 + (k : Int))).map
      fun x => (([z, g, 0].zipIdx.map fun p => p.1 * (x : Rat) ^ p.2).sum), [z, g, 0]⟩, hz, hgn, ?_, rfl, rfl, ?_, rfl, ?_⟩
  · rw [read, Option.getD_none, e]
    simp only [hch, hg0, if_false, hcount]
  · simpa using hg
  · simp only
    congr 1
    funext x
    simp [List.zipIdx]

/-- **C43.**  Deviation: the number of the channel is lost for a spectrum of one channel. -/
theorem read_single_channel :
    scanHeader (save "f".toList "t".toList "t".toList [7] 0 1 (some 5) none)
      = ["#S 1 spectrocrunch".toList, "#D t".toList, "#@MCA %16C".toList, "#@CHANN 1 5 5 1".toList, "#@CALIB 0 1 0".toList] ∧
    read false ["#S 1 spectrocrunch".toList, "#D t".toList, "#@MCA %16C".toList, "#@CHANN 1 5 5 1".toList,
      "#@CALIB 0 1 0".toList] [7] = .ok ⟨[7, 0], [0, 1], [0, 1], [0, 1, 0]⟩ := by
  constructor <;> decide +kernel

/-! ## colours -/

/-- **C43.**  A normalised value gives three bytes which together are the number of its level among
`2 ^ 24`. -/
theorem rgb_code (x : Rat) (h0 : 0 ≤ x) (h1 : x ≤ 1) :
    0 ≤ (rgb x).1 ∧ (rgb x).1 ≤ 255 ∧ 0 ≤ (rgb x).2.1 ∧ (rgb x).2.1 ≤ 255 ∧ 0 ≤ (rgb x).2.2 ∧ (rgb x).2.2 ≤ 255 ∧
    |(((rgb x).1 + 256 * (rgb x).2.1 + 65536 * (rgb x).2.2 : Int) : Rat) - x * (2 ^ 24 - 1)| ≤ 1 / 2 := by
  obtain ⟨n, hn⟩ : ∃ n, n = roundEven (x * (2 ^ 24 - 1)) := ⟨_, rfl⟩
  have hr : rgb x = (n % 256, n / 256 % 256, n / 65536 % 256) := by rw [rgb, ← hn]
  have hb := roundEven_bounds (x * (2 ^ 24 - 1))
  rw [← hn] at hb
  have a : -1 < n := by
    have : ((-1 : Int) : Rat) < n := by push_cast; nlinarith [hb.1]
    exact_mod_cast this
  have b : n < 16777216 := by
    have : (n : Rat) < ((16777216 : Int) : Rat) := by push_cast; nlinarith [hb.2]
    exact_mod_cast this
  have hsum : n % 256 + 256 * (n / 256 % 256) + 65536 * (n / 65536 % 256) = n := by omega
  rw [hr]
  dsimp only
  refine ⟨by omega, by omega, by omega, by omega, by omega, by omega, ?_⟩
  rw [hsum, hn]
  exact roundEven_near _

/-- **C43.**  Values with the same colour differ by less than two levels: by at most one step. -/
theorem rgb_separates (x y : Rat) (hx0 : 0 ≤ x) (hx1 : x ≤ 1) (hy0 : 0 ≤ y) (hy1 : y ≤ 1) (h : rgb x = rgb y) :
    |x - y| ≤ 1 / (2 ^ 24 - 1) := by
  have a := (rgb_code x hx0 hx1).2.2.2.2.2.2
  have b := (rgb_code y hy0 hy1).2.2.2.2.2.2
  rw [h] at a
  rw [abs_le] at a b ⊢
  constructor
  · rw [neg_le_iff_add_nonneg]
    have : (0 : Rat) ≤ (x - y) * (2 ^ 24 - 1) + 1 := by linarith [a.1, a.2, b.1, b.2]
    norm_num at this ⊢
    linarith
  · norm_num at a b ⊢
    linarith [a.1, a.2, b.1, b.2]

/-- **C43.**  The levels are told apart, and every triple of bytes is the colour of one level. -/
theorem rgb_levels (r g b : Int) (hr : 0 ≤ r ∧ r ≤ 255) (hg : 0 ≤ g ∧ g ≤ 255) (hb : 0 ≤ b ∧ b ≤ 255) (k : Int)
    (hk : 0 ≤ k ∧ k < 2 ^ 24) :
    rgb ((k : Rat) / (2 ^ 24 - 1)) = (r, g, b) ↔ k = r + 256 * g + 65536 * b := by
  have : roundEven ((k : Rat) / (2 ^ 24 - 1) * (2 ^ 24 - 1)) = k := by
    rw [div_mul_cancel₀ _ (by norm_num)]
    exact roundEven_int k
  rw [rgb, this]
  simp only [Prod.mk.injEq]
  norm_num at hk
  omega

/-- **C43.**  Between the levels values are rounded, so that the encoding of all numbers is not
injective, and outside the interval it wraps. -/
theorem rgb_not_injective : rgb 0 = rgb (1 / 2 ^ 26) ∧ (0 : Rat) ≠ 1 / 2 ^ 26 ∧ rgb (2 ^ 24 / (2 ^ 24 - 1)) = rgb 0 := by
  refine ⟨by decide +kernel, by norm_num, by decide +kernel⟩

example : read false (scanHeader (save "f".toList "t".toList "t".toList [7, 8] (1 / 2) (1 / 100) (some 5) none)) [7]
    = .ok ⟨[7, 0], [5, 6], [11 / 20, 14 / 25], [1 / 2, 1 / 100, 0]⟩ := by decide +kernel
example : rgb (1 / 2) = (0, 0, 128) := by decide +kernel
example : array2SpecMca [1, 5 / 2, 300] = "@A 1 2.5 300 \n".toList := by decide +kernel
example : HasDigits 8 (5 / 2) := ⟨25, -1, by norm_num, by norm_num⟩
example : ∃ toks, readMca (array2SpecMca [1, 5 / 2, 99999999]) = some (toks, []) ∧
    List.Forall₂ IsFloat toks [1, 5 / 2, 99999999] := by
  have := mca_roundtrip [1, 5 / 2, 99999999] (by simp) (by
    intro q hq
    simp only [List.mem_cons, List.not_mem_nil, or_false] at hq
    rcases hq with rfl | rfl | rfl
    · exact ⟨1, 0, by norm_num, by norm_num⟩
    · exact ⟨25, -1, by norm_num, by norm_num⟩
    · exact ⟨99999999, 0, by norm_num, by norm_num⟩) []
  simpa using this

end SC.Mca
