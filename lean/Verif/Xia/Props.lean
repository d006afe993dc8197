import Verif.Xia.Lemmas
/-! # C28, names: formatting followed by parsing -/
namespace SC.Xia
open SC.Py SC.Py.Regex SC.Naming

theorem patterns_eq (extra : List Str) : patterns extra = xiaPat :: mcaPat :: (counters extra).map ctrPat := by
  simp [patterns, defaultCounters, counters]

def ctrResult (s c : Str) : Option XiaName := (run (ctrPat c) dollar s).map (toName (ctrPat c))

theorem parse_eq (extra : List Str) (f : Str) : parse extra f =
    ((run xiaPat dollar (basename f)).map (toName xiaPat)).or
      (((run mcaPat dollar (basename f)).map (toName mcaPat)).or
        ((counters extra).findSome? (ctrResult (basename f)))) := by
  simp only [parse, parseGroups, patterns_eq, List.findSome?_cons]
  cases h1 : run xiaPat dollar (basename f) with
  | some ts => simp
  | none =>
    cases h2 : run mcaPat dollar (basename f) with
    | some ts => simp
    | none =>
      simp only [Option.map_none, Option.none_or, List.findSome?_map]
      induction counters extra with
      | nil => rfl
      | cons c l ih =>
        simp only [List.findSome?_cons, Function.comp, ctrResult] at ih ⊢
        cases h3 : run (ctrPat c) dollar (basename f) with
        | some ts => simp
        | none => simpa using ih

/-- The three ways in which a file name is parsed. -/
theorem parse_cases {extra : List Str} {f : Str} {n : XiaName} (h : parse extra f = some n) :
    (∃ ts, run xiaPat dollar (basename f) = some ts ∧ n = toName xiaPat ts) ∨
    (∃ ts, run mcaPat dollar (basename f) = some ts ∧ n = toName mcaPat ts) ∨
    (run xiaPat dollar (basename f) = none ∧ run mcaPat dollar (basename f) = none ∧
      ∃ l1 c l2 ts, counters extra = l1 ++ c :: l2 ∧ (∀ x ∈ l1, run (ctrPat x) dollar (basename f) = none) ∧
        run (ctrPat c) dollar (basename f) = some ts ∧ n = toName (ctrPat c) ts) := by
  rw [parse_eq] at h
  cases h1 : run xiaPat dollar (basename f) with
  | some ts => rw [h1] at h; simp at h; exact Or.inl ⟨ts, rfl, h.symm⟩
  | none =>
    rw [h1] at h
    cases h2 : run mcaPat dollar (basename f) with
    | some ts => rw [h2] at h; simp at h; exact Or.inr (Or.inl ⟨ts, rfl, h.symm⟩)
    | none =>
      rw [h2] at h
      simp only [Option.map_none, Option.none_or] at h
      rw [List.findSome?_eq_some_iff] at h
      obtain ⟨l1, c, l2, hl, hc, hno⟩ := h
      simp only [ctrResult, Option.map_eq_some_iff] at hc
      obtain ⟨ts, hts, hn⟩ := hc
      exact Or.inr (Or.inr ⟨rfl, rfl, l1, c, l2, ts, hl, fun x hx => by simpa [ctrResult] using hno x hx, hts, hn.symm⟩)

/-- Whatever is parsed has the documented form, and the parts are the ones in the name. -/
theorem parse_sound {extra : List Str} {f : Str} {n : XiaName} (h : parse extra f = some n) :
    ReadsAs extra (basename f) n.radix n.label n.mapnum n.linenum := by
  rcases parse_cases h with ⟨ts, hr, rfl⟩ | ⟨ts, hr, rfl⟩ | ⟨_, _, l1, ctr, l2, ts, hl, _, hr, rfl⟩
  · obtain ⟨ts', r, o', rfl, hf, hk⟩ := run_sound _ _ _ _ hr
    obtain ⟨he, rfl⟩ := dollar_eq.1 hk
    obtain ⟨R, a, b, M, L, c, hR, hR', ha, hb, hM, hL, hc, rfl, hs⟩ := fits_xia.1 hf
    rw [List.append_nil, toName_xia]
    refine ⟨M, c, r, hM, hc, he, rfl, hR, hR', Or.inl ⟨Or.inl ⟨a, b, rfl⟩, by simp [ha, hb], L, hL, rfl, ?_⟩⟩
    rw [hs]; simp [spectraRest]
  · obtain ⟨R, M, L, c, e, hR, hR', hM, hL, hc, he, hs, hn⟩ := run_mca hr
    rw [hn]
    refine ⟨M, c, e, hM, hc, he, rfl, hR, hR', Or.inl ⟨Or.inr rfl, by simp, L, hL, rfl, ?_⟩⟩
    rw [hs]; simp [spectraRest]
  · obtain ⟨R, T, M, c, e, hR, hR', hT, hT', hM, hc, he, hs, hn, _⟩ := run_ctr hr
    rw [hn]
    refine ⟨M, c, e, hM, hc, he, rfl, hR, hR', Or.inr ⟨⟨ctr, by simp [hl], T, hT, hT', rfl⟩, rfl, ?_⟩⟩
    rw [hs]; simp [ctrRest]

/-- Every file name of the documented form is parsed. -/
theorem parse_complete {extra : List Str} {f radix label : Str} {mapnum linenum : Int}
    (h : ReadsAs extra (basename f) radix label mapnum linenum) : (parse extra f).isSome := by
  rw [parse_eq]
  obtain ⟨m, c, e, hm, hc, he, _, hR, hR', h | h⟩ := h
  · obtain ⟨hl, hl', l, hL, _, hs⟩ := h
    rcases hl with ⟨a, b, rfl⟩ | rfl
    · have := run_xia_some (a := a) (b := b) hR hR' (hl' a (by simp)) (hl' b (by simp)) hm hL hc he
      have hs' : basename f = (radix ++ '_' :: ['x', 'i', 'a', a, b]) ++ spectraRest m l c e := by
        rw [hs]; simp [spectraRest]
      rw [← hs'] at this
      simp [this]
    · have := run_mca_some hR hR' hm hL hc he
      have hs' : basename f = (radix ++ '_' :: ['m', 'c', 'a']) ++ spectraRest m l c e := by
        rw [hs]; simp [spectraRest]
      rw [← hs'] at this
      simp [this]
  · obtain ⟨⟨ctr, hctr, t, ht, ht', rfl⟩, _, hs⟩ := h
    have := run_ctr_some (ctr := ctr) hR hR' ht ht' hm hc he
    have hs' : basename f = (radix ++ '_' :: (ctr ++ t)) ++ ctrRest m c e := by
      rw [hs]; simp [ctrRest]
    rw [← hs'] at this
    have h2 : ((counters extra).findSome? (ctrResult (basename f))).isSome := by
      rw [List.findSome?_isSome_iff]
      exact ⟨ctr, hctr, by simpa [ctrResult] using this⟩
    simp [h2]

theorem fmt04_nonneg {n : Int} (h : 0 ≤ n) : fmt04 n = pad 4 n.toNat := by simp [fmt04, h]

theorem pyInt_pad {n : Int} (h : 0 ≤ n) : pyInt (pad 4 n.toNat) = n := by
  simp only [pyInt, pad_value]; omega

theorem spectra_name {radix label : Str} {m l : Int} (hm : 0 ≤ m) (hl : 0 ≤ l) :
    xiafilename radix m l label = (radix ++ '_' :: label) ++ spectraRest (pad 4 m.toNat) (pad 4 l.toNat) '.' [] := by
  have : l ≠ -1 := by omega
  simp [xiafilename, this, fmt04_nonneg hm, fmt04_nonneg hl, spectraRest]

theorem ctr_name {radix label : Str} {m : Int} (hm : 0 ≤ m) :
    xiafilename radix m (-1) label = (radix ++ '_' :: label) ++ ctrRest (pad 4 m.toNat) '.' [] := by
  simp [xiafilename, fmt04_nonneg hm, ctrRest]

theorem digit_ne_slash {c : Char} (h : c.isDigit = true) : c ≠ '/' := by rintro rfl; exact absurd h (by decide)

theorem spectra_basename {x : Str} {m l : Nat} (hx : Plain x) :
    basename (x ++ spectraRest (pad 4 m) (pad 4 l) '.' []) = x ++ spectraRest (pad 4 m) (pad 4 l) '.' [] := by
  refine basename_plain ?_
  intro c hc
  have h1 : ∀ n, c ∈ pad 4 n → c ≠ '/' := fun n h => digit_ne_slash (pad_digit 4 n c h)
  simp only [spectraRest, List.mem_append, List.mem_cons, List.not_mem_nil, or_false] at hc
  rcases hc with h | h | (h | h | h | h | h | h | h) | h | h | h | h | h
  all_goals first | exact (hx c h).2 | exact h1 _ h | (subst h; decide)

theorem ctr_basename {x : Str} {m : Nat} (hx : Plain x) :
    basename (x ++ ctrRest (pad 4 m) '.' []) = x ++ ctrRest (pad 4 m) '.' [] := by
  refine basename_plain ?_
  intro c hc
  have h1 : ∀ n, c ∈ pad 4 n → c ≠ '/' := fun n h => digit_ne_slash (pad_digit 4 n c h)
  simp only [ctrRest, List.mem_append, List.mem_cons, List.not_mem_nil, or_false] at hc
  rcases hc with h | h | (h | h | h | h | h | h) | h | h | h | h
  all_goals first | exact (hx c h).2 | exact h1 _ h | (subst h; decide)

theorem plain_join {r l : Str} (hr : Plain r) (hl : Plain l) : Plain (r ++ '_' :: l) := by
  intro c hc
  rcases List.mem_append.1 hc with h | h
  · exact hr c h
  · rcases List.mem_cons.1 h with rfl | h
    · decide
    · exact hl c h

/-- A file of spectra with label `xia..`: all parts come back. -/
theorem xia_roundtrip (extra : List Str) {radix : Str} {a b : Char} {m l : Int} (hne : radix ≠ [])
    (hr : Plain radix) (hl : Plain ['x', 'i', 'a', a, b]) (hm : 0 ≤ m) (hn : 0 ≤ l) :
    parse extra (xiafilename radix m l ['x', 'i', 'a', a, b]) =
      some ⟨radix, m, l, ['x', 'i', 'a', a, b], ['x', 'i', 'a'], [a, b]⟩ := by
  rw [spectra_name hm hn, parse_eq, spectra_basename (plain_join hr hl)]
  have h1 := run_xia_some (a := a) (b := b) (e := []) hne (fun x hx => (hr x hx).1) (hl a (by simp)).1 (hl b (by simp)).1
    (num_pad m.toNat) (num_pad l.toNat) (c := '.') (by decide) (Or.inl rfl)
  obtain ⟨ts, hts⟩ := Option.isSome_iff_exists.1 h1
  rw [hts]
  obtain ⟨R, a', b', M, L, c, e, _, _, hM, hL, _, he, hs, hn'⟩ := run_xia hts
  obtain ⟨h2, rfl, rfl, _, _⟩ := spectra_unique hs (num_pad _) (num_pad _) hM hL (Or.inl rfl) he
  have h3 : R ++ ['_', 'x', 'i', 'a'] ++ [a', b'] = radix ++ ['_', 'x', 'i', 'a'] ++ [a, b] := by simpa using h2.symm
  obtain ⟨h4, h5⟩ := List.append_inj' h3 rfl
  simp only [List.cons.injEq, and_true] at h5
  obtain ⟨rfl, rfl⟩ := h5
  rw [List.append_cancel_right h4] at hn'
  simp [hn', pyInt_pad hm, pyInt_pad hn]

/-- A file of spectra with label `mca`: all parts come back. -/
theorem mca_roundtrip (extra : List Str) {radix : Str} {m l : Int} (hne : radix ≠ [])
    (hr : Plain radix) (hm : 0 ≤ m) (hn : 0 ≤ l) :
    parse extra (xiafilename radix m l ['m', 'c', 'a']) =
      some ⟨radix, m, l, ['m', 'c', 'a'], ['m', 'c', 'a'], []⟩ := by
  rw [spectra_name hm hn, parse_eq, spectra_basename (plain_join hr (by intro c hc; revert c; decide))]
  have hx : run xiaPat dollar ((radix ++ '_' :: ['m', 'c', 'a']) ++ spectraRest (pad 4 m.toNat) (pad 4 l.toNat) '.' []) = none := by
    rw [Option.eq_none_iff_forall_ne_some]
    intro ts hts
    obtain ⟨R, a', b', M, L, c, e, _, _, hM, hL, _, he, hs, _⟩ := run_xia hts
    obtain ⟨h2, _⟩ := spectra_unique hs (num_pad _) (num_pad _) hM hL (Or.inl rfl) he
    have := congrArg List.reverse h2
    simp at this
  rw [hx]
  have h1 := run_mca_some (e := []) hne (fun x hx => (hr x hx).1)
    (num_pad m.toNat) (num_pad l.toNat) (c := '.') (by decide) (Or.inl rfl)
  obtain ⟨ts, hts⟩ := Option.isSome_iff_exists.1 h1
  rw [hts]
  obtain ⟨R, M, L, c, e, _, _, hM, hL, _, he, hs, hn'⟩ := run_mca hts
  obtain ⟨h2, rfl, rfl, _, _⟩ := spectra_unique hs (num_pad _) (num_pad _) hM hL (Or.inl rfl) he
  rw [← List.append_cancel_right h2] at hn'
  simp [hn', pyInt_pad hm, pyInt_pad hn]

/-- Names of spectra come back exactly when the label is that of a file with spectra. -/
theorem spectra_roundtrip_iff (extra : List Str) {radix label : Str} {m l : Int} (hne : radix ≠ [])
    (hr : Plain radix) (hl : Plain label) (hm : 0 ≤ m) (hn : 0 ≤ l) :
    RoundTrips extra radix m l label ↔ SpectraLabel label := by
  constructor
  · rintro ⟨n, hp, _, _, h3, h4⟩
    obtain ⟨_, _, _, _, _, _, _, _, _, h | h⟩ := parse_sound hp
    · rw [← h4]; exact h.1
    · have := h.2.1; omega
  · rintro (⟨a, b, rfl⟩ | rfl)
    · exact ⟨_, xia_roundtrip extra hne hr hl hm hn, rfl, rfl, rfl, rfl⟩
    · exact ⟨_, mca_roundtrip extra hne hr hm hn, rfl, rfl, rfl, rfl⟩

theorem pad_zero : pad 4 0 = ['0', '0', '0', '0'] := by decide

/-- A counter name that is not taken for a file of spectra. -/
theorem no_spectra {x : Str} {m : Int} (hm : 0 ≤ m) (h : m = 0 → ¬ SpectraLike x) :
    run xiaPat dollar (x ++ ctrRest (pad 4 m.toNat) '.' []) = none ∧
    run mcaPat dollar (x ++ ctrRest (pad 4 m.toNat) '.' []) = none := by
  constructor
  · rw [Option.eq_none_iff_forall_ne_some]
    intro ts hts
    obtain ⟨R, a', b', M, L, c, e, hR, _, hM, hL, _, he, hs, _⟩ := run_xia hts
    obtain ⟨h1, h2, _⟩ := ctr_spectra hs (num_pad _) hL (Or.inl rfl) he
    have h0 : m.toNat = 0 := pad_inj (h1.trans pad_zero.symm)
    exact h (by omega) ⟨R, _, M, by rw [h2]; simp, hR, Or.inl ⟨a', b', rfl⟩, hM⟩
  · rw [Option.eq_none_iff_forall_ne_some]
    intro ts hts
    obtain ⟨R, M, L, c, e, hR, _, hM, hL, _, he, hs, _⟩ := run_mca hts
    obtain ⟨h1, h2, _⟩ := ctr_spectra hs (num_pad _) hL (Or.inl rfl) he
    have h0 : m.toNat = 0 := pad_inj (h1.trans pad_zero.symm)
    exact h (by omega) ⟨R, _, M, by rw [h2]; simp, hR, Or.inr rfl, hM⟩

theorem spectra_taken {x : Str} (hx : ∀ c ∈ x, c ≠ '\n') (h : SpectraLike x) :
    (run xiaPat dollar (x ++ ctrRest (pad 4 0) '.' [])).isSome ∨
    (run mcaPat dollar (x ++ ctrRest (pad 4 0) '.' [])).isSome := by
  obtain ⟨r, l, m, rfl, hr, hl, hm⟩ := h
  have hr' : ∀ c ∈ r, c ≠ '\n' := fun c hc => hx c (by simp [hc])
  have e1 : (r ++ '_' :: (l ++ '_' :: m)) ++ ctrRest (pad 4 0) '.' [] = (r ++ '_' :: l) ++ spectraRest m ['0', '0', '0', '0'] '.' [] := by
    simp [ctrRest, spectraRest, pad_zero]
  rw [e1]
  have h0 : Num ['0', '0', '0', '0'] := by rw [← pad_zero]; exact num_pad 0
  rcases hl with ⟨a, b, rfl⟩ | rfl
  · exact Or.inl (run_xia_some hr hr' (hx a (by simp)) (hx b (by simp)) hm h0 (by decide) (Or.inl rfl))
  · exact Or.inr (run_mca_some hr hr' hm h0 (by decide) (Or.inl rfl))

/-- Names of counters come back exactly when radix and label can be told apart. -/
theorem counter_roundtrip_iff (extra : List Str) {radix label : Str} {m : Int} (hne : radix ≠ [])
    (hr : Plain radix) (hl : Plain label) (hm : 0 ≤ m) :
    RoundTrips extra radix m (-1) label ↔ Unambiguous extra radix label m := by
  have hx := plain_join hr hl
  have hb := ctr_basename (m := m.toNat) hx
  have hnl : ∀ r' c' t', radix ++ '_' :: label = r' ++ '_' :: (c' ++ t') →
      (∀ x ∈ r', x ≠ '\n') ∧ ∀ x ∈ t', x ≠ '\n' := by
    intro r' c' t' h
    exact ⟨fun x hxr => (hx x (by rw [h]; simp [hxr])).1, fun x hxr => (hx x (by rw [h]; simp [hxr])).1⟩
  constructor
  · rintro ⟨n, hp, h1, h2, h3, h4⟩
    rw [ctr_name hm] at hp
    rcases parse_cases hp with ⟨ts, hrun, rfl⟩ | ⟨ts, hrun, rfl⟩ | ⟨hx1, hx2, l1, ctr, l2, ts, hcl, hno, hrun, rfl⟩
    · obtain ⟨R, a', b', M, L, c, e, _, _, _, _, _, _, _, hn⟩ := run_xia hrun
      rw [hn] at h3; simp [pyInt] at h3
    · obtain ⟨R, M, L, c, e, _, _, _, _, _, _, _, hn⟩ := run_mca hrun
      rw [hn] at h3; simp [pyInt] at h3
    · rw [hb] at hno hx1 hx2 hrun
      obtain ⟨R, T, M, c, e, hR, _, hT, _, hM, _, he, hs, hn, hmax⟩ := run_ctr hrun
      rw [hn] at h1 h4
      simp only at h1 h4
      subst h1
      refine ⟨l1.length, ctr, T, by simp [hcl], h4.symm, hT, ?_, ?_, ?_⟩
      · rintro j c' r' t' hj hc' ⟨hX, hr', ht'⟩
        rw [hcl, List.getElem?_append_left hj] at hc'
        have := hno c' (List.mem_of_getElem? hc')
        have h6 := run_ctr_some (ctr := c') hr' (hnl r' c' t' hX).1 ht' (hnl r' c' t' hX).2 (num_pad m.toNat) (c := '.') (by decide) (Or.inl rfl : ([] : Str) = [] ∨ _)
        rw [← hX, this] at h6
        simp at h6
      · rintro r' t' ⟨hX, hr', ht'⟩
        exact hmax r' t' (pad 4 m.toNat) '.' [] hr' (hnl r' ctr t' hX).1 ht' (hnl r' ctr t' hX).2 (num_pad _) (by decide) (Or.inl rfl) (by rw [hX])
      · rintro h0 hsl
        subst h0
        rcases spectra_taken (fun c hc => (hx c hc).1) hsl with h | h
        · rw [show (0 : Int).toNat = 0 from rfl] at hx1; rw [hx1] at h; simp at h
        · rw [show (0 : Int).toNat = 0 from rfl] at hx2; rw [hx2] at h; simp at h
  · rintro ⟨i, ctr, t, hi, rfl, ht, hearly, hown, hsp⟩
    obtain ⟨hx1, hx2⟩ := no_spectra hm hsp
    have hsome := run_ctr_some (ctr := ctr) hne (fun x hx => (hr x hx).1) ht (fun x hxt => (hl x (by simp [hxt])).1) (num_pad m.toNat) (c := '.') (by decide) (Or.inl rfl : ([] : Str) = [] ∨ _)
    obtain ⟨ts, hts⟩ := Option.isSome_iff_exists.1 hsome
    obtain ⟨R, T, M, c, e, hR, hR', hT, hT', hM, _, he, hs, hn, hmax⟩ := run_ctr hts
    obtain ⟨h2, rfl, _, _⟩ := ctr_unique hs (num_pad _) hM (Or.inl rfl) he
    have hle := hown R T ⟨h2, hR, hT⟩
    have hge := hmax radix t (pad 4 m.toNat) '.' [] hne (fun x hx => (hr x hx).1) ht (fun x hxt => (hl x (by simp [hxt])).1) (num_pad _) (by decide) (Or.inl rfl) rfl
    obtain ⟨rfl, h3⟩ := List.append_inj h2 (by omega)
    simp only [List.cons.injEq, true_and] at h3
    have h3 := List.append_cancel_left h3
    subst h3
    refine ⟨⟨radix, m, -1, ctr ++ t, (xiaparselabel (ctr ++ t)).1, (xiaparselabel (ctr ++ t)).2⟩, ?_, rfl, rfl, rfl, rfl⟩
    rw [ctr_name hm, parse_eq, hb, hx1, hx2]
    simp only [Option.map_none, Option.none_or]
    rw [List.findSome?_eq_some_iff]
    have hi' := List.getElem?_eq_some_iff.1 hi
    obtain ⟨hilt, hie⟩ := hi'
    refine ⟨(counters extra).take i, ctr, (counters extra).drop (i + 1), ?_, ?_, ?_⟩
    · rw [← hie, List.getElem_cons_drop, List.take_append_drop]
    · simp only [ctrResult, hts, Option.map_some, hn, pyInt_pad hm]
    · intro c' hc'
      obtain ⟨j, hj⟩ := List.mem_iff_getElem?.1 hc'
      rw [List.getElem?_take] at hj
      split at hj
      · rename_i hji
        rw [ctrResult, Option.map_eq_none_iff, Option.eq_none_iff_forall_ne_some]
        intro ts' hts'
        obtain ⟨R2, T2, M2, c2, e2, hR2, _, hT2, _, hM2, _, he2, hs2, _⟩ := run_ctr hts'
        obtain ⟨h5, _⟩ := ctr_unique hs2 (num_pad _) hM2 (Or.inl rfl) he2
        exact hearly j c' R2 T2 hji hj ⟨h5, hR2, hT2⟩
      · simp at hj

/-- When a name comes back at all, for any radix and numbers. -/
theorem roundTrips_iff (extra : List Str) {radix label : Str} {m l : Int} (hl : Plain label) :
    RoundTrips extra radix m l label ↔ radix ≠ [] ∧ Plain radix ∧ 0 ≤ m ∧
      ((0 ≤ l ∧ SpectraLabel label) ∨ (l = -1 ∧ Unambiguous extra radix label m)) := by
  constructor
  · intro h
    obtain ⟨n, hp, h1, h2, h3, h4⟩ := h
    obtain ⟨_, _, _, _, _, _, hmm, hR, hR', hb⟩ := parse_sound hp
    have hslash : ∀ x ∈ n.radix, x ≠ '/' := by
      intro x hx
      refine basename_no_slash (xiafilename radix m l label) x ?_
      rcases hb with ⟨_, _, _, _, _, hb⟩ | ⟨_, _, hb⟩ <;> rw [hb] <;> simp [hx]
    have hplain : Plain radix := by
      rw [← h1]; exact fun c hc => ⟨hR' c hc, hslash c hc⟩
    have hm : 0 ≤ m := by rw [← h2, hmm]; exact Int.natCast_nonneg _
    have hne : radix ≠ [] := by rw [← h1]; exact hR
    refine ⟨hne, hplain, hm, ?_⟩
    rcases hb with ⟨hlab, _, L, _, hl2, _⟩ | ⟨_, hl2, _⟩
    · refine Or.inl ⟨by rw [← h3, hl2]; exact Int.natCast_nonneg _, by rw [← h4]; exact hlab⟩
    · have e : l = -1 := by rw [← h3, hl2]
      subst e
      exact Or.inr ⟨rfl, (counter_roundtrip_iff extra hne hplain hl hm).1 ⟨n, hp, h1, h2, h3, h4⟩⟩
  · rintro ⟨hne, hr, hm, ⟨hn, h⟩ | ⟨rfl, h⟩⟩
    · exact (spectra_roundtrip_iff extra hne hr hl hm hn).2 h
    · exact (counter_roundtrip_iff extra hne hr hl hm).2 h

/-- The directory does not matter. -/
theorem parse_path (extra : List Str) (dir f : Str) (hf : ∀ c ∈ f, c ≠ '/') :
    parse extra (dir ++ '/' :: f) = parse extra f := by
  have : basename (dir ++ '/' :: f) = basename f := by
    have h1 : f.reverse.takeWhile (fun c => c != '/') = f.reverse := by
      rw [List.takeWhile_eq_self_iff]
      intro c hc
      simpa using hf c (List.mem_reverse.1 hc)
    simp only [basename, List.reverse_append, List.reverse_cons, List.append_assoc]
    rw [List.takeWhile_append, h1]
    simp
  simp only [parse, parseGroups, this]

end SC.Xia
