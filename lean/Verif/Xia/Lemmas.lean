import Verif.Xia.Spec
import Verif.Naming.Lemmas
import Mathlib.Data.List.TakeWhile
namespace SC.Xia
open SC.Py SC.Py.Regex SC.Naming

/-! ## groups -/

theorem fits_length {G : Type} {ps : List (Piece G)} {s r : Str} {ts : List Str} (h : Fits ps s ts r) :
    ps.length = ts.length := by
  induction ps generalizing s ts with
  | nil => obtain ⟨rfl, _⟩ := h; rfl
  | cons q ps ih => obtain ⟨t, ts', s', rfl, _, _, hf⟩ := h; simp [ih hf]

theorem group_append {g : Grp} {p1 p2 : List (Piece Grp)} {t1 t2 : List Str} (h : p1.length = t1.length) :
    group g (p1 ++ p2) (t1 ++ t2) = group g p1 t1 ++ group g p2 t2 := by
  simp [group, List.zip_append h, List.filter_append]

theorem group_cons {g : Grp} {q : Piece Grp} {ps : List (Piece Grp)} {t : Str} {ts : List Str} :
    group g (q :: ps) (t :: ts) = (if q.grp = some g then t else []) ++ group g ps ts := by
  simp only [group, List.zip_cons_cons, List.filter_cons]
  by_cases h : q.grp = some g <;> simp [h]

theorem group_nil {g : Grp} : group g [] [] = [] := rfl

theorem group_lit {g : Grp} {w : Str} {o : Option Grp} :
    group g (lit w o) (w.map (fun c => [c])) = if o = some g then w else [] := by
  induction w with
  | nil => simp [lit, group]
  | cons c w ih =>
    simp only [lit, List.map_cons, group_cons] at ih ⊢
    rw [ih]
    by_cases h : o = some g <;> simp [h]

theorem lit_length {o : Option Grp} {w : Str} : (lit w o).length = (w.map (fun c => [c])).length := by
  simp [lit]

/-! ## the patterns -/

theorem num_iff {g : Grp} {t : Str} : (numPiece g).Fits t ↔ Num t := by
  simp [numPiece, Piece.Fits, Num, digit, and_comm]

theorem fits_edf {s r : Str} {ts : List Str} : Fits edfPieces s ts r ↔
    ∃ c, c ≠ '\n' ∧ ts = [[c], ['e'], ['d'], ['f']] ∧ s = c :: (['e', 'd', 'f'] ++ r) := by
  simp only [edfPieces, fits_cons, fits_lit]
  constructor
  · rintro ⟨t, ts', s', rfl, rfl, hq, rfl, rfl⟩
    obtain ⟨c, rfl, hc⟩ := (fits_single _ rfl rfl t).1 hq
    exact ⟨c, by simpa [dot] using hc, rfl, rfl⟩
  · rintro ⟨c, hc, rfl, rfl⟩
    exact ⟨[c], _, _, rfl, rfl, (fits_single _ rfl rfl _).2 ⟨c, rfl, by simpa [dot] using hc⟩, rfl, rfl⟩

def spectraTexts (M L : Str) (c : Char) : List Str :=
  [['_']] ++ (M :: (['_', '0', '0', '0', '0', '_'].map (fun c => [c]) ++ (L :: [[c], ['e'], ['d'], ['f']])))

def spectraRest (M L : Str) (c : Char) (r : Str) : Str :=
  '_' :: (M ++ ['_', '0', '0', '0', '0', '_'] ++ (L ++ c :: (['e', 'd', 'f'] ++ r)))

theorem fits_spectraTail {s r : Str} {ts : List Str} : Fits spectraTail s ts r ↔
    ∃ M L c, Num M ∧ Num L ∧ c ≠ '\n' ∧ ts = spectraTexts M L c ∧ s = spectraRest M L c r := by
  simp only [spectraTail, fits_append, fits_cons, fits_lit, fits_edf, num_iff]
  constructor
  · rintro ⟨t1, t2, m, rfl, ⟨rfl, rfl⟩, M, ts', s', rfl, rfl, hM, t3, t4, m', rfl, ⟨rfl, rfl⟩, L, ts'', s'', rfl, rfl, hL, c, hc, rfl, rfl⟩
    exact ⟨M, L, c, hM, hL, hc, rfl, by simp [spectraRest]⟩
  · rintro ⟨M, L, c, hM, hL, hc, rfl, rfl⟩
    exact ⟨_, _, _, rfl, ⟨rfl, rfl⟩, M, _, _, rfl, by simp [spectraRest], hM, _, _, _, rfl, ⟨rfl, rfl⟩, L, _, _, rfl, rfl, hL, c, hc, rfl, rfl⟩

def ctrTexts (M : Str) (c : Char) : List Str :=
  [['_']] ++ (M :: (['_', '0', '0', '0', '0'].map (fun c => [c]) ++ [[c], ['e'], ['d'], ['f']]))

def ctrRest (M : Str) (c : Char) (r : Str) : Str :=
  '_' :: (M ++ ['_', '0', '0', '0', '0'] ++ c :: (['e', 'd', 'f'] ++ r))

theorem fits_ctrTail {s r : Str} {ts : List Str} : Fits ctrTail s ts r ↔
    ∃ M c, Num M ∧ c ≠ '\n' ∧ ts = ctrTexts M c ∧ s = ctrRest M c r := by
  simp only [ctrTail, fits_append, fits_cons, fits_lit, fits_edf, num_iff]
  constructor
  · rintro ⟨t1, t2, m, rfl, ⟨rfl, rfl⟩, M, ts', s', rfl, rfl, hM, t3, t4, m', rfl, ⟨rfl, rfl⟩, c, hc, rfl, rfl⟩
    exact ⟨M, c, hM, hc, rfl, by simp [ctrRest]⟩
  · rintro ⟨M, c, hM, hc, rfl, rfl⟩
    exact ⟨_, _, _, rfl, ⟨rfl, rfl⟩, M, _, _, rfl, by simp [ctrRest], hM, _, _, _, rfl, ⟨rfl, rfl⟩, c, hc, rfl, rfl⟩

theorem radix_iff {t : Str} : radixPiece.Fits t ↔ t ≠ [] ∧ ∀ c ∈ t, c ≠ '\n' := by
  simp only [radixPiece, Piece.Fits, dot, bne_iff_ne]
  constructor
  · rintro ⟨h1, h2, _⟩
    exact ⟨by rintro rfl; simp at h2, h1⟩
  · rintro ⟨h1, h2⟩
    exact ⟨h2, List.length_pos_iff.2 h1, by simp⟩

theorem fits_xia {s r : Str} {ts : List Str} : Fits xiaPat s ts r ↔
    ∃ R a b M L c, R ≠ [] ∧ (∀ x ∈ R, x ≠ '\n') ∧ a ≠ '\n' ∧ b ≠ '\n' ∧ Num M ∧ Num L ∧ c ≠ '\n' ∧
      ts = R :: ([['_']] ++ (['x', 'i', 'a'].map (fun c => [c]) ++ ([a] :: [b] :: spectraTexts M L c))) ∧
      s = R ++ '_' :: (['x', 'i', 'a', a, b] ++ spectraRest M L c r) := by
  simp only [xiaPat, fits_append, fits_cons, fits_lit, fits_spectraTail, radix_iff]
  constructor
  · rintro ⟨R, ts1, s1, rfl, rfl, ⟨hR, hR'⟩, t1, t2, m1, rfl, ⟨rfl, rfl⟩, t3, t4, m2, rfl, ⟨rfl, rfl⟩, ta, ts2, s2, rfl, rfl, ha, tb, ts3, s3, rfl, rfl, hb, M, L, c, hM, hL, hc, rfl, rfl⟩
    obtain ⟨a, rfl, ha2⟩ := (fits_single _ rfl rfl ta).1 ha
    obtain ⟨b, rfl, hb2⟩ := (fits_single _ rfl rfl tb).1 hb
    exact ⟨R, a, b, M, L, c, hR, hR', by simpa [dot] using ha2, by simpa [dot] using hb2, hM, hL, hc, rfl, by simp⟩
  · rintro ⟨R, a, b, M, L, c, hR, hR', ha, hb, hM, hL, hc, rfl, rfl⟩
    exact ⟨R, _, _, rfl, rfl, ⟨hR, hR'⟩, _, _, _, rfl, ⟨rfl, rfl⟩, _, _, _, rfl, ⟨rfl, rfl⟩, [a], _, _, rfl, rfl,
      (fits_single _ rfl rfl _).2 ⟨a, rfl, by simpa [dot] using ha⟩, [b], _, _, rfl, rfl,
      (fits_single _ rfl rfl _).2 ⟨b, rfl, by simpa [dot] using hb⟩, M, L, c, hM, hL, hc, rfl, by simp⟩

theorem fits_mca {s r : Str} {ts : List Str} : Fits mcaPat s ts r ↔
    ∃ R M L c, R ≠ [] ∧ (∀ x ∈ R, x ≠ '\n') ∧ Num M ∧ Num L ∧ c ≠ '\n' ∧
      ts = R :: ([['_']] ++ (['m', 'c', 'a'].map (fun c => [c]) ++ spectraTexts M L c)) ∧
      s = R ++ '_' :: (['m', 'c', 'a'] ++ spectraRest M L c r) := by
  simp only [mcaPat, fits_append, fits_cons, fits_lit, fits_spectraTail, radix_iff]
  constructor
  · rintro ⟨R, ts1, s1, rfl, rfl, ⟨hR, hR'⟩, t1, t2, m1, rfl, ⟨rfl, rfl⟩, t3, t4, m2, rfl, ⟨rfl, rfl⟩, M, L, c, hM, hL, hc, rfl, rfl⟩
    exact ⟨R, M, L, c, hR, hR', hM, hL, hc, rfl, by simp⟩
  · rintro ⟨R, M, L, c, hR, hR', hM, hL, hc, rfl, rfl⟩
    exact ⟨R, _, _, rfl, rfl, ⟨hR, hR'⟩, _, _, _, rfl, ⟨rfl, rfl⟩, _, _, _, rfl, ⟨rfl, rfl⟩, M, L, c, hM, hL, hc, rfl, by simp⟩

theorem fits_ctr {ctr s r : Str} {ts : List Str} : Fits (ctrPat ctr) s ts r ↔
    ∃ R T M c, R ≠ [] ∧ (∀ x ∈ R, x ≠ '\n') ∧ T ≠ [] ∧ (∀ x ∈ T, x ≠ '\n') ∧ Num M ∧ c ≠ '\n' ∧
      ts = R :: ([['_']] ++ (ctr.map (fun c => [c]) ++ (T :: ctrTexts M c))) ∧
      s = R ++ '_' :: (ctr ++ (T ++ ctrRest M c r)) := by
  have hT : ∀ T : Str, Piece.Fits ({ p := dot, lo := 1, hi := none, grp := some .label } : Piece Grp) T ↔
      T ≠ [] ∧ ∀ x ∈ T, x ≠ '\n' := fun T => radix_iff
  simp only [ctrPat, fits_append, fits_cons, fits_lit, fits_ctrTail, radix_iff, hT]
  constructor
  · rintro ⟨R, ts1, s1, rfl, rfl, ⟨hR, hR'⟩, t1, t2, m1, rfl, ⟨rfl, rfl⟩, t3, t4, m2, rfl, ⟨rfl, rfl⟩, T, ts2, s2, rfl, rfl, ⟨hT, hT'⟩, M, c, hM, hc, rfl, rfl⟩
    exact ⟨R, T, M, c, hR, hR', hT, hT', hM, hc, rfl, by simp⟩
  · rintro ⟨R, T, M, c, hR, hR', hT, hT', hM, hc, rfl, rfl⟩
    exact ⟨R, _, _, rfl, rfl, ⟨hR, hR'⟩, _, _, _, rfl, ⟨rfl, rfl⟩, _, _, _, rfl, ⟨rfl, rfl⟩, T, _, _, rfl, rfl, ⟨hT, hT'⟩, M, c, hM, hc, rfl, by simp⟩

/-! ## the parsed parts -/

theorem toName_xia (R : Str) (a b : Char) (M L : Str) (c : Char) :
    toName xiaPat (R :: ([['_']] ++ (['x', 'i', 'a'].map (fun c => [c]) ++ ([a] :: [b] :: spectraTexts M L c)))) =
      ⟨R, pyInt M, pyInt L, ['x', 'i', 'a', a, b], ['x', 'i', 'a'], [a, b]⟩ := by
  have hl : group .label xiaPat (R :: ([['_']] ++ (['x', 'i', 'a'].map (fun c => [c]) ++ ([a] :: [b] :: spectraTexts M L c)))) = ['x', 'i', 'a', a, b] := by
    simp [xiaPat, group, lit, spectraTexts, radixPiece, spectraTail, numPiece, edfPieces]
  have hp : xiaparselabel ['x', 'i', 'a', a, b] = (['x', 'i', 'a'], [a, b]) := by
    simp [xiaparselabel, List.isPrefixOf]
  simp only [toName, hl, hp]
  simp [xiaPat, group, lit, spectraTexts, radixPiece, spectraTail, numPiece, edfPieces, linenumOf]

theorem toName_mca (R : Str) (M L : Str) (c : Char) :
    toName mcaPat (R :: ([['_']] ++ (['m', 'c', 'a'].map (fun c => [c]) ++ spectraTexts M L c))) =
      ⟨R, pyInt M, pyInt L, ['m', 'c', 'a'], ['m', 'c', 'a'], []⟩ := by
  have hl : group .label mcaPat (R :: ([['_']] ++ (['m', 'c', 'a'].map (fun c => [c]) ++ spectraTexts M L c))) = ['m', 'c', 'a'] := by
    simp [mcaPat, group, lit, spectraTexts, radixPiece, spectraTail, numPiece, edfPieces]
  have hp : xiaparselabel ['m', 'c', 'a'] = (['m', 'c', 'a'], []) := by decide
  simp only [toName, hl, hp]
  simp [mcaPat, group, lit, spectraTexts, radixPiece, spectraTail, numPiece, edfPieces, linenumOf]

theorem toName_ctr (ctr R T M : Str) (c : Char) :
    toName (ctrPat ctr) (R :: ([['_']] ++ (ctr.map (fun c => [c]) ++ (T :: ctrTexts M c)))) =
      ⟨R, pyInt M, -1, ctr ++ T, (xiaparselabel (ctr ++ T)).1, (xiaparselabel (ctr ++ T)).2⟩ := by
  have hg : ∀ g, group g (ctrPat ctr) (R :: ([['_']] ++ (ctr.map (fun c => [c]) ++ (T :: ctrTexts M c)))) =
      (if Grp.radix = g then R else []) ++ ((if Grp.label = g then ctr ++ T else []) ++ (if Grp.mapnum = g then M else [])) := by
    intro g
    simp only [ctrPat, group_cons]
    rw [group_append (by simp [lit]), group_append lit_length, group_lit, group_cons]
    cases g <;> simp [radixPiece, ctrTail, lit, ctrTexts, numPiece, edfPieces, group]
  have hline : linenumOf (ctrPat ctr) (R :: ([['_']] ++ (ctr.map (fun c => [c]) ++ (T :: ctrTexts M c)))) = -1 := by
    simp [linenumOf, ctrPat, radixPiece, ctrTail, lit, numPiece, edfPieces]
  simp only [toName, hg, hline]
  simp

/-! ## unique decompositions -/

theorem sep_last {a b a' b' : Str} (h : a ++ '_' :: b = a' ++ '_' :: b') (hb : '_' ∉ b) (hb' : '_' ∉ b') :
    a = a' ∧ b = b' := by
  rcases List.append_eq_append_iff.1 h with ⟨x, rfl, hx⟩ | ⟨x, rfl, hx⟩
  · cases x with
    | nil => simp at hx; simp [hx]
    | cons d x =>
      simp only [List.cons_append, List.cons.injEq] at hx
      exact absurd (hx.2 ▸ List.mem_append_right x (List.mem_cons_self ..)) hb
  · cases x with
    | nil => simp at hx; simp [hx]
    | cons d x =>
      simp only [List.cons_append, List.cons.injEq] at hx
      exact absurd (hx.2 ▸ List.mem_append_right x (List.mem_cons_self ..)) hb'

theorem num_no_underscore {m : Str} (h : Num m) : '_' ∉ m := fun hm => absurd (h.2 _ hm) (by decide)

theorem num_pad (n : Nat) : Num (pad 4 n) :=
  ⟨by rw [pad_length]; exact Nat.le_max_left .., pad_digit 4 n⟩

theorem end_unique {a a' e e' : Str} {c c' : Char} (h : a ++ c :: (['e', 'd', 'f'] ++ e) = a' ++ c' :: (['e', 'd', 'f'] ++ e'))
    (he : e = [] ∨ e = ['\n']) (he' : e' = [] ∨ e' = ['\n']) : a = a' ∧ c = c' ∧ e = e' := by
  have hr := congrArg List.reverse h
  rcases he with rfl | rfl <;> rcases he' with rfl | rfl <;> simp at hr
  · have := h
    exact ⟨hr.2, hr.1, rfl⟩
  · exact ⟨hr.2, hr.1, rfl⟩

/-- The parts of a file of spectra are determined by its name. -/
theorem spectra_unique {x x' M L M' L' e e' : Str} {c c' : Char}
    (h : x ++ spectraRest M L c e = x' ++ spectraRest M' L' c' e') (hM : Num M) (hL : Num L) (hM' : Num M')
    (hL' : Num L') (he : e = [] ∨ e = ['\n']) (he' : e' = [] ∨ e' = ['\n']) :
    x = x' ∧ M = M' ∧ L = L' ∧ c = c' ∧ e = e' := by
  have h1 : (x ++ '_' :: (M ++ ['_', '0', '0', '0', '0', '_'] ++ L)) ++ c :: (['e', 'd', 'f'] ++ e) =
      (x' ++ '_' :: (M' ++ ['_', '0', '0', '0', '0', '_'] ++ L')) ++ c' :: (['e', 'd', 'f'] ++ e') := by
    simpa [spectraRest] using h
  obtain ⟨h2, rfl, rfl⟩ := end_unique h1 he he'
  have h3 : (x ++ '_' :: (M ++ ['_', '0', '0', '0', '0'])) ++ '_' :: L = (x' ++ '_' :: (M' ++ ['_', '0', '0', '0', '0'])) ++ '_' :: L' := by
    simpa using h2
  obtain ⟨h4, rfl⟩ := sep_last h3 (num_no_underscore hL) (num_no_underscore hL')
  have h5 : (x ++ '_' :: M) ++ ['_', '0', '0', '0', '0'] = (x' ++ '_' :: M') ++ ['_', '0', '0', '0', '0'] := by simpa using h4
  obtain ⟨rfl, rfl⟩ := sep_last (List.append_cancel_right h5) (num_no_underscore hM) (num_no_underscore hM')
  exact ⟨rfl, rfl, rfl, rfl, rfl⟩

theorem ctr_unique {x x' M M' e e' : Str} {c c' : Char}
    (h : x ++ ctrRest M c e = x' ++ ctrRest M' c' e') (hM : Num M) (hM' : Num M')
    (he : e = [] ∨ e = ['\n']) (he' : e' = [] ∨ e' = ['\n']) : x = x' ∧ M = M' ∧ c = c' ∧ e = e' := by
  have h1 : (x ++ '_' :: (M ++ ['_', '0', '0', '0', '0'])) ++ c :: (['e', 'd', 'f'] ++ e) =
      (x' ++ '_' :: (M' ++ ['_', '0', '0', '0', '0'])) ++ c' :: (['e', 'd', 'f'] ++ e') := by
    simpa [ctrRest] using h
  obtain ⟨h2, rfl, rfl⟩ := end_unique h1 he he'
  have h5 : (x ++ '_' :: M) ++ ['_', '0', '0', '0', '0'] = (x' ++ '_' :: M') ++ ['_', '0', '0', '0', '0'] := by simpa using h2
  obtain ⟨rfl, rfl⟩ := sep_last (List.append_cancel_right h5) (num_no_underscore hM) (num_no_underscore hM')
  exact ⟨rfl, rfl, rfl, rfl⟩

/-- A counter file read as a file of spectra has map number 0. -/
theorem ctr_spectra {x x' M M' L' e e' : Str} {c c' : Char}
    (h : x ++ ctrRest M c e = x' ++ spectraRest M' L' c' e') (hM : Num M) (hL' : Num L')
    (he : e = [] ∨ e = ['\n']) (he' : e' = [] ∨ e' = ['\n']) :
    M = ['0', '0', '0', '0'] ∧ x = x' ++ '_' :: M' ∧ L' = ['0', '0', '0', '0'] ∧ c = c' ∧ e = e' := by
  have h1 : (x ++ '_' :: (M ++ ['_', '0', '0', '0', '0'])) ++ c :: (['e', 'd', 'f'] ++ e) =
      (x' ++ '_' :: (M' ++ ['_', '0', '0', '0', '0', '_'] ++ L')) ++ c' :: (['e', 'd', 'f'] ++ e') := by
    simpa [ctrRest, spectraRest] using h
  obtain ⟨h2, rfl, rfl⟩ := end_unique h1 he he'
  have h3 : (x ++ '_' :: M) ++ '_' :: ['0', '0', '0', '0'] = (x' ++ '_' :: (M' ++ ['_', '0', '0', '0', '0'])) ++ '_' :: L' := by
    simpa using h2
  obtain ⟨h4, rfl⟩ := sep_last h3 (by decide) (num_no_underscore hL')
  have h5 : x ++ '_' :: M = (x' ++ '_' :: M') ++ '_' :: ['0', '0', '0', '0'] := by simpa using h4
  obtain ⟨rfl, rfl⟩ := sep_last h5 (num_no_underscore hM) (by decide)
  exact ⟨rfl, rfl, rfl, rfl, rfl⟩

theorem basename_plain {s : Str} (h : ∀ c ∈ s, c ≠ '/') : basename s = s := by
  have : s.reverse.takeWhile (fun c => c != '/') = s.reverse := by
    rw [List.takeWhile_eq_self_iff]
    intro c hc
    simpa using h c (List.mem_reverse.1 hc)
  rw [basename, this, List.reverse_reverse]

theorem basename_no_slash (s : Str) : ∀ c ∈ basename s, c ≠ '/' := by
  intro c hc
  have := List.all_takeWhile (l := s.reverse) (p := fun c => c != '/')
  rw [List.all_eq_true] at this
  simpa using this c (List.mem_reverse.1 hc)

/-! ## what the matches return -/

theorem run_xia {s : Str} {ts : List Str} (h : run xiaPat dollar s = some ts) :
    ∃ R a b M L c e, R ≠ [] ∧ (∀ x ∈ R, x ≠ '\n') ∧ Num M ∧ Num L ∧ c ≠ '\n' ∧ (e = [] ∨ e = ['\n']) ∧
      s = (R ++ '_' :: ['x', 'i', 'a', a, b]) ++ spectraRest M L c e ∧
      toName xiaPat ts = ⟨R, pyInt M, pyInt L, ['x', 'i', 'a', a, b], ['x', 'i', 'a'], [a, b]⟩ := by
  obtain ⟨ts', r, o', rfl, hf, hk⟩ := run_sound _ _ _ _ h
  obtain ⟨hr, rfl⟩ := dollar_eq.1 hk
  obtain ⟨R, a, b, M, L, c, hR, hR', _, _, hM, hL, hc, rfl, rfl⟩ := fits_xia.1 hf
  refine ⟨R, a, b, M, L, c, r, hR, hR', hM, hL, hc, hr, by simp, ?_⟩
  rw [List.append_nil]
  exact toName_xia R a b M L c

theorem run_mca {s : Str} {ts : List Str} (h : run mcaPat dollar s = some ts) :
    ∃ R M L c e, R ≠ [] ∧ (∀ x ∈ R, x ≠ '\n') ∧ Num M ∧ Num L ∧ c ≠ '\n' ∧ (e = [] ∨ e = ['\n']) ∧
      s = (R ++ '_' :: ['m', 'c', 'a']) ++ spectraRest M L c e ∧
      toName mcaPat ts = ⟨R, pyInt M, pyInt L, ['m', 'c', 'a'], ['m', 'c', 'a'], []⟩ := by
  obtain ⟨ts', r, o', rfl, hf, hk⟩ := run_sound _ _ _ _ h
  obtain ⟨hr, rfl⟩ := dollar_eq.1 hk
  obtain ⟨R, M, L, c, hR, hR', hM, hL, hc, rfl, rfl⟩ := fits_mca.1 hf
  refine ⟨R, M, L, c, r, hR, hR', hM, hL, hc, hr, by simp, ?_⟩
  rw [List.append_nil]
  exact toName_mca R M L c

theorem run_ctr {ctr s : Str} {ts : List Str} (h : run (ctrPat ctr) dollar s = some ts) :
    ∃ R T M c e, R ≠ [] ∧ (∀ x ∈ R, x ≠ '\n') ∧ T ≠ [] ∧ (∀ x ∈ T, x ≠ '\n') ∧ Num M ∧ c ≠ '\n' ∧
      (e = [] ∨ e = ['\n']) ∧
      s = (R ++ '_' :: (ctr ++ T)) ++ ctrRest M c e ∧
      toName (ctrPat ctr) ts = ⟨R, pyInt M, -1, ctr ++ T, (xiaparselabel (ctr ++ T)).1, (xiaparselabel (ctr ++ T)).2⟩ ∧
      ∀ R' T' M' c' e', R' ≠ [] → (∀ x ∈ R', x ≠ '\n') → T' ≠ [] → (∀ x ∈ T', x ≠ '\n') → Num M' → c' ≠ '\n' →
        (e' = [] ∨ e' = ['\n']) → s = (R' ++ '_' :: (ctr ++ T')) ++ ctrRest M' c' e' → R'.length ≤ R.length := by
  obtain ⟨ts', r, o', rfl, hf, hk⟩ := run_sound _ _ _ _ h
  obtain ⟨hr, rfl⟩ := dollar_eq.1 hk
  obtain ⟨R, T, M, c, hR, hR', hT, hT', hM, hc, hts, hs⟩ := fits_ctr.1 hf
  subst hts
  rw [List.append_nil] at h
  refine ⟨R, T, M, c, r, hR, hR', hT, hT', hM, hc, hr, by simp [hs], ?_, ?_⟩
  · rw [List.append_nil]
    exact toName_ctr ctr R T M c
  · intro R' T' M' c' e' k1 k2 k3 k4 k5 k6 k7 k8
    refine run_greedy radixPiece _ rfl dollar s R _ h R' _ e' (fits_ctr.2 ⟨R', T', M', c', k1, k2, k3, k4, k5, k6, rfl, ?_⟩) ?_
    · simp [k8]
    · rw [dollar_isSome]; exact k7

theorem run_xia_some {R : Str} {a b : Char} {M L : Str} {c : Char} {e : Str} (hR : R ≠ []) (hR' : ∀ x ∈ R, x ≠ '\n')
    (ha : a ≠ '\n') (hb : b ≠ '\n') (hM : Num M) (hL : Num L) (hc : c ≠ '\n') (he : e = [] ∨ e = ['\n']) :
    (run xiaPat dollar ((R ++ '_' :: ['x', 'i', 'a', a, b]) ++ spectraRest M L c e)).isSome := by
  refine run_complete _ _ _ _ e (fits_xia.2 ⟨R, a, b, M, L, c, hR, hR', ha, hb, hM, hL, hc, rfl, by simp⟩) ?_
  rw [dollar_isSome]; exact he

theorem run_mca_some {R : Str} {M L : Str} {c : Char} {e : Str} (hR : R ≠ []) (hR' : ∀ x ∈ R, x ≠ '\n')
    (hM : Num M) (hL : Num L) (hc : c ≠ '\n') (he : e = [] ∨ e = ['\n']) :
    (run mcaPat dollar ((R ++ '_' :: ['m', 'c', 'a']) ++ spectraRest M L c e)).isSome := by
  refine run_complete _ _ _ _ e (fits_mca.2 ⟨R, M, L, c, hR, hR', hM, hL, hc, rfl, by simp⟩) ?_
  rw [dollar_isSome]; exact he

theorem run_ctr_some {ctr R T : Str} {M : Str} {c : Char} {e : Str} (hR : R ≠ []) (hR' : ∀ x ∈ R, x ≠ '\n')
    (hT : T ≠ []) (hT' : ∀ x ∈ T, x ≠ '\n') (hM : Num M) (hc : c ≠ '\n') (he : e = [] ∨ e = ['\n']) :
    (run (ctrPat ctr) dollar ((R ++ '_' :: (ctr ++ T)) ++ ctrRest M c e)).isSome := by
  refine run_complete _ _ _ _ e (fits_ctr.2 ⟨R, T, M, c, hR, hR', hT, hT', hM, hc, rfl, by simp⟩) ?_
  rw [dollar_isSome]; exact he

end SC.Xia
