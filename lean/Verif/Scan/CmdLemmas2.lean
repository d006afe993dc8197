import Verif.Scan.CmdLemmas
/-! # Lemmas for C51: whole commands -/
namespace SC.Scan
open SC.Py.Regex

/-- A fixed word has no white space. -/
def Kind.Good : Kind → Prop
  | .word w => w ≠ [] ∧ ∀ c ∈ w, isBlank c = false
  | _ => True

theorem blank_cases {c : Char} (h : isBlank c = true) :
    c = ' ' ∨ c = '\t' ∨ c = '\n' ∨ c = '\r' ∨ c = '\x0b' ∨ c = '\x0c' := by
  simpa [isBlank, or_assoc] using h

theorem blank_not {c : Char} (h : isBlank c = true) :
    c.isDigit = false ∧ c.isAlpha = false ∧ c.isAlphanum = false ∧ c ≠ '.' ∧ isSign c = false := by
  rcases blank_cases h with rfl | rfl | rfl | rfl | rfl | rfl <;> decide

theorem not_blank {c : Char} (h : c.isDigit = true ∨ c.isAlpha = true ∨ c.isAlphanum = true ∨ c = '.' ∨ c = '+' ∨ c = '-') :
    isBlank c = false := by
  cases hb : isBlank c with
  | false => rfl
  | true =>
    have := blank_not hb
    rcases h with h | h | h | h | h | h
    · simp [this.1] at h
    · simp [this.2.1] at h
    · simp [this.2.2.1] at h
    · exact absurd h this.2.2.2.1
    · subst h; simp [isBlank] at hb
    · subst h; simp [isBlank] at hb

theorem ok_nonblank {kd : Kind} {t : Str} (hg : kd.Good) (h : kd.Ok t) : t ≠ [] ∧ ∀ c ∈ t, isBlank c = false := by
  cases kd with
  | word w => simp only [Kind.Ok] at h; subst h; exact hg
  | motor => exact ⟨h.1, fun c hc => not_blank (.inr (.inl (h.2 c hc)))⟩
  | motornum => exact ⟨h.1, fun c hc => not_blank (.inr (.inr (.inl (h.2 c hc))))⟩
  | int => exact ⟨h.1, fun c hc => not_blank (.inl (h.2 c hc))⟩
  | float =>
    obtain ⟨q, sg, w, f, hs, hw, hf, ht, _⟩ := h
    have hsg : ∀ c ∈ sg, isBlank c = false := by
      rcases hs with rfl | rfl | rfl <;> simp [isBlank]
    rcases ht with ⟨_, hne, rfl⟩ | ⟨hne, rfl⟩
    · refine ⟨by simp [hne], ?_⟩
      intro c hc
      rcases List.mem_append.mp hc with hc | hc
      · exact hsg c hc
      · exact not_blank (.inl (hw c hc))
    · refine ⟨by simp, ?_⟩
      intro c hc
      rcases List.mem_append.mp hc with hc | hc
      · rcases List.mem_append.mp hc with hc | hc
        · exact hsg c hc
        · exact not_blank (.inl (hw c hc))
      · rcases List.mem_cons.mp hc with rfl | hc
        · simp [isBlank]
        · exact not_blank (.inl (hf c hc))

theorem gap_head {gap s : Str} (h : IsGap gap) : ∀ c ∈ (gap ++ s).head?, isBlank c = true := by
  obtain ⟨h1, h2⟩ := h
  cases gap with
  | nil => exact absurd rfl h1
  | cons a gap => simpa using h2 a (by simp)

theorem gap_stops (kd : Kind) (t : Str) {gap s : Str} (h : IsGap gap) : kd.Stops t (gap ++ s) := by
  have hh := gap_head (s := s) h
  cases kd with
  | word w => trivial
  | motor => exact fun c hc => (blank_not (hh c hc)).2.1
  | motornum => exact fun c hc => (blank_not (hh c hc)).2.2.1
  | int => exact fun c hc => (blank_not (hh c hc)).1
  | float =>
    refine ⟨fun c hc => (blank_not (hh c hc)).1, ?_⟩
    intro _ c hd
    exact absurd rfl (blank_not (hh '.' hd)).2.2.2.1

theorem layout_head {ks : List Kind} {ts : List Str} {s : Str} (h : Layout ks ts s) (hg : ∀ k ∈ ks, k.Good) :
    ∀ c ∈ s.head?, isBlank c = false := by
  have key : ∀ (k : Kind) (t r : Str), k.Good → k.Ok t → ∀ c ∈ (t ++ r).head?, isBlank c = false := by
    intro k t r hk hok c hc
    have := ok_nonblank hk hok
    cases t with
    | nil => exact absurd rfl this.1
    | cons a t => simp at hc; subst hc; exact this.2 a (by simp)
  cases h with
  | last hok _ => exact key _ _ _ (hg _ (by simp)) hok
  | next hok _ _ => rw [List.append_assoc]; exact key _ _ _ (hg _ (by simp)) hok

theorem group_append (g : G) (p1 p2 : List (Piece G)) (t1 t2 : List (List Char)) (h : t1.length = p1.length) :
    group g (p1 ++ p2) (t1 ++ t2) = group g p1 t1 ++ group g p2 t2 := by
  simp only [group]
  rw [List.zip_append h.symm, List.filter_append, List.flatMap_append]

theorem group_own (g : G) (ps : List (Piece G)) (ts : List (List Char)) (h : ts.length = ps.length)
    (hg : ∀ q ∈ ps, q.grp = some g) : group g ps ts = ts.flatten := by
  induction ps generalizing ts with
  | nil => cases ts with
    | nil => rfl
    | cons => simp at h
  | cons q ps ih => cases ts with
    | nil => simp at h
    | cons t ts =>
      have e : group g (q :: ps) (t :: ts) = group g [q] [t] ++ group g ps ts := group_append g [q] ps [t] ts rfl
      rw [e, ih ts (by simpa using h) (fun q hq => hg q (by simp [hq]))]
      simp [group, hg q (by simp)]

theorem group_other (g : G) (ps : List (Piece G)) (ts : List (List Char))
    (hg : ∀ q ∈ ps, q.grp ≠ some g) : group g ps ts = [] := by
  simp only [group]
  have : ((ps.zip ts).filter fun x => decide (x.1.grp = some g)) = [] := by
    rw [List.filter_eq_nil_iff]
    intro x hx
    have := hg x.1 (List.of_mem_zip (a := x.1) (b := x.2) hx).1
    simpa using this
  rw [this]; rfl

theorem pieces_grp (kd : Kind) (g : Option G) : ∀ q ∈ kd.pieces g, q.grp = g := by
  cases kd <;> simp [Kind.pieces, lit]

/-- The texts of the fields in group `g`. -/
def groupText (g : G) : List Field → List Str → Str
  | f :: fs, t :: ts => (if f.2 = some g then t else []) ++ groupText g fs ts
  | _, _ => []

theorem group_field (g : G) (f : Field) (txt : List (List Char)) (h : txt.length = (f.1.pieces f.2).length) :
    group g (f.1.pieces f.2) txt = if f.2 = some g then txt.flatten else [] := by
  split
  · rename_i e
    apply group_own g _ _ h
    intro q hq
    rw [pieces_grp _ _ q hq, e]
  · rename_i e
    apply group_other
    intro q hq
    rw [pieces_grp _ _ q hq]; exact e

theorem layout_ne {ks : List Kind} {ts : List Str} {s : Str} (h : Layout ks ts s) : ks ≠ [] := by
  cases h <;> simp

theorem layout_length {ks : List Kind} {ts : List Str} {s : Str} (h : Layout ks ts s) : ts.length = ks.length := by
  induction h with
  | last => rfl
  | next _ _ _ ih => simp [ih]

/-- A command of the right form is matched, field by field. -/
theorem layout_run {ks : List Kind} {ts : List Str} {s : Str} (h : Layout ks ts s) (hg : ∀ k ∈ ks, k.Good)
    (fs : List Field) (hfs : fs.map Prod.fst = ks) :
    ∃ txt, run (pattern fs) (fun _ => some []) s = some txt ∧
      ∀ g, group g (pattern fs) txt = groupText g fs ts := by
  induction h generalizing fs with
  | @last k t r hok hst =>
    obtain ⟨f, rfl⟩ : ∃ f, fs = [f] := by
      have : fs.length = 1 := by have := congrArg List.length hfs; simpa using this
      exact List.length_eq_one_iff.mp this
    simp only [List.map_cons, List.map_nil, List.cons.injEq, and_true] at hfs
    subst hfs
    obtain ⟨txt, h1, h2, h3⟩ := run_field f.1 f.2 [] (fun _ => some []) t r [] hok hst rfl
    refine ⟨txt, by simpa [pattern] using h3, ?_⟩
    intro g
    simp only [pattern, groupText, List.append_nil]
    rw [group_field g f txt h1, h2]
  | @next k t ks ts gap s hok hgap hrest ih =>
    cases fs with
    | nil => simp at hfs
    | cons f fs =>
      simp only [List.map_cons, List.cons.injEq] at hfs
      obtain ⟨rfl, hfs⟩ := hfs
      obtain ⟨txt, h1, h2⟩ := ih (fun k hk => hg k (by simp [hk])) fs hfs
      have hb := layout_head hrest (fun k hk => hg k (by simp [hk]))
      have hr := run_many blanks (pattern fs) (fun _ => some []) gap s txt rfl rfl
        (List.length_pos_iff.mpr hgap.1) hgap.2 hb h1
      obtain ⟨txt1, h3, h4, h5⟩ := run_field f.1 f.2 _ _ t (gap ++ s) _ hok (gap_stops f.1 t hgap) hr
      obtain ⟨f2, fs2, rfl⟩ : ∃ f2 fs2, fs = f2 :: fs2 := by
        cases fs with
        | nil => exact absurd (by simpa using hfs.symm) (layout_ne hrest)
        | cons a l => exact ⟨a, l, rfl⟩
      refine ⟨txt1 ++ gap :: txt, by simpa [pattern, List.append_assoc] using h5, ?_⟩
      intro g
      have e : pattern (f :: f2 :: fs2) = f.1.pieces f.2 ++ (blanks :: pattern (f2 :: fs2)) := rfl
      rw [e, group_append g _ _ _ _ h3, group_field g f txt1 h3, h4]
      have e2 : group g (blanks :: pattern (f2 :: fs2)) (gap :: txt) = group g [blanks] [gap] ++ group g (pattern (f2 :: fs2)) txt :=
        group_append g [blanks] _ [gap] txt rfl
      rw [e2, h2 g, group_other g [blanks] [gap] (by simp [blanks])]
      rfl

/-! ## Matches are commands of the right form -/

theorem fits_field {kd : Kind} {g : Option G} {s : Str} {ts : List (List Char)} {r : Str}
    (h : Fits (kd.pieces g) s ts r) : kd.Ok ts.flatten ∧ s = ts.flatten ++ r := by
  cases kd with
  | word w =>
    rw [Kind.pieces, fits_lit] at h
    obtain ⟨rfl, rfl⟩ := h
    exact ⟨flatten_single w, by rw [flatten_single]⟩
  | motor =>
    rw [Kind.pieces, fits_one] at h
    obtain ⟨t, rfl, rfl, hf⟩ := h
    exact ⟨by simpa using ⟨List.length_pos_iff.mp hf.2.1, hf.1⟩, by simp⟩
  | motornum =>
    rw [Kind.pieces, fits_one] at h
    obtain ⟨t, rfl, rfl, hf⟩ := h
    exact ⟨by simpa using ⟨List.length_pos_iff.mp hf.2.1, hf.1⟩, by simp⟩
  | int =>
    rw [Kind.pieces, fits_one] at h
    obtain ⟨t, rfl, rfl, hf⟩ := h
    exact ⟨by simpa using ⟨List.length_pos_iff.mp hf.2.1, hf.1⟩, by simp⟩
  | float =>
    simp only [Kind.pieces, fits_cons] at h
    obtain ⟨sg, _, _, rfl, rfl, h1, w, _, _, rfl, rfl, h2, d, _, _, rfl, rfl, h3, f, _, _, rfl, rfl, h4, rfl, rfl⟩ := h
    refine ⟨?_, by simp⟩
    have hs : IsSign sg := by
      have hl := h1.2.2 1 rfl
      cases sg with
      | nil => exact .inl rfl
      | cons a l =>
        cases l with
        | cons b l => simp at hl
        | nil =>
          have := h1.1 a (by simp)
          simp only [isSign, Bool.or_eq_true, decide_eq_true_eq] at this
          rcases this with rfl | rfl
          · exact .inr (.inl rfl)
          · exact .inr (.inr rfl)
    have hd : d = [] ∨ d = ['.'] := by
      have hl := h3.2.2 1 rfl
      cases d with
      | nil => exact .inl rfl
      | cons a l =>
        cases l with
        | cons b l => simp at hl
        | nil =>
          have := h3.1 a (by simp)
          simp only [beq_iff_eq] at this
          subst this
          exact .inr rfl
    have hfne : f ≠ [] := List.length_pos_iff.mp h4.2.1
    rcases hd with rfl | rfl
    · refine ⟨_, sg, w ++ f, [], hs, ?_, by simp, .inl ⟨rfl, by simp [hfne], by simp⟩, rfl⟩
      intro c hc
      rcases List.mem_append.mp hc with hc | hc
      · exact h2.1 c hc
      · exact h4.1 c hc
    · exact ⟨_, sg, w, f, hs, h2.1, h4.1, .inr ⟨hfne, by simp⟩, rfl⟩

theorem span_stop (p : Char → Bool) (r : Str) : ∃ d r', r = d ++ r' ∧ (∀ c ∈ d, p c = true) ∧ ∀ c ∈ r'.head?, p c = false := by
  induction r with
  | nil => exact ⟨[], [], rfl, by simp, by simp⟩
  | cons a r ih =>
    cases ha : p a with
    | false => exact ⟨[], a :: r, rfl, by simp, by simpa using ha⟩
    | true =>
      obtain ⟨d, r', rfl, h1, h2⟩ := ih
      exact ⟨a :: d, r', rfl, by simpa [ha] using h1, h2⟩

theorem forall_append {p : Char → Bool} {t d : Str} (h1 : ∀ c ∈ t, p c = true) (h2 : ∀ c ∈ d, p c = true) :
    ∀ c ∈ t ++ d, p c = true := by
  intro c hc
  rcases List.mem_append.mp hc with hc | hc
  · exact h1 c hc
  · exact h2 c hc

/-- A field can be made as long as possible. -/
theorem extend (kd : Kind) (t r : Str) (h : kd.Ok t) : ∃ t' r', t ++ r = t' ++ r' ∧ kd.Ok t' ∧ kd.Stops t' r' := by
  cases kd with
  | word w => exact ⟨t, r, rfl, h, trivial⟩
  | motor =>
    obtain ⟨d, r', rfl, h1, h2⟩ := span_stop Char.isAlpha r
    exact ⟨t ++ d, r', by simp, ⟨by simp [h.1], forall_append h.2 h1⟩, h2⟩
  | motornum =>
    obtain ⟨d, r', rfl, h1, h2⟩ := span_stop Char.isAlphanum r
    exact ⟨t ++ d, r', by simp, ⟨by simp [h.1], forall_append h.2 h1⟩, h2⟩
  | int =>
    obtain ⟨d, r', rfl, h1, h2⟩ := span_stop Char.isDigit r
    exact ⟨t ++ d, r', by simp, ⟨by simp [h.1], forall_append h.2 h1⟩, h2⟩
  | float =>
    obtain ⟨q, sg, w, f, hs, hw, hf, ht, _⟩ := h
    obtain ⟨d, r', rfl, h1, h2⟩ := span_stop Char.isDigit r
    have hsg : '.' ∉ sg := by rcases hs with rfl | rfl | rfl <;> simp
    rcases ht with ⟨_, hne, rfl⟩ | ⟨hne, rfl⟩
    · by_cases hp : ∃ c r2, r' = '.' :: c :: r2 ∧ c.isDigit = true
      · obtain ⟨c, r2, rfl, hc⟩ := hp
        obtain ⟨d2, r3, rfl, h3, h4⟩ := span_stop Char.isDigit r2
        refine ⟨sg ++ (w ++ d) ++ '.' :: (c :: d2), r3, by simp, ⟨_, sg, w ++ d, c :: d2, hs, forall_append hw h1, ?_, .inr ⟨by simp, rfl⟩, rfl⟩, h4, ?_⟩
        · intro x hx
          rcases List.mem_cons.mp hx with rfl | hx
          · exact hc
          · exact h3 x hx
        · intro hn
          exact absurd (by simp) hn
      · refine ⟨sg ++ (w ++ d), r', by simp, ⟨_, sg, w ++ d, [], hs, forall_append hw h1, by simp, .inl ⟨rfl, by simp [hne], rfl⟩, rfl⟩, h2, ?_⟩
        intro _ c e1 e2
        cases hcd : c.isDigit with
        | false => rfl
        | true =>
          exfalso
          apply hp
          cases r' with
          | nil => simp at e1
          | cons a r' =>
            simp only [List.head?_cons, Option.some.injEq] at e1
            subst e1
            cases r' with
            | nil => simp at e2
            | cons b r' =>
              simp only [List.getElem?_cons_succ, List.getElem?_cons_zero, Option.some.injEq] at e2
              subst e2
              exact ⟨b, r', rfl, hcd⟩
    · refine ⟨sg ++ w ++ '.' :: (f ++ d), r', by simp, ⟨_, sg, w, f ++ d, hs, hw, forall_append hf h1, .inr ⟨by simp [hne], rfl⟩, rfl⟩, h2, ?_⟩
      intro hn
      exact absurd (by simp) hn

/-- What is matched has the right form. -/
theorem fits_layout (fs : List Field) (hne : fs ≠ []) (s : Str) (txt : List (List Char)) (r : Str)
    (h : Fits (pattern fs) s txt r) : ∃ ts, Layout (fs.map Prod.fst) ts s := by
  induction fs generalizing s txt with
  | nil => exact absurd rfl hne
  | cons f fs ih =>
    cases fs with
    | nil =>
      obtain ⟨h1, h2⟩ := fits_field (h : Fits (f.1.pieces f.2) s txt r)
      obtain ⟨t', r', e, h3, h4⟩ := extend f.1 _ r h1
      rw [h2, e]
      exact ⟨[t'], .last h3 h4⟩
    | cons f2 fs =>
      have e : pattern (f :: f2 :: fs) = f.1.pieces f.2 ++ (blanks :: pattern (f2 :: fs)) := rfl
      rw [e, fits_append] at h
      obtain ⟨t1, t2, m, rfl, h1, gap, ts', s', rfl, rfl, h2, h3⟩ := h
      obtain ⟨ts, h4⟩ := ih (by simp) s' ts' h3
      obtain ⟨h5, rfl⟩ := fits_field h1
      refine ⟨t1.flatten :: ts, ?_⟩
      rw [← List.append_assoc]
      exact .next h5 ⟨List.length_pos_iff.mp h2.2.1, h2.1⟩ h4

theorem groupText_other (g : G) (fs : List Field) (ts : List Str) (h : g ∉ fs.filterMap Prod.snd) :
    groupText g fs ts = [] := by
  induction fs generalizing ts with
  | nil => simp [groupText]
  | cons f fs ih =>
    cases ts with
    | nil => simp [groupText]
    | cons t ts =>
      have h1 : f.2 ≠ some g := by
        intro e
        apply h
        simp [e]
      have h2 : g ∉ fs.filterMap Prod.snd := by
        intro hm
        apply h
        rw [List.filterMap_cons]
        split
        · exact hm
        · exact List.mem_cons_of_mem _ hm
      simp only [groupText, h1, if_false, List.nil_append]
      exact ih ts h2

/-- The groups with their texts. -/
def named : List Field → List Str → List (G × Str)
  | f :: fs, t :: ts => match f.2 with
    | none => named fs ts
    | some g => (g, t) :: named fs ts
  | _, _ => []

theorem named_eq (fs : List Field) (ts : List Str) (hl : ts.length = fs.length) (hn : (fs.filterMap Prod.snd).Nodup)
    (F : G → Str) (hF : ∀ g ∈ fs.filterMap Prod.snd, F g = groupText g fs ts) :
    (fs.filterMap fun f => f.2.map fun g => (g, F g)) = named fs ts := by
  induction fs generalizing ts with
  | nil => simp [named]
  | cons f fs ih =>
    cases ts with
    | nil => simp at hl
    | cons t ts =>
      obtain ⟨k, og⟩ := f
      cases og with
      | none =>
        simp only [List.filterMap_cons, Option.map_none, named]
        refine ih ts (by simpa using hl) (by simpa using hn) ?_
        intro g hg
        rw [hF g (by simpa using hg)]
        simp [groupText]
      | some g =>
        simp only [List.filterMap_cons, Option.map_some, named]
        simp only [List.filterMap_cons, List.nodup_cons] at hn
        congr 1
        · rw [hF g (by simp)]
          simp only [groupText, if_true]
          rw [groupText_other g fs ts hn.1, List.append_nil]
        · refine ih ts (by simpa using hl) hn.2 ?_
          intro g' hg'
          rw [hF g' (by simp [List.mem_cons_of_mem _ hg'] : g' ∈ List.filterMap Prod.snd ((k, some g) :: fs))]
          have : g ≠ g' := by rintro rfl; exact hn.1 hg'
          simp [groupText, this]

/-- A pattern whose words have no white space and whose groups are used once. -/
structure GoodPattern (fs : List Field) : Prop where
  good : ∀ k ∈ fs.map Prod.fst, k.Good
  nodup : (fs.filterMap Prod.snd).Nodup
  ne : fs ≠ []

theorem matchOne_layout {fs : List Field} (hp : GoodPattern fs) {ts : List Str} {s : Str}
    (h : Layout (fs.map Prod.fst) ts s) : matchOne fs s = some (named fs ts) := by
  obtain ⟨txt, h1, h2⟩ := layout_run h hp.good fs rfl
  simp only [matchOne, h1, Option.map_some, Option.some.injEq]
  exact named_eq fs ts (by simpa using layout_length h) hp.nodup _ (fun g _ => h2 g)

theorem matchOne_iff {fs : List Field} (hp : GoodPattern fs) (s : Str) (l : List (G × Str)) :
    matchOne fs s = some l ↔ ∃ ts, Layout (fs.map Prod.fst) ts s ∧ l = named fs ts := by
  constructor
  · intro h
    have h' := h
    simp only [matchOne, Option.map_eq_some_iff] at h
    obtain ⟨txt, h1, _⟩ := h
    obtain ⟨t1, r, _, _, hf, _⟩ := run_sound _ _ _ _ h1
    obtain ⟨ts, hl⟩ := fits_layout fs hp.ne s t1 r hf
    refine ⟨ts, hl, ?_⟩
    rw [matchOne_layout hp hl] at h'
    exact (Option.some.inj h').symm
  · rintro ⟨ts, h, rfl⟩
    exact matchOne_layout hp h

theorem matchOne_none {fs : List Field} (hp : GoodPattern fs) (s : Str) :
    matchOne fs s = none ↔ ¬ ∃ ts, Layout (fs.map Prod.fst) ts s := by
  constructor
  · rintro h ⟨ts, hl⟩
    rw [matchOne_layout hp hl] at h
    cases h
  · intro h
    cases hm : matchOne fs s with
    | none => rfl
    | some l =>
      obtain ⟨ts, hl, _⟩ := (matchOne_iff hp s l).mp hm
      exact absurd ⟨ts, hl⟩ h

end SC.Scan
