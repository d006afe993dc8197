import Verif.Excel.Model
/-! # C86: formulas in spreadsheets hold after every operation -/
namespace SC.Excel

variable {R C V : Type} [DecidableEq R] [DecidableEq C]

/-- Specification: no cell formula is written in this cell. -/
def Free (t : Sheet R C V) (r : R) (c : C) : Prop := ∀ e ∈ t.cellF, e.1 ≠ (r, c)

/-- Specification: all formulas hold; a column formula does not hold in the rows of formulas when these have priority and
the other way around, and cell formulas have priority over both. -/
structure Sat (t : Sheet R C V) : Prop where
  row : ∀ e ∈ t.rowF, ∀ c ∈ t.cols, (t.rowPriority = false → ∀ d ∈ t.colF, d.1 ≠ c) → Free t e.1 c →
    (∀ a ∈ e.2.args, Free t a c) → t.cell e.1 c = e.2.f (e.2.args.map fun a => t.cell a c)
  col : ∀ e ∈ t.colF, ∀ r ∈ t.rows, (t.rowPriority = true → ∀ d ∈ t.rowF, d.1 ≠ r) → Free t r e.1 →
    (∀ a ∈ e.2.args, Free t r a) → t.cell r e.1 = e.2.f (e.2.args.map fun a => t.cell r a)
  cell : ∀ e ∈ t.cellF, t.cell e.1.1 e.1.2 = e.2.f (e.2.args.map fun a => t.cell a.1 a.2)

/-- Specification: different targets, and no formula refers to itself or to a later formula. -/
structure Ordered {A : Type} (l : List (A × Formula A V)) : Prop where
  later : l.Pairwise fun a b => a.1 ≠ b.1 ∧ b.1 ∉ a.2.args
  self : ∀ a ∈ l, a.1 ∉ a.2.args

theorem Ordered.tail {A : Type} {a : A × Formula A V} {l : List (A × Formula A V)} (h : Ordered (a :: l)) : Ordered l :=
  ⟨(List.pairwise_cons.mp h.later).2, fun b hb => h.self b (List.mem_cons_of_mem _ hb)⟩

/-- The formulas and the priority of two sheets are the same. -/
structure Same (s t : Sheet R C V) : Prop where
  colF : t.colF = s.colF
  rowF : t.rowF = s.rowF
  cellF : t.cellF = s.cellF
  prio : t.rowPriority = s.rowPriority

theorem Same.refl (s : Sheet R C V) : Same s s := ⟨rfl, rfl, rfl, rfl⟩
theorem Same.trans {s t u : Sheet R C V} (h : Same s t) (k : Same t u) : Same s u :=
  ⟨k.colF.trans h.colF, k.rowF.trans h.rowF, k.cellF.trans h.cellF, k.prio.trans h.prio⟩

theorem mem_addKey {A : Type} [DecidableEq A] (l : List A) (a b : A) : b ∈ addKey l a ↔ b ∈ l ∨ b = a := by
  unfold addKey; split
  · rename_i h
    constructor
    · exact Or.inl
    · rintro (h' | rfl)
      · exact h'
      · exact h
  · simp

theorem setItem_new {A B : Type} [DecidableEq A] (l : List (A × B)) (a : A) (b : B) (h : ∀ e ∈ l, e.1 ≠ a) :
    setItem l a b = l ++ [(a, b)] := by
  induction l with
  | nil => rfl
  | cons x l ih =>
    obtain ⟨x, y⟩ := x
    have := h (x, y) List.mem_cons_self
    simp only at this
    rw [setItem, if_neg this, ih fun e he => h e (List.mem_cons_of_mem _ he)]; rfl

/-- The column formulas. -/
theorem col_loop (l : List (C × Formula C V)) (s t : Sheet R C V) (h : loop applyCol s l = some t) :
    Same s t ∧ t.rows = s.rows ∧ (∀ c, c ∈ t.cols ↔ c ∈ s.cols ∨ ∃ e ∈ l, e.1 = c) ∧
    (∀ r c, (∀ e ∈ l, e.1 ≠ c) ∨ r ∉ s.rows → t.cell r c = s.cell r c) ∧
    (Ordered l → ∀ e ∈ l, ∀ r ∈ s.rows, t.cell r e.1 = e.2.f (e.2.args.map fun a => t.cell r a)) := by
  induction l generalizing s with
  | nil =>
    simp only [loop, Option.some.injEq] at h
    subst h
    exact ⟨Same.refl _, rfl, fun c => by simp, fun r c _ => rfl, fun _ e he => by cases he⟩
  | cons e l ih =>
    rw [loop, Option.bind_eq_some_iff] at h
    obtain ⟨s1, h1, h2⟩ := h
    unfold applyCol at h1
    split at h1
    swap
    · cases h1
    · simp only [Option.some.injEq] at h1
      obtain ⟨i1, i2, i3, i4, i5⟩ := ih s1 h2
      have er : s1.rows = s.rows := by rw [← h1]
      have ec : ∀ r c, s1.cell r c = if c = e.1 ∧ r ∈ s.rows then e.2.f (e.2.args.map (s.cell r)) else s.cell r c := by
        intro r c; rw [← h1]
      refine ⟨Same.trans ?_ i1, i2.trans er, ?_, ?_, ?_⟩
      · rw [← h1]; exact ⟨rfl, rfl, rfl, rfl⟩
      · intro c
        rw [i3]
        have : c ∈ s1.cols ↔ c ∈ s.cols ∨ c = e.1 := by rw [← h1]; exact mem_addKey _ _ _
        rw [this]
        constructor
        · rintro ((h | rfl) | ⟨e', he', rfl⟩)
          · exact .inl h
          · exact .inr ⟨e, List.mem_cons_self, rfl⟩
          · exact .inr ⟨e', List.mem_cons_of_mem _ he', rfl⟩
        · rintro (h | ⟨e', he', rfl⟩)
          · exact .inl (.inl h)
          · rcases List.mem_cons.mp he' with rfl | he'
            · exact .inl (.inr rfl)
            · exact .inr ⟨e', he', rfl⟩
      · intro r c hrc
        rw [i4 r c (by
          rcases hrc with h | h
          · exact .inl fun e' he' => h e' (List.mem_cons_of_mem _ he')
          · rw [er]; exact .inr h), ec]
        rw [if_neg]
        rintro ⟨rfl, hr⟩
        rcases hrc with h | h
        · exact h e List.mem_cons_self rfl
        · exact h hr
      · intro ho e' he' r hr
        rcases List.mem_cons.mp he' with rfl | he'
        · have hl := (List.pairwise_cons.mp ho.later).1
          rw [i4 r _ (.inl fun d hd => (hl d hd).1.symm), ec, if_pos ⟨rfl, hr⟩]
          congr 1
          refine List.map_congr_left fun a ha => ?_
          rw [i4 r a (.inl fun d hd hda => (hl d hd).2 (hda ▸ ha)), ec, if_neg]
          rintro ⟨rfl, _⟩
          exact ho.self _ List.mem_cons_self ha
        · exact i5 ho.tail e' he' r (by rw [er]; exact hr)

/-- The row formulas. -/
theorem row_loop (l : List (R × Formula R V)) (s t : Sheet R C V) (h : loop applyRow s l = some t) :
    Same s t ∧ t.cols = s.cols ∧ (∀ r, r ∈ t.rows ↔ r ∈ s.rows ∨ ∃ e ∈ l, e.1 = r) ∧
    (∀ r c, (∀ e ∈ l, e.1 ≠ r) ∨ c ∉ s.cols → t.cell r c = s.cell r c) ∧
    (Ordered l → ∀ e ∈ l, ∀ c ∈ s.cols, t.cell e.1 c = e.2.f (e.2.args.map fun a => t.cell a c)) := by
  induction l generalizing s with
  | nil =>
    simp only [loop, Option.some.injEq] at h
    subst h
    exact ⟨Same.refl _, rfl, fun c => by simp, fun r c _ => rfl, fun _ e he => by cases he⟩
  | cons e l ih =>
    rw [loop, Option.bind_eq_some_iff] at h
    obtain ⟨s1, h1, h2⟩ := h
    unfold applyRow at h1
    split at h1
    swap
    · cases h1
    · simp only [Option.some.injEq] at h1
      obtain ⟨i1, i2, i3, i4, i5⟩ := ih s1 h2
      have er : s1.cols = s.cols := by rw [← h1]
      have ec : ∀ r c, s1.cell r c = if r = e.1 ∧ c ∈ s.cols then e.2.f (e.2.args.map (s.cell · c)) else s.cell r c := by
        intro r c; rw [← h1]
      refine ⟨Same.trans ?_ i1, i2.trans er, ?_, ?_, ?_⟩
      · rw [← h1]; exact ⟨rfl, rfl, rfl, rfl⟩
      · intro r
        rw [i3]
        have : r ∈ s1.rows ↔ r ∈ s.rows ∨ r = e.1 := by rw [← h1]; exact mem_addKey _ _ _
        rw [this]
        constructor
        · rintro ((h | rfl) | ⟨e', he', rfl⟩)
          · exact .inl h
          · exact .inr ⟨e, List.mem_cons_self, rfl⟩
          · exact .inr ⟨e', List.mem_cons_of_mem _ he', rfl⟩
        · rintro (h | ⟨e', he', rfl⟩)
          · exact .inl (.inl h)
          · rcases List.mem_cons.mp he' with rfl | he'
            · exact .inl (.inr rfl)
            · exact .inr ⟨e', he', rfl⟩
      · intro r c hrc
        rw [i4 r c (by
          rcases hrc with h | h
          · exact .inl fun e' he' => h e' (List.mem_cons_of_mem _ he')
          · rw [er]; exact .inr h), ec]
        rw [if_neg]
        rintro ⟨rfl, hr⟩
        rcases hrc with h | h
        · exact h e List.mem_cons_self rfl
        · exact h hr
      · intro ho e' he' c hc
        rcases List.mem_cons.mp he' with rfl | he'
        · have hl := (List.pairwise_cons.mp ho.later).1
          rw [i4 _ c (.inl fun d hd => (hl d hd).1.symm), ec, if_pos ⟨rfl, hc⟩]
          congr 1
          refine List.map_congr_left fun a ha => ?_
          rw [i4 a c (.inl fun d hd hda => (hl d hd).2 (hda ▸ ha)), ec, if_neg]
          rintro ⟨rfl, _⟩
          exact ho.self _ List.mem_cons_self ha
        · exact i5 ho.tail e' he' c (by rw [er]; exact hc)

/-- The cell formulas. -/
theorem cell_loop (l : List ((R × C) × Formula (R × C) V)) (s t : Sheet R C V) (h : loop applyCell s l = some t) :
    Same s t ∧ (∀ r, r ∈ t.rows ↔ r ∈ s.rows ∨ ∃ e ∈ l, e.1.1 = r) ∧ (∀ c, c ∈ t.cols ↔ c ∈ s.cols ∨ ∃ e ∈ l, e.1.2 = c) ∧
    (∀ r c, (∀ e ∈ l, e.1 ≠ (r, c)) → t.cell r c = s.cell r c) ∧
    (Ordered l → ∀ e ∈ l, t.cell e.1.1 e.1.2 = e.2.f (e.2.args.map fun a => t.cell a.1 a.2)) := by
  induction l generalizing s with
  | nil =>
    simp only [loop, Option.some.injEq] at h
    subst h
    exact ⟨Same.refl _, fun c => by simp, fun c => by simp, fun r c _ => rfl, fun _ e he => by cases he⟩
  | cons e l ih =>
    rw [loop, Option.bind_eq_some_iff] at h
    obtain ⟨s1, h1, h2⟩ := h
    unfold applyCell at h1
    split at h1
    swap
    · cases h1
    · simp only [Option.some.injEq] at h1
      obtain ⟨i1, i2, i3, i4, i5⟩ := ih s1 h2
      have ec : ∀ r c, s1.cell r c = if r = e.1.1 ∧ c = e.1.2 then e.2.f (e.2.args.map fun a => s.cell a.1 a.2) else s.cell r c := by
        intro r c; rw [← h1]; rfl
      refine ⟨Same.trans ?_ i1, ?_, ?_, ?_, ?_⟩
      · rw [← h1]; exact ⟨rfl, rfl, rfl, rfl⟩
      · intro r
        rw [i2]
        have : r ∈ s1.rows ↔ r ∈ s.rows ∨ r = e.1.1 := by rw [← h1]; exact mem_addKey _ _ _
        rw [this]
        constructor
        · rintro ((h | rfl) | ⟨e', he', rfl⟩)
          · exact .inl h
          · exact .inr ⟨e, List.mem_cons_self, rfl⟩
          · exact .inr ⟨e', List.mem_cons_of_mem _ he', rfl⟩
        · rintro (h | ⟨e', he', rfl⟩)
          · exact .inl (.inl h)
          · rcases List.mem_cons.mp he' with rfl | he'
            · exact .inl (.inr rfl)
            · exact .inr ⟨e', he', rfl⟩
      · intro c
        rw [i3]
        have : c ∈ s1.cols ↔ c ∈ s.cols ∨ c = e.1.2 := by rw [← h1]; exact mem_addKey _ _ _
        rw [this]
        constructor
        · rintro ((h | rfl) | ⟨e', he', rfl⟩)
          · exact .inl h
          · exact .inr ⟨e, List.mem_cons_self, rfl⟩
          · exact .inr ⟨e', List.mem_cons_of_mem _ he', rfl⟩
        · rintro (h | ⟨e', he', rfl⟩)
          · exact .inl (.inl h)
          · rcases List.mem_cons.mp he' with rfl | he'
            · exact .inl (.inr rfl)
            · exact .inr ⟨e', he', rfl⟩
      · intro r c hrc
        rw [i4 r c fun e' he' => hrc e' (List.mem_cons_of_mem _ he'), ec, if_neg]
        rintro ⟨rfl, rfl⟩
        exact hrc e List.mem_cons_self rfl
      · intro ho e' he'
        rcases List.mem_cons.mp he' with rfl | he'
        · have hl := (List.pairwise_cons.mp ho.later).1
          rw [i4 _ _ fun d hd hd' => (hl d hd).1 hd'.symm, ec, if_pos ⟨rfl, rfl⟩]
          congr 1
          refine List.map_congr_left fun a ha => ?_
          rw [i4 a.1 a.2 fun d hd hda => (hl d hd).2 (hda ▸ ha), ec, if_neg]
          rintro ⟨h3, h4⟩
          exact ho.self _ List.mem_cons_self ((Prod.ext h3 h4 : a = e'.1) ▸ ha)
        · exact i5 ho.tail e' he'

/-- The three lists of formulas are in order. -/
structure AllOrdered (s : Sheet R C V) : Prop where
  col : Ordered s.colF
  row : Ordered s.rowF
  cell : Ordered s.cellF

/-- The targets of the formulas are in the frame. -/
structure Present (s : Sheet R C V) : Prop where
  col : ∀ e ∈ s.colF, e.1 ∈ s.cols
  row : ∀ e ∈ s.rowF, e.1 ∈ s.rows
  cell : ∀ e ∈ s.cellF, e.1.1 ∈ s.rows ∧ e.1.2 ∈ s.cols

/-- **C86.**  After the formulas are applied they hold, in all rows and columns. -/
theorem applyAll_sat (s t : Sheet R C V) (ho : AllOrdered s) (hp : Present s) (h : applyAll s = some t) :
    Sat t ∧ Same s t ∧ Present t ∧ (∀ r, r ∈ t.rows ↔ r ∈ s.rows) ∧ (∀ c, c ∈ t.cols ↔ c ∈ s.cols) ∧
    (∀ r c, (∀ e ∈ s.colF, e.1 ≠ c) → (∀ e ∈ s.rowF, e.1 ≠ r) → Free s r c → t.cell r c = s.cell r c) := by
  unfold applyAll at h
  dsimp only at h
  by_cases hpr : s.rowPriority = true
  · rw [if_pos hpr, Option.bind_eq_some_iff] at h
    obtain ⟨s2, h2, h3⟩ := h
    rw [Option.bind_eq_some_iff] at h2
    obtain ⟨s1, h1, h2⟩ := h2
    obtain ⟨a1, a2, a3, a4, a5⟩ := col_loop _ _ _ h1
    obtain ⟨b1, b2, b3, b4, b5⟩ := row_loop _ _ _ h2
    obtain ⟨c1, c2, c3, c4, c5⟩ := cell_loop _ _ _ h3
    have S : Same s t := (a1.trans b1).trans c1
    have hrows : ∀ r, r ∈ t.rows ↔ r ∈ s.rows := by
      intro r; rw [c2, b3, a2]
      constructor
      · rintro ((h | ⟨e, he, rfl⟩) | ⟨e, he, rfl⟩)
        · exact h
        · exact hp.row e he
        · exact (hp.cell e he).1
      · exact fun h => .inl (.inl h)
    have hcols1 : ∀ c, c ∈ s1.cols ↔ c ∈ s.cols := by
      intro c; rw [a3]
      constructor
      · rintro (h | ⟨e, he, rfl⟩)
        · exact h
        · exact hp.col e he
      · exact .inl
    have hcols : ∀ c, c ∈ t.cols ↔ c ∈ s.cols := by
      intro c; rw [c3, b2, hcols1]
      constructor
      · rintro (h | ⟨e, he, rfl⟩)
        · exact h
        · exact (hp.cell e he).2
      · exact .inl
    have hfree : ∀ r c, Free t r c → t.cell r c = s2.cell r c := by
      intro r c hf
      refine c4 r c ?_
      unfold Free at hf; rwa [S.cellF] at hf
    refine ⟨⟨?_, ?_, ?_⟩, S, ⟨?_, ?_, ?_⟩, hrows, hcols, ?_⟩
    · intro e he c hc _ hf hfa
      rw [S.rowF] at he
      rw [hfree _ _ hf, b5 ho.row e he c ((hcols1 c).mpr ((hcols c).mp hc))]
      congr 1
      exact List.map_congr_left fun a ha => (hfree a c (hfa a ha)).symm
    · intro e he r hr hnr hf hfa
      rw [S.colF] at he
      have hnr' : ∀ d ∈ s.rowF, d.1 ≠ r := by
        have := hnr (by rw [S.prio, hpr]); rwa [S.rowF] at this
      rw [hfree _ _ hf, b4 _ _ (.inl hnr'), a5 ho.col e he r ((hrows r).mp hr)]
      congr 1
      refine List.map_congr_left fun a ha => ?_
      rw [hfree r a (hfa a ha), b4 _ _ (.inl hnr')]
    · intro e he
      rw [S.cellF] at he
      exact c5 ho.cell e he
    · intro e he; rw [S.colF] at he; exact (hcols _).mpr (hp.col e he)
    · intro e he; rw [S.rowF] at he; exact (hrows _).mpr (hp.row e he)
    · intro e he; rw [S.cellF] at he
      exact ⟨(hrows _).mpr (hp.cell e he).1, (hcols _).mpr (hp.cell e he).2⟩
    · intro r c h1 h2 h3
      rw [c4 r c h3, b4 r c (.inl h2), a4 r c (.inl h1)]
  · have hpf : s.rowPriority = false := by simpa using hpr
    rw [if_neg hpr, Option.bind_eq_some_iff] at h
    obtain ⟨s2, h2, h3⟩ := h
    rw [Option.bind_eq_some_iff] at h2
    obtain ⟨s1, h1, h2⟩ := h2
    obtain ⟨a1, a2, a3, a4, a5⟩ := row_loop _ _ _ h1
    obtain ⟨b1, b2, b3, b4, b5⟩ := col_loop _ _ _ h2
    obtain ⟨c1, c2, c3, c4, c5⟩ := cell_loop _ _ _ h3
    have S : Same s t := (a1.trans b1).trans c1
    have hrows1 : ∀ r, r ∈ s1.rows ↔ r ∈ s.rows := by
      intro c; rw [a3]
      constructor
      · rintro (h | ⟨e, he, rfl⟩)
        · exact h
        · exact hp.row e he
      · exact .inl
    have hrows : ∀ r, r ∈ t.rows ↔ r ∈ s.rows := by
      intro r; rw [c2, b2, hrows1]
      constructor
      · rintro (h | ⟨e, he, rfl⟩)
        · exact h
        · exact (hp.cell e he).1
      · exact .inl
    have hcols : ∀ c, c ∈ t.cols ↔ c ∈ s.cols := by
      intro c; rw [c3, b3, a2]
      constructor
      · rintro ((h | ⟨e, he, rfl⟩) | ⟨e, he, rfl⟩)
        · exact h
        · exact hp.col e he
        · exact (hp.cell e he).2
      · exact fun h => .inl (.inl h)
    have hfree : ∀ r c, Free t r c → t.cell r c = s2.cell r c := by
      intro r c hf
      refine c4 r c ?_
      unfold Free at hf; rwa [S.cellF] at hf
    refine ⟨⟨?_, ?_, ?_⟩, S, ⟨?_, ?_, ?_⟩, hrows, hcols, ?_⟩
    · intro e he c hc hnc hf hfa
      rw [S.rowF] at he
      have hnc' : ∀ d ∈ s.colF, d.1 ≠ c := by
        have := hnc (by rw [S.prio, hpf]); rwa [S.colF] at this
      rw [hfree _ _ hf, b4 _ _ (.inl hnc'), a5 ho.row e he c ((hcols c).mp hc)]
      congr 1
      refine List.map_congr_left fun a ha => ?_
      rw [hfree a c (hfa a ha), b4 _ _ (.inl hnc')]
    · intro e he r hr _ hf hfa
      rw [S.colF] at he
      rw [hfree _ _ hf, b5 ho.col e he r ((hrows1 r).mpr ((hrows r).mp hr))]
      congr 1
      exact List.map_congr_left fun a ha => (hfree r a (hfa a ha)).symm
    · intro e he
      rw [S.cellF] at he
      exact c5 ho.cell e he
    · intro e he; rw [S.colF] at he; exact (hcols _).mpr (hp.col e he)
    · intro e he; rw [S.rowF] at he; exact (hrows _).mpr (hp.row e he)
    · intro e he; rw [S.cellF] at he
      exact ⟨(hrows _).mpr (hp.cell e he).1, (hcols _).mpr (hp.cell e he).2⟩
    · intro r c h1 h2 h3
      rw [c4 r c h3, b4 r c (.inl h1), a4 r c (.inl h2)]

/-- Specification: a formula for a new target that no formula refers to. -/
def Good (s : Sheet R C V) : Op R C V → Prop
  | .colFormula c _ => ∀ e ∈ s.colF, e.1 ≠ c ∧ c ∉ e.2.args
  | .rowFormula r _ => ∀ e ∈ s.rowF, e.1 ≠ r ∧ r ∉ e.2.args
  | .cellFormula r c _ => ∀ e ∈ s.cellF, e.1 ≠ (r, c) ∧ (r, c) ∉ e.2.args
  | _ => True

/-- What holds between operations. -/
structure Inv (s : Sheet R C V) : Prop where
  ordered : AllOrdered s
  present : Present s
  sat : Sat s

theorem Ordered.snoc {A : Type} {l : List (A × Formula A V)} (h : Ordered l) (a : A) (F : Formula A V) (hs : a ∉ F.args)
    (hn : ∀ e ∈ l, e.1 ≠ a ∧ a ∉ e.2.args) : Ordered (l ++ [(a, F)]) := by
  refine ⟨?_, ?_⟩
  · rw [List.pairwise_append]
    refine ⟨h.later, List.pairwise_singleton _ _, ?_⟩
    intro x hx y hy
    rw [List.mem_singleton] at hy
    subst hy
    exact hn x hx
  · intro x hx
    rcases List.mem_append.mp hx with hx | hx
    · exact h.self x hx
    · rw [List.mem_singleton] at hx; subst hx; exact hs

theorem Ordered.filter {A : Type} {l : List (A × Formula A V)} (h : Ordered l) (p : A × Formula A V → Bool) : Ordered (l.filter p) :=
  ⟨h.later.sublist List.filter_sublist, fun a ha => h.self a (List.mem_filter.mp ha).1⟩

theorem inv_of_applyAll (s t : Sheet R C V) (ho : AllOrdered s) (hp : Present s) (h : applyAll s = some t) : Inv t := by
  obtain ⟨h1, h2, h3, -⟩ := applyAll_sat s t ho hp h
  refine ⟨⟨?_, ?_, ?_⟩, h3, h1⟩
  · rw [h2.colF]; exact ho.col
  · rw [h2.rowF]; exact ho.row
  · rw [h2.cellF]; exact ho.cell

/-- Growing the frame keeps the targets. -/
theorem Present.mono {s t : Sheet R C V} (hp : Present s) (h : Same s t) (hr : ∀ r ∈ s.rows, r ∈ t.rows) (hc : ∀ c ∈ s.cols, c ∈ t.cols) :
    Present t :=
  ⟨fun e he => hc _ (hp.col e (h.colF ▸ he)), fun e he => hr _ (hp.row e (h.rowF ▸ he)),
   fun e he => ⟨hr _ (hp.cell e (h.cellF ▸ he)).1, hc _ (hp.cell e (h.cellF ▸ he)).2⟩⟩

theorem AllOrdered.same {s t : Sheet R C V} (ho : AllOrdered s) (h : Same s t) : AllOrdered t :=
  ⟨h.colF ▸ ho.col, h.rowF ▸ ho.row, h.cellF ▸ ho.cell⟩

theorem setCell_same (s : Sheet R C V) (r : R) (c : C) (v : V) : Same s (setCell s r c v) ∧
    (∀ x ∈ s.rows, x ∈ (setCell s r c v).rows) ∧ (∀ x ∈ s.cols, x ∈ (setCell s r c v).cols) :=
  ⟨⟨rfl, rfl, rfl, rfl⟩, fun x hx => (mem_addKey _ _ _).mpr (.inl hx), fun x hx => (mem_addKey _ _ _).mpr (.inl hx)⟩

theorem foldl_same {E : Type} (f : Sheet R C V → E → Sheet R C V)
    (hf : ∀ s e, Same s (f s e) ∧ (∀ x ∈ s.rows, x ∈ (f s e).rows) ∧ (∀ x ∈ s.cols, x ∈ (f s e).cols)) (l : List E) (s : Sheet R C V) :
    Same s (l.foldl f s) ∧ (∀ x ∈ s.rows, x ∈ (l.foldl f s).rows) ∧ (∀ x ∈ s.cols, x ∈ (l.foldl f s).cols) := by
  induction l generalizing s with
  | nil => exact ⟨Same.refl _, fun _ h => h, fun _ h => h⟩
  | cons e l ih =>
    obtain ⟨h1, h2, h3⟩ := hf s e
    obtain ⟨k1, k2, k3⟩ := ih (f s e)
    exact ⟨h1.trans k1, fun x hx => k2 x (h2 x hx), fun x hx => k3 x (h3 x hx)⟩

/-- **C86.**  Every operation leaves the sheet with all formulas satisfied. -/
theorem step_inv (s t : Sheet R C V) (o : Op R C V) (hi : Inv s) (hg : Good s o) (h : step s o = some t) : Inv t := by
  obtain ⟨ho, hp, -⟩ := hi
  cases o with
  | value r c v =>
    simp only [step] at h
    obtain ⟨k1, k2, k3⟩ := setCell_same s r c v
    exact inv_of_applyAll _ t (ho.same k1) (hp.mono k1 k2 k3) h
  | row r data =>
    simp only [step] at h
    set s0 : Sheet R C V := { s with cellF := s.cellF.filter (·.1.1 ≠ r) } with hs0
    have ho0 : AllOrdered s0 := ⟨ho.col, ho.row, ho.cell.filter _⟩
    have hp0 : Present s0 := ⟨hp.col, hp.row, fun e he => hp.cell e (List.mem_filter.mp he).1⟩
    obtain ⟨k1, k2, k3⟩ := foldl_same (fun s (cv : C × V) => setCell s r cv.1 cv.2) (fun s e => setCell_same s r e.1 e.2) data s0
    exact inv_of_applyAll _ t (ho0.same k1) (hp0.mono k1 k2 k3) h
  | column c data =>
    simp only [step] at h
    set s0 : Sheet R C V := { s with cellF := s.cellF.filter (·.1.2 ≠ c) } with hs0
    have ho0 : AllOrdered s0 := ⟨ho.col, ho.row, ho.cell.filter _⟩
    have hp0 : Present s0 := ⟨hp.col, hp.row, fun e he => hp.cell e (List.mem_filter.mp he).1⟩
    obtain ⟨k1, k2, k3⟩ := foldl_same (fun s (rv : R × V) => setCell s rv.1 c rv.2) (fun s e => setCell_same s e.1 c e.2) data s0
    exact inv_of_applyAll _ t (ho0.same k1) (hp0.mono k1 k2 k3) h
  | colFormula c F =>
    simp only [step] at h
    split at h
    · cases h
    · rename_i hself
      rw [Option.bind_eq_some_iff] at h
      obtain ⟨s1, h1, h2⟩ := h
      have hg' : ∀ e ∈ s.colF, e.1 ≠ c ∧ c ∉ e.2.args := hg
      rw [setItem_new s.colF c F fun e he => (hg' e he).1] at h1
      unfold applyCol at h1
      split at h1
      swap
      · cases h1
      · simp only [Option.some.injEq] at h1
        refine inv_of_applyAll s1 t ?_ ?_ h2
        · rw [← h1]; exact ⟨ho.col.snoc c F hself hg', ho.row, ho.cell⟩
        · rw [← h1]
          refine ⟨?_, hp.row, fun e he => ⟨(hp.cell e he).1, (mem_addKey _ _ _).mpr (.inl (hp.cell e he).2)⟩⟩
          intro e he
          rcases List.mem_append.mp he with he | he
          · exact (mem_addKey _ _ _).mpr (.inl (hp.col e he))
          · rw [List.mem_singleton] at he; subst he
            exact (mem_addKey _ _ _).mpr (.inr rfl)
  | rowFormula r F =>
    simp only [step] at h
    split at h
    · cases h
    · rename_i hself
      rw [Option.bind_eq_some_iff] at h
      obtain ⟨s1, h1, h2⟩ := h
      have hg' : ∀ e ∈ s.rowF, e.1 ≠ r ∧ r ∉ e.2.args := hg
      rw [setItem_new s.rowF r F fun e he => (hg' e he).1] at h1
      unfold applyRow at h1
      split at h1
      swap
      · cases h1
      · simp only [Option.some.injEq] at h1
        refine inv_of_applyAll s1 t ?_ ?_ h2
        · rw [← h1]; exact ⟨ho.col, ho.row.snoc r F hself hg', ho.cell⟩
        · rw [← h1]
          refine ⟨hp.col, ?_, fun e he => ⟨(mem_addKey _ _ _).mpr (.inl (hp.cell e he).1), (hp.cell e he).2⟩⟩
          intro e he
          rcases List.mem_append.mp he with he | he
          · exact (mem_addKey _ _ _).mpr (.inl (hp.row e he))
          · rw [List.mem_singleton] at he; subst he
            exact (mem_addKey _ _ _).mpr (.inr rfl)
  | cellFormula r c F =>
    simp only [step] at h
    split at h
    · cases h
    · rename_i hself
      rw [Option.bind_eq_some_iff] at h
      obtain ⟨s1, h1, h2⟩ := h
      have hg' : ∀ e ∈ s.cellF, e.1 ≠ (r, c) ∧ (r, c) ∉ e.2.args := hg
      have hs : (r, c) ∉ F.args := by
        intro hm
        apply hself
        rw [List.any_eq_true]
        exact ⟨(r, c), hm, by simp⟩
      rw [setItem_new s.cellF (r, c) F fun e he => (hg' e he).1] at h1
      unfold applyCell at h1
      split at h1
      swap
      · cases h1
      · simp only [Option.some.injEq] at h1
        refine inv_of_applyAll s1 t ?_ ?_ h2
        · rw [← h1]; exact ⟨ho.col, ho.row, ho.cell.snoc (r, c) F hs hg'⟩
        · rw [← h1]
          refine ⟨fun e he => (mem_addKey _ _ _).mpr (.inl (hp.col e he)), fun e he => (mem_addKey _ _ _).mpr (.inl (hp.row e he)), ?_⟩
          intro e he
          rcases List.mem_append.mp he with he | he
          · exact ⟨(mem_addKey _ _ _).mpr (.inl (hp.cell e he).1), (mem_addKey _ _ _).mpr (.inl (hp.cell e he).2)⟩
          · rw [List.mem_singleton] at he; subst he
            exact ⟨(mem_addKey _ _ _).mpr (.inr rfl), (mem_addKey _ _ _).mpr (.inr rfl)⟩

/-- Specification: every formula of a series of operations is new when it is added and not referred to before. -/
def GoodRun (s : Sheet R C V) : List (Op R C V) → Prop
  | [] => True
  | o :: l => Good s o ∧ ∀ s', step s o = some s' → GoodRun s' l

/-- **C86.**  A new sheet has all its formulas satisfied after any series of operations in which formulas are added
before they are referred to. -/
theorem steps_sat (nan : V) (prio : Bool) (ops : List (Op R C V)) (t : Sheet R C V) (hg : GoodRun (empty nan prio) ops)
    (h : steps (empty nan prio) ops = some t) : Sat t := by
  have key : ∀ (ops : List (Op R C V)) (s : Sheet R C V), Inv s → GoodRun s ops → steps s ops = some t → Inv t := by
    intro ops
    induction ops with
    | nil => intro s hi _ h; simp only [steps, Option.some.injEq] at h; exact h ▸ hi
    | cons o ops ih =>
      intro s hi hg h
      rw [steps, Option.bind_eq_some_iff] at h
      obtain ⟨s1, h1, h2⟩ := h
      exact ih s1 (step_inv s s1 o hi hg.1 h1) (hg.2 s1 h1) h2
  have h0 : Inv (empty nan prio : Sheet R C V) := by
    refine ⟨⟨⟨List.Pairwise.nil, ?_⟩, ⟨List.Pairwise.nil, ?_⟩, ⟨List.Pairwise.nil, ?_⟩⟩, ⟨?_, ?_, ?_⟩, ⟨?_, ?_, ?_⟩⟩ <;>
      (intro e he; simp [empty] at he)
  exact (key ops _ h0 hg h).sat

/-- **C86.**  A value is entered when no formula belongs to its cell, and other such cells keep their values. -/
theorem value_kept (s t : Sheet R C V) (r : R) (c : C) (v : V) (hi : Inv s) (h : step s (.value r c v) = some t) :
    ∀ r' c', (∀ e ∈ s.colF, e.1 ≠ c') → (∀ e ∈ s.rowF, e.1 ≠ r') → Free s r' c' →
      t.cell r' c' = if r' = r ∧ c' = c then v else s.cell r' c' := by
  simp only [step] at h
  obtain ⟨k1, k2, k3⟩ := setCell_same s r c v
  obtain ⟨-, -, -, -, -, h6⟩ := applyAll_sat _ t (hi.ordered.same k1) (hi.present.mono k1 k2 k3) h
  intro r' c' h1 h2 h3
  exact h6 r' c' h1 h2 h3

/-- **C86 (deviation).**  A formula with an unknown column stays in the dictionary, and no operation works any more. -/
theorem unknown_column_breaks (s : Sheet R C V) (hpr : s.rowPriority = true) (e : C × Formula C V) (he : e ∈ s.colF) (a : C)
    (ha : a ∈ e.2.args) (h1 : a ∉ s.cols) (h2 : ∀ d ∈ s.colF, d.1 ≠ a) : applyAll s = none := by
  have key : ∀ (l : List (C × Formula C V)) (s : Sheet R C V), e ∈ l → a ∉ s.cols → (∀ d ∈ l, d.1 ≠ a) → loop applyCol s l = none := by
    intro l
    induction l with
    | nil => intro s he; cases he
    | cons d l ih =>
      intro s he h1 h2
      rw [loop]
      rcases List.mem_cons.mp he with rfl | he
      · have : applyCol s e = none := by
          unfold applyCol; rw [if_neg]
          simp only [List.all_eq_true, decide_eq_true_eq]
          exact fun h => h1 (h a ha)
        rw [this]; rfl
      · cases hd : applyCol s d with
        | none => rfl
        | some s1 =>
          refine ih s1 he ?_ fun d' hd' => h2 d' (List.mem_cons_of_mem _ hd')
          unfold applyCol at hd
          split at hd
          · simp only [Option.some.injEq] at hd
            rw [← hd]
            intro hm
            rcases (mem_addKey _ _ _).mp hm with h | h
            · exact h1 h
            · exact h2 d List.mem_cons_self h.symm
          · cases hd
  unfold applyAll
  rw [if_pos hpr, key s.colF s he h1 h2]; rfl

/-! ## Cases -/

/-- Two columns and a column that doubles the first, in a sheet with a row of sums. -/
def ops1 : List (Op Nat Nat Int) :=
  [.value 0 0 1, .value 1 0 5, .colFormula 1 ⟨fun l => 2 * l.sum, [0]⟩, .rowFormula 9 ⟨List.sum, [0, 1]⟩,
   .cellFormula 7 8 ⟨List.sum, [(9, 1)]⟩, .value 0 0 3]

theorem ops1_result : (steps (empty 0 true) ops1).map (fun t => ([0, 1, 9].map fun r => [0, 1].map (t.cell r), t.cell 7 8)) =
    some ([[3, 6], [5, 10], [8, 16]], 16) := by decide

/-- A test for `Good`. -/
def goodB (s : Sheet R C V) : Op R C V → Bool
  | .colFormula c _ => s.colF.all fun e => e.1 ≠ c ∧ c ∉ e.2.args
  | .rowFormula r _ => s.rowF.all fun e => e.1 ≠ r ∧ r ∉ e.2.args
  | .cellFormula r c _ => s.cellF.all fun e => e.1 ≠ (r, c) ∧ (r, c) ∉ e.2.args
  | _ => true

/-- A test for `GoodRun`. -/
def goodRunB (s : Sheet R C V) : List (Op R C V) → Bool
  | [] => true
  | o :: l => goodB s o && match step s o with
    | some s' => goodRunB s' l
    | none => true

theorem goodB_sound (s : Sheet R C V) (o : Op R C V) (h : goodB s o = true) : Good s o := by
  cases o <;> simp only [goodB, Good, List.all_eq_true, decide_eq_true_eq] at h ⊢ <;> exact h

theorem goodRunB_sound (s : Sheet R C V) (l : List (Op R C V)) (h : goodRunB s l = true) : GoodRun s l := by
  induction l generalizing s with
  | nil => trivial
  | cons o l ih =>
    simp only [goodRunB, Bool.and_eq_true] at h
    refine ⟨goodB_sound s o h.1, fun s' hs => ih s' ?_⟩
    have := h.2
    rw [hs] at this
    exact this

example : GoodRun (empty 0 true) ops1 := goodRunB_sound _ _ (by decide)

/-- **C86 (deviation).**  A formula that is referred to before it is added is not up to date after a change. -/
theorem stale : ∃ (ops : List (Op Nat Nat Int)) (t : Sheet Nat Nat Int), steps (empty 0 true) ops = some t ∧ ¬ Sat t := by
  let ops : List (Op Nat Nat Int) := [.value 0 0 1, .value 0 1 0, .colFormula 2 ⟨fun l => 2 * l.sum, [1]⟩, .colFormula 1 ⟨List.sum, [0]⟩, .value 0 0 5]
  obtain ⟨t, ht⟩ : ∃ t, steps (empty 0 true) ops = some t := Option.isSome_iff_exists.mp (by decide)
  refine ⟨ops, t, ht, fun h => ?_⟩
  have k1 : (steps (empty 0 true) ops).map (fun t => (t.cell 0 2, t.cell 0 1, t.rows, t.rowF.length, t.cellF.length)) =
      some (2, 5, [0], 0, 0) := by decide
  rw [ht] at k1
  simp only [Option.map_some, Option.some.injEq, Prod.mk.injEq] at k1
  obtain ⟨c2, c1, cr, cf, cc⟩ := k1
  have hrf := List.length_eq_zero_iff.mp cf
  have hcf := List.length_eq_zero_iff.mp cc
  have k2 : (steps (empty 0 true) ops).map (fun t => t.colF) = some [(2, ⟨fun l => 2 * l.sum, [1]⟩), (1, ⟨List.sum, [0]⟩)] := rfl
  rw [ht] at k2
  simp only [Option.map_some, Option.some.injEq] at k2
  have := h.col (2, ⟨fun l => 2 * l.sum, [1]⟩) (by rw [k2]; exact List.mem_cons_self) 0 (by rw [cr]; exact List.mem_cons_self)
    (fun _ d hd => by rw [hrf] at hd; cases hd) (fun e he => by rw [hcf] at he; cases he) (fun _ _ e he => by rw [hcf] at he; cases he)
  simp [c2, c1] at this

/-- **C86 (deviation).**  A cell formula that refers to another cell of its own row is refused. -/
theorem cell_refuses (s : Sheet R C V) (r : R) (c d : C) (f : List V → V) : step s (.cellFormula r c ⟨f, [(r, d)]⟩) = none := by
  simp [step]

end SC.Excel
