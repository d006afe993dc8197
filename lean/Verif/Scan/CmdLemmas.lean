import Verif.Scan.CmdSpec
import Mathlib.Tactic.Ring
import Mathlib.Tactic.FieldSimp
import Mathlib.Tactic.NormNum
import Mathlib.Data.Rat.Cast.Defs
/-! # Lemmas for C51 -/
namespace SC.Scan
open SC.Py.Regex

/-! ## The search -/

theorem run_append {G : Type} (p q : List (Piece G)) (k : List Char → Option (List (List Char))) (s : List Char) :
    run (p ++ q) k s = run p (run q k) s := by
  induction p generalizing s with
  | nil => rfl
  | cons a p ih => simp only [List.cons_append, run, ih]

/-- The longest possibility, when the rest can match after it. -/
theorem run_longest {G : Type} (q : Piece G) (ps : List (Piece G)) (k : List Char → Option (List (List Char)))
    (t r : Str) (o : List (List Char)) (hg : q.greedy = true) (hlo : q.lo ≤ t.length)
    (hl : limit q.hi ((t ++ r).takeWhile q.p).length = t.length) (h : run ps k r = some o) :
    run (q :: ps) k (t ++ r) = some (t :: o) := by
  simp only [run, hl, hg, order, if_true]
  have : t.length + 1 - q.lo = (t.length - q.lo) + 1 := by omega
  rw [this, List.range'_concat, List.reverse_append, List.reverse_singleton, List.singleton_append,
    List.findSome?_cons]
  have e : q.lo + 1 * (t.length - q.lo) = t.length := by omega
  rw [e, List.drop_left, List.take_left, h]
  rfl

/-- The possibility with one character less, when the rest cannot match after the longest. -/
theorem run_second {G : Type} (q : Piece G) (ps : List (Piece G)) (k : List Char → Option (List (List Char)))
    (t : Str) (c : Char) (r : Str) (o : List (List Char)) (hg : q.greedy = true) (hlo : q.lo ≤ t.length)
    (hl : limit q.hi ((t ++ c :: r).takeWhile q.p).length = t.length + 1) (hno : run ps k r = none)
    (h : run ps k (c :: r) = some o) :
    run (q :: ps) k (t ++ c :: r) = some (t :: o) := by
  simp only [run, hl, hg, order, if_true]
  have : t.length + 1 + 1 - q.lo = (t.length - q.lo) + 1 + 1 := by omega
  rw [this, List.range'_concat, List.reverse_append, List.reverse_singleton, List.singleton_append,
    List.findSome?_cons, List.range'_concat, List.reverse_append, List.reverse_singleton, List.singleton_append,
    List.findSome?_cons]
  have e : q.lo + 1 * (t.length - q.lo) = t.length := by omega
  have e2 : q.lo + 1 * (t.length - q.lo + 1) = t.length + 1 := by omega
  have e3 : (t ++ c :: r).drop (t.length + 1) = r := by
    rw [List.drop_append]; simp
  rw [e2, e3, hno, e, List.drop_left, List.take_left, h]
  rfl

theorem takeWhile_stop (p : Char → Bool) (t r : Str) (ht : ∀ c ∈ t, p c = true) (hr : ∀ c ∈ r.head?, p c = false) :
    (t ++ r).takeWhile p = t := by
  induction t with
  | nil =>
    cases r with
    | nil => rfl
    | cons c r => simp [hr c (by simp)]
  | cons a t ih =>
    simp only [List.cons_append, List.takeWhile_cons, ht a (by simp), if_true]
    rw [ih (fun c hc => ht c (by simp [hc]))]

/-- `p+` or `p*` takes all of `t`. -/
theorem run_many {G : Type} (q : Piece G) (ps : List (Piece G)) (k : List Char → Option (List (List Char)))
    (t r : Str) (o : List (List Char)) (hg : q.greedy = true) (hhi : q.hi = none) (hlo : q.lo ≤ t.length)
    (ht : ∀ c ∈ t, q.p c = true) (hr : ∀ c ∈ r.head?, q.p c = false) (h : run ps k r = some o) :
    run (q :: ps) k (t ++ r) = some (t :: o) := by
  apply run_longest q ps k t r o hg hlo _ h
  rw [takeWhile_stop _ _ _ ht hr, hhi]; rfl

/-- A literal word. -/
theorem run_lit {G : Type} (w : Str) (g : Option G) (ps : List (Piece G)) (k : List Char → Option (List (List Char)))
    (r : Str) (o : List (List Char)) (h : run ps k r = some o) :
    run (lit w g ++ ps) k (w ++ r) = some (w.map (fun c => [c]) ++ o) := by
  induction w with
  | nil => exact h
  | cons c w ih =>
    simp only [lit, List.map_cons, List.cons_append] at ih ⊢
    have := run_longest ({ p := fun x => x == c, grp := g } : Piece G) _ k [c] (w ++ r) _ rfl (by simp)
      (by simp [limit]) ih
    simpa using this

/-! ## Fields -/

theorem digit_not_sign {c : Char} (h : c.isDigit = true) : isSign c = false := by
  unfold isSign
  rcases Decidable.em (c = '+') with e | e
  · subst e; simp at h
  · rcases Decidable.em (c = '-') with e2 | e2
    · subst e2; simp at h
    · simp [e, e2]

theorem run_cons_none {G : Type} (q : Piece G) (ps : List (Piece G)) (k : List Char → Option (List (List Char)))
    (s : Str) (h : ∀ n, q.lo ≤ n → n ≤ limit q.hi (s.takeWhile q.p).length → run ps k (s.drop n) = none) :
    run (q :: ps) k s = none := by
  simp only [run, List.findSome?_eq_none_iff]
  intro n hn
  rw [mem_order] at hn
  rw [h n hn.1 hn.2]; rfl

/-- The sign. -/
theorem run_sign (g : Option G) (ps : List (Piece G)) (k : List Char → Option (List (List Char)))
    (sg r : Str) (o : List (List Char)) (hs : IsSign sg) (hr : ∀ c ∈ r.head?, isSign c = false)
    (h : run ps k r = some o) :
    run ({ p := isSign, lo := 0, grp := g } :: ps) k (sg ++ r) = some (sg :: o) := by
  apply run_longest _ _ _ _ _ _ rfl (Nat.zero_le _) _ h
  rw [takeWhile_stop _ _ _ _ hr]
  · rcases hs with rfl | rfl | rfl <;> rfl
  · rcases hs with rfl | rfl | rfl <;> simp [isSign]

/-- A number with a point. -/
theorem run_decimal (g : Option G) (ps : List (Piece G)) (k : List Char → Option (List (List Char)))
    (sg w f r : Str) (o : List (List Char)) (hs : IsSign sg) (hw : ∀ c ∈ w, c.isDigit = true)
    (hf : ∀ c ∈ f, c.isDigit = true) (hne : f ≠ []) (hr : ∀ c ∈ r.head?, c.isDigit = false)
    (h : run ps k r = some o) :
    run (Kind.float.pieces g ++ ps) k (sg ++ w ++ '.' :: f ++ r) = some ([sg, w, ['.'], f] ++ o) := by
  have h4 := run_many ({ p := digit, hi := none, grp := g } : Piece G) ps k f r o rfl rfl
    (List.length_pos_iff.mpr hne) hf hr h
  have h3 := run_longest ({ p := fun c => c == '.', lo := 0, grp := g } : Piece G) _ k ['.'] (f ++ r) _ rfl
    (Nat.zero_le _) (by
      rw [takeWhile_stop]
      · rfl
      · simp
      · cases f with
        | nil => exact absurd rfl hne
        | cons a f =>
          intro c hc
          simp only [List.cons_append, List.head?_cons, Option.mem_def, Option.some.injEq] at hc
          subst hc
          have := hf a (by simp)
          simp only [beq_eq_false_iff_ne, ne_eq]
          rintro rfl
          simp at this) h4
  have h2 := run_many ({ p := digit, lo := 0, hi := none, grp := g } : Piece G) _ k w (['.'] ++ (f ++ r)) _ rfl rfl
    (Nat.zero_le _) hw (by simp [digit]) h3
  have h1 := run_sign g _ k sg (w ++ (['.'] ++ (f ++ r))) _ hs (by
    cases w with
    | nil => simp [isSign]
    | cons a w =>
      intro c hc
      simp only [List.cons_append, List.head?_cons, Option.mem_def, Option.some.injEq] at hc
      subst hc
      exact digit_not_sign (hw a (by simp))) h2
  simpa [Kind.pieces] using h1

/-- A number without point. -/
theorem run_whole (g : Option G) (ps : List (Piece G)) (k : List Char → Option (List (List Char)))
    (sg w : Str) (c : Char) (r : Str) (o : List (List Char)) (hs : IsSign sg) (hw : ∀ c ∈ w, c.isDigit = true)
    (hc : c.isDigit = true) (hr : ∀ c ∈ r.head?, c.isDigit = false)
    (hp : ∀ c, r.head? = some '.' → r[1]? = some c → c.isDigit = false)
    (h : run ps k r = some o) :
    run (Kind.float.pieces g ++ ps) k (sg ++ w ++ c :: r) = some ([sg, w, [], [c]] ++ o) := by
  have hdot : c ≠ '.' := by rintro rfl; simp at hc
  have last : ∀ s : Str, (∀ c ∈ s.head?, c.isDigit = false) →
      run (({ p := digit, hi := none, grp := g } : Piece G) :: ps) k s = none := by
    intro s hs
    apply run_cons_none
    intro n h1 h2
    have : s.takeWhile digit = [] := takeWhile_stop digit [] s (by simp) hs
    simp only [this, limit, List.length_nil] at h2
    simp only at h1
    omega
  have h4 := run_many ({ p := digit, hi := none, grp := g } : Piece G) ps k [c] r o rfl rfl
    (by simp) (by simpa [digit] using hc) hr h
  have h3 := run_longest ({ p := fun c => c == '.', lo := 0, grp := g } : Piece G) _ k [] ([c] ++ r) _ rfl
    (Nat.zero_le _) (by simp [limit, hdot]) h4
  have hno : run (({ p := fun c => c == '.', lo := 0, grp := g } : Piece G) ::
      ({ p := digit, hi := none, grp := g } : Piece G) :: ps) k r = none := by
    apply run_cons_none
    intro n h1 h2
    apply last
    rcases Nat.eq_zero_or_pos n with rfl | hn
    · simpa using hr
    · cases r with
      | nil => simp
      | cons a r =>
        have ha : a = '.' := by
          rcases Decidable.em (a = '.') with e | e
          · exact e
          · simp only [limit, List.takeWhile_cons, beq_iff_eq, e, if_false, List.length_nil] at h2
            omega
        have hn1 : n = 1 := by
          simp only [limit] at h2
          omega
        subst hn1
        subst ha
        intro d hd
        refine hp d rfl ?_
        cases r with
        | nil => simp at hd
        | cons b r => simpa using hd
  have h2 := run_second ({ p := digit, lo := 0, hi := none, grp := g } : Piece G) _ k w c r _ rfl
    (Nat.zero_le _) (by
      have e : w ++ c :: r = (w ++ [c]) ++ r := by simp
      rw [e, takeWhile_stop]
      · simp [limit]
      · intro x hx
        rcases List.mem_append.mp hx with hx | hx
        · exact hw x hx
        · simp only [List.mem_singleton] at hx; subst hx; exact hc
      · exact hr) hno h3
  have h1 := run_sign g _ k sg (w ++ c :: r) _ hs (by
    intro x hx
    cases w with
    | nil =>
      simp only [List.nil_append, List.head?_cons, Option.mem_def, Option.some.injEq] at hx
      subst hx; exact digit_not_sign hc
    | cons a w =>
      simp only [List.cons_append, List.head?_cons, Option.mem_def, Option.some.injEq] at hx
      subst hx
      exact digit_not_sign (hw a (by simp))) h2
  simpa [Kind.pieces] using h1

theorem flatten_single (t : Str) : (t.map (fun c => [c])).flatten = t := by
  induction t with
  | nil => rfl
  | cons a t ih => simp only [List.map_cons, List.flatten_cons, ih, List.singleton_append]

/-- Any field that cannot be made longer. -/
theorem run_field (kd : Kind) (g : Option G) (ps : List (Piece G)) (k : List Char → Option (List (List Char)))
    (t r : Str) (o : List (List Char)) (hok : kd.Ok t) (hst : kd.Stops t r) (h : run ps k r = some o) :
    ∃ txt : List (List Char), txt.length = (kd.pieces g).length ∧ txt.flatten = t ∧
      run (kd.pieces g ++ ps) k (t ++ r) = some (txt ++ o) := by
  cases kd with
  | word w =>
    simp only [Kind.Ok] at hok
    subst hok
    exact ⟨t.map (fun c => [c]), by simp [Kind.pieces, lit], flatten_single t, run_lit t g ps k r o h⟩
  | motor =>
    refine ⟨[t], rfl, by simp, ?_⟩
    exact run_many _ ps k t r o rfl rfl (List.length_pos_iff.mpr hok.1) hok.2 hst h
  | motornum =>
    refine ⟨[t], rfl, by simp, ?_⟩
    exact run_many _ ps k t r o rfl rfl (List.length_pos_iff.mpr hok.1) hok.2 hst h
  | int =>
    refine ⟨[t], rfl, by simp, ?_⟩
    exact run_many _ ps k t r o rfl rfl (List.length_pos_iff.mpr hok.1) hok.2 hst h
  | float =>
    obtain ⟨q, sg, w, f, hs, hw, hf, ht, _⟩ := hok
    rcases ht with ⟨_, hne, rfl⟩ | ⟨hne, rfl⟩
    · obtain ⟨w', c, rfl⟩ : ∃ w' c, w = w' ++ [c] := ⟨w.dropLast, w.getLast hne, (List.dropLast_append_getLast hne).symm⟩
      have hnd : '.' ∉ sg ++ (w' ++ [c]) := by
        intro hm
        rcases List.mem_append.mp hm with hm | hm
        · rcases hs with rfl | rfl | rfl <;> simp at hm
        · have := hw _ hm; simp at this
      refine ⟨[sg, w', [], [c]], rfl, by simp, ?_⟩
      have := run_whole g ps k sg w' c r o hs (fun x hx => hw x (by simp [hx])) (hw c (by simp)) hst.1 (hst.2 hnd) h
      simpa using this
    · refine ⟨[sg, w, ['.'], f], rfl, by simp, ?_⟩
      exact run_decimal g ps k sg w f r o hs hw hf hne hst.1 h

end SC.Scan
