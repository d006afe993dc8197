import Mathlib.Data.List.Basic
/-! # Backtracking regular expressions (trusted specification)

Not part of /repo.  The fragment of Python's `re` used by the project: a sequence of pieces, each
a character class repeated between `lo` and `hi` times, tried greedily (longest first) or lazily
(shortest first), earlier pieces being the outer choice.  `k` is what follows the sequence. -/
namespace SC.Py.Regex

/-- A repeated character class; `grp` is the capture group it belongs to. -/
structure Piece (G : Type) where
  p : Char → Bool
  lo : Nat := 1
  hi : Option Nat := some 1
  greedy : Bool := true
  grp : Option G := none

/-- The lengths from `lo` to `m`, in the order in which they are tried. -/
def order (greedy : Bool) (lo m : Nat) : List Nat :=
  if greedy then (List.range' lo (m + 1 - lo)).reverse else List.range' lo (m + 1 - lo)

/-- The largest possible number of repetitions. -/
def limit (hi : Option Nat) (m : Nat) : Nat :=
  match hi with
  | none => m
  | some h => min h m

/-- The first match in the order of the backtracking search: the text of each piece followed by
what `k` returns for the rest. -/
def run {G : Type} : List (Piece G) → (List Char → Option (List (List Char))) → List Char →
    Option (List (List Char))
  | [], k, s => k s
  | q :: ps, k, s =>
    (order q.greedy q.lo (limit q.hi (s.takeWhile q.p).length)).findSome? (fun n =>
      (run ps k (s.drop n)).map (fun o => s.take n :: o))

/-- `$`: at the end, or before a final newline. -/
def dollar (s : List Char) : Option (List (List Char)) := if s = [] ∨ s = ['\n'] then some [] else none

/-- Characters taken literally. -/
def lit {G : Type} (s : List Char) (g : Option G := none) : List (Piece G) :=
  s.map (fun c => { p := fun x => x == c, grp := g })

/-- `.` -/
def dot (c : Char) : Bool := c != '\n'

/-- `[0-9]` -/
def digit (c : Char) : Bool := c.isDigit

/-- `m.groupdict()[g]` -/
def group {G : Type} [DecidableEq G] (g : G) (ps : List (Piece G)) (texts : List (List Char)) : List Char :=
  ((ps.zip texts).filter (fun x => decide (x.1.grp = some g))).flatMap (fun x => x.2)

/-! ## What a match is, without reference to the search -/

/-- The text `t` fits piece `q`. -/
def Piece.Fits {G : Type} (q : Piece G) (t : List Char) : Prop :=
  (∀ c ∈ t, q.p c = true) ∧ q.lo ≤ t.length ∧ ∀ h, q.hi = some h → t.length ≤ h

/-- `s` splits into texts fitting the pieces and a rest `r`. -/
def Fits {G : Type} : List (Piece G) → List Char → List (List Char) → List Char → Prop
  | [], s, ts, r => ts = [] ∧ s = r
  | q :: ps, s, ts, r => ∃ t ts' s', ts = t :: ts' ∧ s = t ++ s' ∧ q.Fits t ∧ Fits ps s' ts' r

theorem mem_order {g : Bool} {lo m n : Nat} : n ∈ order g lo m ↔ lo ≤ n ∧ n ≤ m := by
  unfold order
  split
  · rw [List.mem_reverse, List.mem_range'_1]; omega
  · rw [List.mem_range'_1]; omega

theorem take_all_iff {p : Char → Bool} {s : List Char} {n : Nat} (hn : n ≤ s.length) :
    (∀ c ∈ s.take n, p c = true) ↔ n ≤ (s.takeWhile p).length := by
  induction s generalizing n with
  | nil => simp at hn; subst hn; simp
  | cons a s ih =>
    cases n with
    | zero => simp
    | succ n =>
      simp only [List.length_cons, Nat.add_le_add_iff_right] at hn
      simp only [List.take_succ_cons, List.mem_cons, forall_eq_or_imp, ih hn, List.takeWhile_cons]
      cases hp : p a
      · simp
      · simp

theorem fits_take {G : Type} (q : Piece G) (s : List Char) (n : Nat) :
    (n ≤ s.length ∧ q.Fits (s.take n)) ↔ (q.lo ≤ n ∧ n ≤ limit q.hi (s.takeWhile q.p).length) := by
  have hle : (s.takeWhile q.p).length ≤ s.length := (List.takeWhile_prefix q.p).length_le
  have key : n ≤ limit q.hi (s.takeWhile q.p).length ↔
      n ≤ (s.takeWhile q.p).length ∧ ∀ h, q.hi = some h → n ≤ h := by
    cases hh : q.hi with
    | none => simp [limit]
    | some h => simp only [limit, Option.some.injEq, forall_eq']; omega
  rw [key]
  constructor
  · rintro ⟨h1, h2, h3, h4⟩
    rw [take_all_iff h1] at h2
    rw [List.length_take, Nat.min_eq_left h1] at h3 h4
    exact ⟨h3, h2, h4⟩
  · rintro ⟨h1, h2, h3⟩
    have h4 : n ≤ s.length := Nat.le_trans h2 hle
    refine ⟨h4, (take_all_iff h4).2 h2, ?_, ?_⟩
    · rw [List.length_take, Nat.min_eq_left h4]; exact h1
    · rw [List.length_take, Nat.min_eq_left h4]; exact h3

/-- A found match is a match. -/
theorem run_sound {G : Type} (ps : List (Piece G)) (k : List Char → Option (List (List Char)))
    (s : List Char) (o : List (List Char)) (h : run ps k s = some o) :
    ∃ ts r o', o = ts ++ o' ∧ Fits ps s ts r ∧ k r = some o' := by
  induction ps generalizing s o with
  | nil => exact ⟨[], s, o, rfl, ⟨rfl, rfl⟩, h⟩
  | cons q ps ih =>
    simp only [run] at h
    obtain ⟨n, hn, hr⟩ := List.exists_of_findSome?_eq_some h
    rw [Option.map_eq_some_iff] at hr
    obtain ⟨o1, h1, rfl⟩ := hr
    obtain ⟨ts, r, o', rfl, hf, hk⟩ := ih _ _ h1
    have := (fits_take q s n).2 (mem_order.1 hn)
    exact ⟨s.take n :: ts, r, o', rfl, ⟨s.take n, ts, s.drop n, rfl, (List.take_append_drop n s).symm, this.2, hf⟩, hk⟩

/-- If there is a match, one is found. -/
theorem run_complete {G : Type} (ps : List (Piece G)) (k : List Char → Option (List (List Char)))
    (s : List Char) (ts : List (List Char)) (r : List Char) (h : Fits ps s ts r) (hk : (k r).isSome) :
    (run ps k s).isSome := by
  induction ps generalizing s ts with
  | nil => obtain ⟨_, rfl⟩ := h; exact hk
  | cons q ps ih =>
    obtain ⟨t, ts', s', rfl, rfl, hq, hf⟩ := h
    simp only [run, List.findSome?_isSome_iff]
    refine ⟨t.length, ?_, ?_⟩
    · rw [mem_order, ← fits_take]
      refine ⟨by simp, ?_⟩
      simpa using hq
    · simpa using ih _ _ hf

theorem run_none {G : Type} (ps : List (Piece G)) (k : List Char → Option (List (List Char)))
    (s : List Char) (h : ∀ ts r, Fits ps s ts r → k r = none) : run ps k s = none := by
  cases hr : run ps k s with
  | none => rfl
  | some o =>
    obtain ⟨ts, r, o', _, hf, hk⟩ := run_sound ps k s o hr
    rw [h ts r hf] at hk
    exact absurd hk (by simp)

/-- With a single possible match, that is what is found. -/
theorem run_unique {G : Type} (ps : List (Piece G)) (k : List Char → Option (List (List Char)))
    (s : List Char) (ts : List (List Char)) (r : List Char) (o : List (List Char)) (h : Fits ps s ts r)
    (hk : k r = some o)
    (hu : ∀ ts' r', Fits ps s ts' r' → (k r').isSome → ts' = ts ∧ r' = r) : run ps k s = some (ts ++ o) := by
  have h1 := run_complete ps k s ts r h (by rw [hk]; rfl)
  obtain ⟨o1, ho1⟩ := Option.isSome_iff_exists.1 h1
  obtain ⟨ts', r', o', rfl, hf, hk'⟩ := run_sound ps k s o1 ho1
  obtain ⟨rfl, rfl⟩ := hu ts' r' hf (by rw [hk']; rfl)
  rw [hk] at hk'
  cases hk'
  exact ho1

theorem order_split {l : List Nat} {f : Nat → Option (List (List Char))} {o : List (List Char)}
    (h : l.findSome? f = some o) : ∃ l1 n l2, l = l1 ++ n :: l2 ∧ f n = some o ∧ ∀ x ∈ l1, f x = none := by
  induction l with
  | nil => simp at h
  | cons a l ih =>
    rw [List.findSome?_cons] at h
    cases ha : f a with
    | some v => rw [ha] at h; exact ⟨[], a, l, rfl, by rw [ha]; exact h, by simp⟩
    | none =>
      rw [ha] at h
      obtain ⟨l1, n, l2, rfl, h1, h2⟩ := ih h
      exact ⟨a :: l1, n, l2, rfl, h1, by
        intro x hx
        rcases List.mem_cons.1 hx with rfl | hx
        · exact ha
        · exact h2 x hx⟩

/-- A greedy first piece takes the longest text with which the rest can match. -/
theorem run_greedy {G : Type} (q : Piece G) (ps : List (Piece G)) (hq : q.greedy = true)
    (k : List Char → Option (List (List Char))) (s t : List Char) (o : List (List Char))
    (h : run (q :: ps) k s = some (t :: o)) (t' : List Char) (ts' : List (List Char)) (r' : List Char)
    (hf : Fits (q :: ps) s (t' :: ts') r') (hk : (k r').isSome) : t'.length ≤ t.length := by
  obtain ⟨t1, ts1, s', he, rfl, hq', hf'⟩ := hf
  cases he
  simp only [run] at h
  obtain ⟨l1, n, l2, hl, hn, hno⟩ := order_split h
  rw [Option.map_eq_some_iff] at hn
  obtain ⟨o1, _, ho1⟩ := hn
  simp only [List.cons.injEq] at ho1
  have hmem : t'.length ∈ order q.greedy q.lo (limit q.hi ((t' ++ s').takeWhile q.p).length) := by
    rw [mem_order, ← fits_take]
    exact ⟨by simp, by simpa using hq'⟩
  have hnmem : n ∈ order q.greedy q.lo (limit q.hi ((t' ++ s').takeWhile q.p).length) := by
    rw [hl]; simp
  have hnlen : n = t.length := by
    have := (fits_take q (t' ++ s') n).2 (mem_order.1 hnmem)
    rw [← ho1.1, List.length_take, Nat.min_eq_left this.1]
  have hsorted : (order q.greedy q.lo (limit q.hi ((t' ++ s').takeWhile q.p).length)).Pairwise (· > ·) := by
    simp only [order, hq, if_true, List.pairwise_reverse]
    exact List.pairwise_lt_range'
  rw [hl] at hmem hsorted
  rcases List.mem_append.1 hmem with hm | hm
  · have h1 := hno _ hm
    have h2 := run_complete ps k s' ts' r' hf' hk
    simp only [List.drop_left, Option.map_eq_none_iff] at h1
    rw [h1] at h2
    simp at h2
  · rcases List.mem_cons.1 hm with he | hm
    · omega
    · have := (List.pairwise_append.1 hsorted).2.1
      rw [List.pairwise_cons] at this
      have := this.1 _ hm
      omega

/-- A lazy first piece takes the shortest text with which the rest can match. -/
theorem run_lazy {G : Type} (q : Piece G) (ps : List (Piece G)) (hq : q.greedy = false)
    (k : List Char → Option (List (List Char))) (s t : List Char) (o : List (List Char))
    (h : run (q :: ps) k s = some (t :: o)) (t' : List Char) (ts' : List (List Char)) (r' : List Char)
    (hf : Fits (q :: ps) s (t' :: ts') r') (hk : (k r').isSome) : t.length ≤ t'.length := by
  obtain ⟨t1, ts1, s', he, rfl, hq', hf'⟩ := hf
  cases he
  simp only [run] at h
  obtain ⟨l1, n, l2, hl, hn, hno⟩ := order_split h
  rw [Option.map_eq_some_iff] at hn
  obtain ⟨o1, _, ho1⟩ := hn
  simp only [List.cons.injEq] at ho1
  have hmem : t'.length ∈ order q.greedy q.lo (limit q.hi ((t' ++ s').takeWhile q.p).length) := by
    rw [mem_order, ← fits_take]
    exact ⟨by simp, by simpa using hq'⟩
  have hnmem : n ∈ order q.greedy q.lo (limit q.hi ((t' ++ s').takeWhile q.p).length) := by
    rw [hl]; simp
  have hnlen : n = t.length := by
    have := (fits_take q (t' ++ s') n).2 (mem_order.1 hnmem)
    rw [← ho1.1, List.length_take, Nat.min_eq_left this.1]
  have hsorted : (order q.greedy q.lo (limit q.hi ((t' ++ s').takeWhile q.p).length)).Pairwise (· < ·) := by
    simp only [order, hq, Bool.false_eq_true, if_false]
    exact List.pairwise_lt_range'
  rw [hl] at hmem hsorted
  rcases List.mem_append.1 hmem with hm | hm
  · have h1 := hno _ hm
    have h2 := run_complete ps k s' ts' r' hf' hk
    simp only [List.drop_left, Option.map_eq_none_iff] at h1
    rw [h1] at h2
    simp at h2
  · rcases List.mem_cons.1 hm with he | hm
    · omega
    · have := (List.pairwise_append.1 hsorted).2.1
      rw [List.pairwise_cons] at this
      have := this.1 _ hm
      omega

theorem fits_append {G : Type} (p1 p2 : List (Piece G)) (s : List Char) (ts : List (List Char)) (r : List Char) :
    Fits (p1 ++ p2) s ts r ↔ ∃ t1 t2 m, ts = t1 ++ t2 ∧ Fits p1 s t1 m ∧ Fits p2 m t2 r := by
  induction p1 generalizing s ts with
  | nil =>
    constructor
    · intro h; exact ⟨[], ts, s, rfl, ⟨rfl, rfl⟩, h⟩
    · rintro ⟨t1, t2, m, rfl, ⟨rfl, rfl⟩, h⟩; exact h
  | cons q p1 ih =>
    constructor
    · rintro ⟨t, ts', s', rfl, rfl, hq, hf⟩
      obtain ⟨t1, t2, m, rfl, h1, h2⟩ := (ih _ _).1 hf
      exact ⟨t :: t1, t2, m, rfl, ⟨t, t1, s', rfl, rfl, hq, h1⟩, h2⟩
    · rintro ⟨_, t2, m, rfl, ⟨t, t1, s', rfl, rfl, hq, h1⟩, h2⟩
      exact ⟨t, t1 ++ t2, s', rfl, rfl, hq, (ih _ _).2 ⟨t1, t2, m, rfl, h1, h2⟩⟩

theorem fits_lit {G : Type} (w : List Char) (g : Option G) (s : List Char) (ts : List (List Char)) (r : List Char) :
    Fits (lit w g) s ts r ↔ ts = w.map (fun c => [c]) ∧ s = w ++ r := by
  induction w generalizing s ts with
  | nil => simp [lit, Fits]
  | cons c w ih =>
    have ih' := ih
    simp only [lit] at ih'
    simp only [lit, List.map_cons, Fits, ih', List.cons_append]
    constructor
    · rintro ⟨t, ts', s', rfl, rfl, ⟨h1, h2, h3⟩, rfl, rfl⟩
      have hl : t.length = 1 := by have := h3 1 rfl; simp only at h2; omega
      obtain ⟨d, rfl⟩ := List.length_eq_one_iff.1 hl
      have := h1 d (by simp)
      simp only [beq_iff_eq] at this
      subst this
      simp
    · rintro ⟨rfl, rfl⟩
      refine ⟨[c], _, _, rfl, rfl, ⟨by simp, by simp, by simp⟩, rfl, rfl⟩

theorem fits_one {G : Type} (q : Piece G) (s : List Char) (ts : List (List Char)) (r : List Char) :
    Fits [q] s ts r ↔ ∃ t, ts = [t] ∧ s = t ++ r ∧ q.Fits t := by
  simp only [Fits]
  constructor
  · rintro ⟨t, ts', s', rfl, rfl, hq, rfl, rfl⟩; exact ⟨t, rfl, rfl, hq⟩
  · rintro ⟨t, rfl, rfl, hq⟩; exact ⟨t, [], r, rfl, rfl, hq, rfl, rfl⟩

theorem fits_cons {G : Type} (q : Piece G) (ps : List (Piece G)) (s : List Char) (ts : List (List Char)) (r : List Char) :
    Fits (q :: ps) s ts r ↔ ∃ t ts' s', ts = t :: ts' ∧ s = t ++ s' ∧ q.Fits t ∧ Fits ps s' ts' r := Iff.rfl

theorem fits_single {G : Type} (q : Piece G) (h1 : q.lo = 1) (h2 : q.hi = some 1) (t : List Char) :
    q.Fits t ↔ ∃ c, t = [c] ∧ q.p c = true := by
  constructor
  · rintro ⟨ha, hb, hc⟩
    have hl : t.length = 1 := by have := hc 1 h2; omega
    obtain ⟨d, rfl⟩ := List.length_eq_one_iff.1 hl
    exact ⟨d, rfl, ha d (by simp)⟩
  · rintro ⟨c, rfl, h⟩
    exact ⟨by simpa using h, by simp [h1], by intro h hh; rw [h2] at hh; cases hh; simp⟩

theorem dollar_isSome (s : List Char) : (dollar s).isSome ↔ s = [] ∨ s = ['\n'] := by
  unfold dollar; split <;> simp_all

theorem dollar_eq {s : List Char} {o : List (List Char)} : dollar s = some o ↔ (s = [] ∨ s = ['\n']) ∧ o = [] := by
  unfold dollar; split <;> simp_all [eq_comm]

end SC.Py.Regex
