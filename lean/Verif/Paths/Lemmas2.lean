import Verif.Paths.Lemmas
/-! # More lemmas on paths -/

namespace SC.Paths

theorem is_render {k : Nat} {l : List Str} (hk : k = 1 ∨ k = 2) (hl : ∀ n ∈ l, Name n) : Is (render k l) k l := ⟨rfl, hk, hl⟩

theorem Is.isabs {p : Str} {k : Nat} {l : List Str} (h : Is p k l) : isabs p = true := by
  rw [h.eq]
  exact isabs_render h.root l

theorem split_is {p : Str} {k : Nat} {l : List Str} (h : Is p k l) (base : List Str) : follow base (split p) = base ++ l := by
  rw [h.eq]
  unfold render
  rw [split_render, follow_empty, follow_split_glue h.names]

/-- The text determines root and names. -/
theorem Is.inj {p : Str} {k k' : Nat} {l l' : List Str} (h : Is p k l) (h' : Is p k' l') : k = k' ∧ l = l' := by
  constructor
  · have e := h.eq.symm.trans h'.eq
    have := congrArg slashes e
    unfold render at this
    rwa [slashes_render h.root (glue_head h.names), slashes_render h'.root (glue_head h'.names)] at this
  · have h1 := split_is h []
    rw [split_is h'] at h1
    simpa using h1.symm

theorem Is.name_dropLast {p : Str} {k : Nat} {l : List Str} (h : Is p k l) : ∀ n ∈ l.dropLast, Name n :=
  fun n hn => h.names n (List.dropLast_subset _ hn)

theorem split_dots : split dots = [dots] := split_plain (by simp [dots])

theorem parent_is (cwd : Str) {p : Str} {k : Nat} {l : List Str} (h : Is p k l) : Is (parent cwd p) k l.dropLast := by
  have := getitem_is cwd h (v := dots) rfl
  rwa [split_dots, follow_dots] at this

/-! ## `relpath` -/

theorem parts_is {p : Str} {k : Nat} {l : List Str} (h : Is p k l) : parts p = l := by
  rw [h.eq]
  unfold parts render
  rw [split_render, List.filter_append, List.filter_replicate]
  simp only [List.isEmpty_nil, Bool.not_true, Bool.false_eq_true, if_false, List.nil_append]
  rcases l with _ | ⟨x, l⟩
  · simp [glue, split]
  · rw [split_glue (fun x hx => (h.names x hx).2.1) (by simp), List.filter_eq_self]
    intro n hn
    have := (h.names n hn).1
    simpa using this

theorem abspath_is (cwd : Str) {p : Str} {k : Nat} {l : List Str} (h : Is p k l) : abspath cwd p = p := by
  unfold abspath
  rw [h.isabs, if_pos rfl, h.eq, normpath_render h.root h.names]

theorem common_le (a b : List Str) : common a b ≤ a.length := by
  induction a generalizing b with
  | nil => simp [common]
  | cons x a ih =>
    cases b with
    | nil => simp [common]
    | cons y b =>
      simp only [common]
      split
      · have := ih b; simp; omega
      · simp

theorem common_take (a b : List Str) : a.take (common a b) = b.take (common a b) := by
  induction a generalizing b with
  | nil => simp [common]
  | cons x a ih =>
    cases b with
    | nil => simp [common]
    | cons y b =>
      simp only [common]
      split
      · rename_i h; subst h; simp [ih b]
      · simp

/-- No further names agree. -/
theorem common_max (a b c : List Str) (ha : c <+: a) (hb : c <+: b) : c.length ≤ common a b := by
  induction c generalizing a b with
  | nil => simp
  | cons z c ih =>
    cases a with
    | nil => simp at ha
    | cons x a =>
      cases b with
      | nil => simp at hb
      | cons y b =>
        rw [List.cons_prefix_cons] at ha hb
        obtain ⟨rfl, ha⟩ := ha
        obtain ⟨rfl, hb⟩ := hb
        simp only [common, if_true]
        have := ih a b ha hb
        simp; omega

theorem split_fold (x : Str) (l : List Str) (hx : x ≠ []) (hx' : x.getLast? ≠ some '/')
    (hl : ∀ y ∈ l, '/' ∉ y ∧ y ≠ []) : split (l.foldl join x) = split x ++ l ∧ isabs (l.foldl join x) = isabs x := by
  induction l generalizing x with
  | nil => simp
  | cons y l ih =>
    obtain ⟨hy, hy'⟩ := hl y (by simp)
    have hj : join x y = x ++ '/' :: y := by
      have : isabs y = false := by
        rcases y with _ | ⟨c, y⟩
        · rfl
        · have hc : c ≠ '/' := fun e => hy (by simp [e])
          simp [isabs, hc]
      simp [join, this, hx, hx']
    rw [List.foldl_cons, hj]
    obtain ⟨h1, h2⟩ := ih (x ++ '/' :: y) (by simp) (by
      rw [List.getLast?_append]
      intro h
      have e : ('/' :: y).getLast? = y.getLast? := by
        rcases y with _ | ⟨c, y⟩
        · exact absurd rfl hy'
        · rw [List.getLast?_cons_cons]
      rw [e] at h
      rcases hn : y.getLast? with _ | c
      · exact hy' (List.getLast?_eq_none_iff.1 hn)
      · rw [hn] at h
        simp only [Option.some_or, Option.some.injEq] at h
        subst h
        exact hy (List.mem_of_getLast? hn)) (fun z hz => hl z (by simp [hz]))
    refine ⟨?_, ?_⟩
    · rw [h1, split_append, split_plain hy]; simp
    · rw [h2]
      rcases x with _ | ⟨c, x⟩
      · exact absurd rfl hx
      · by_cases hc : c = '/'
        · subst hc; rfl
        · simp [isabs, hc]

theorem relpath_parts (cwd : Str) {p q : Str} {k k' : Nat} {l m : List Str} (hp : Is p k l) (hq : Is q k' m) :
    isabs (relpath cwd q p) = false ∧
      ∀ base, follow base (split (relpath cwd q p)) =
        follow base (List.replicate (l.length - common l m) dots ++ m.drop (common l m)) := by
  unfold relpath
  rw [abspath_is cwd hp, abspath_is cwd hq, parts_is hp, parts_is hq]
  dsimp only
  have hall : ∀ y ∈ List.replicate (l.length - common l m) dots ++ m.drop (common l m), '/' ∉ y ∧ y ≠ [] := by
    intro y hy
    rcases List.mem_append.1 hy with hy | hy
    · rw [(List.mem_replicate.1 hy).2]; simp [dots]
    · have := hq.names y (List.mem_of_mem_drop hy)
      exact ⟨this.2.1, this.1⟩
  revert hall
  generalize List.replicate (l.length - common l m) dots ++ m.drop (common l m) = r
  intro hall
  rcases r with _ | ⟨x, r⟩
  · exact ⟨rfl, fun base => by simp [split, dot, follow]⟩
  · obtain ⟨hx1, hx2⟩ := hall x (by simp)
    have hlast : x.getLast? ≠ some '/' := fun h => hx1 (List.mem_of_getLast? h)
    obtain ⟨h1, h2⟩ := split_fold x r hx2 hlast (fun y hy => hall y (by simp [hy]))
    refine ⟨?_, fun base => ?_⟩
    · show isabs (r.foldl join x) = false
      rw [h2]
      rcases x with _ | ⟨c, x⟩
      · rfl
      · have hc : c ≠ '/' := fun e => hx1 (by simp [e])
        simp [isabs, hc]
    · show follow base (split (r.foldl join x)) = _
      rw [h1, split_plain hx1]
      rfl

/-! ## Ancestors -/

/-- The prefixes, longest first. -/
def ups : List Str → Nat → List (List Str)
  | l, 0 => [l.take 0]
  | l, n + 1 => l.take (n + 1) :: ups l n

theorem mem_ups (l : List Str) (n : Nat) (x : List Str) : x ∈ ups l n ↔ ∃ i ≤ n, x = l.take i := by
  induction n with
  | zero => simp [ups]
  | succ n ih =>
    simp only [ups, List.mem_cons, ih]
    constructor
    · rintro (rfl | ⟨i, hi, rfl⟩)
      · exact ⟨n + 1, Nat.le_refl _, rfl⟩
      · exact ⟨i, by omega, rfl⟩
    · rintro ⟨i, hi, rfl⟩
      by_cases h : i = n + 1
      · exact Or.inl (by rw [h])
      · exact Or.inr ⟨i, by omega, rfl⟩

theorem ups_reverse (l : List Str) (n : Nat) : (ups l n).reverse = (List.range (n + 1)).map fun i => l.take i := by
  induction n with
  | zero => simp [ups]
  | succ n ih =>
    rw [ups, List.reverse_cons, ih, List.range_succ (n := n + 1), List.map_append]
    rfl

theorem iterupN_is (cwd : Str) (k : Nat) (hk : k = 1 ∨ k = 2) (l : List Str) (hl : ∀ n ∈ l, Name n) (i fuel : Nat)
    (hi : i ≤ l.length) (hf : i ≤ fuel) : iterupN cwd fuel (render k (l.take i)) = (ups l i).map (render k) := by
  induction i generalizing fuel with
  | zero =>
    have hp : parent cwd (render k []) = render k [] := (parent_is cwd (is_render (l := []) hk (by simp))).eq
    rw [List.take_zero]
    cases fuel with
    | zero => simp [iterupN, ups]
    | succ f => simp [iterupN, ups, hp]
  | succ i ih =>
    cases fuel with
    | zero => omega
    | succ f =>
      have his : Is (render k (l.take (i + 1))) k (l.take (i + 1)) := is_render hk (fun n hn => hl n (List.mem_of_mem_take hn))
      have hpi := parent_is cwd his
      have htd : (l.take (i + 1)).dropLast = l.take i := by
        rw [List.dropLast_eq_take, List.take_take, List.length_take]
        congr 1
        omega
      rw [htd] at hpi
      have hne : render k (l.take (i + 1)) ≠ parent cwd (render k (l.take (i + 1))) := by
        intro h
        rw [← h] at hpi
        have := (his.inj hpi).2
        have := congrArg List.length this
        simp only [List.length_take] at this
        omega
      have hne' : parent cwd (render k (l.take (i + 1))) ≠ [] := by
        rw [hpi.eq]; exact render_ne hk _
      unfold iterupN
      rw [if_neg (by simp only [hne, hne', or_self, not_false_eq_true]), hpi.eq, ih f (by omega) (by omega)]
      rfl

theorem glue_length {l : List Str} (h : ∀ n ∈ l, Name n) : l.length ≤ (glue ['/'] l).length + 1 := by
  induction l with
  | nil => simp
  | cons x l ih =>
    rcases l with _ | ⟨y, l⟩
    · simp
    · rw [glue_cons (by simp)]
      have h1 := ih (fun n hn => h n (by simp [hn]))
      have h2 : 0 < x.length := List.length_pos_iff.2 (h x (by simp)).1
      simp only [List.length_append, List.length_cons, List.length_nil] at h1 ⊢
      omega

theorem iterup_is (cwd : Str) {p : Str} {k : Nat} {l : List Str} (h : Is p k l) :
    iterup cwd p = (ups l l.length).map (render k) := by
  unfold iterup
  have := iterupN_is cwd k h.root l h.names l.length p.length (Nat.le_refl _) (by
    rw [h.eq]
    unfold render
    have := glue_length h.names
    rcases h.root with rfl | rfl <;> simp only [List.length_append, List.length_replicate] <;> omega)
  rw [List.take_length, ← h.eq] at this
  exact this

/-- The loop over the prefixes finds the last that agrees. -/
theorem commonLoop_range (f g : Nat → Str) (n c : Nat) (hc : c < n) (he : ∀ i ≤ c, f i = g i) (hn : c + 1 < n → f (c + 1) ≠ g (c + 1)) :
    commonLoop none ((List.range n).map fun i => (f i, g i)) = some (f c) := by
  have key : ∀ (m : Nat) (s : Nat) (r : Option Str), s ≤ c → s + m = n →
      commonLoop r ((List.range' s m).map fun i => (f i, g i)) = some (f c) := by
    intro m
    induction m with
    | zero => intro s r h1 h2; omega
    | succ m ih =>
      intro s r h1 h2
      rw [List.range'_succ, List.map_cons]
      rw [show commonLoop r ((f s, g s) :: (List.range' (s + 1) m).map fun i => (f i, g i)) =
        (if f s = g s then commonLoop (some (f s)) ((List.range' (s + 1) m).map fun i => (f i, g i)) else r) from rfl,
        if_pos (he s h1)]
      by_cases hs : s = c
      · subst hs
        cases m with
        | zero => rfl
        | succ m =>
          rw [List.range'_succ, List.map_cons]
          rw [show ∀ L, commonLoop (some (f s)) ((f (s + 1), g (s + 1)) :: L) =
            (if f (s + 1) = g (s + 1) then commonLoop (some (f (s + 1))) L else some (f s)) from fun _ => rfl,
            if_neg (hn (by omega))]
      · exact ih (s + 1) (some (f s)) (by omega) (by omega)
  rw [List.range_eq_range']
  exact key n 0 none (by omega) (by omega)

theorem zip_range (f g : Nat → Str) (m n : Nat) :
    ((List.range m).map f).zip ((List.range n).map g) = (List.range (min m n)).map fun i => (f i, g i) := by
  apply List.ext_getElem
  · simp
  · intro i h1 h2
    simp

theorem common_comm (a b : List Str) : common a b = common b a := by
  induction a generalizing b with
  | nil => cases b <;> simp [common]
  | cons x a ih =>
    cases b with
    | nil => simp [common]
    | cons y b => simp only [common, ih b, eq_comm]

theorem render_inj {k k' : Nat} (hk : k = 1 ∨ k = 2) (hk' : k' = 1 ∨ k' = 2) {l m : List Str} (hl : ∀ n ∈ l, Name n)
    (hm : ∀ n ∈ m, Name n) (h : render k l = render k' m) : k = k' ∧ l = m :=
  (is_render hk hl).inj (h ▸ is_render hk' hm)

theorem commonPath_is (cwd : Str) {p q : Str} {k : Nat} {l m : List Str} (hp : Is p k l) (hq : Is q k m) :
    commonPath cwd p q = some (render k (l.take (common l m))) := by
  unfold commonPath
  rw [iterup_is cwd hp, iterup_is cwd hq, ← List.map_reverse, ← List.map_reverse, ups_reverse, ups_reverse,
    List.map_map, List.map_map, zip_range]
  have h1 := common_le l m
  have h2 := common_le m l
  rw [common_comm m l] at h2
  refine commonLoop_range _ _ _ (common l m) (by omega) ?_ ?_
  · intro i hi
    have := congrArg (List.take i) (common_take l m)
    rw [List.take_take, List.take_take, Nat.min_eq_left hi] at this
    simp only [Function.comp, this]
  · intro hc h
    simp only [Function.comp] at h
    have he := (render_inj hp.root hq.root (fun n hn => hp.names n (List.mem_of_mem_take hn))
      (fun n hn => hq.names n (List.mem_of_mem_take hn)) h).2
    have := common_max l m (l.take (common l m + 1)) (List.take_prefix _ _) (he ▸ List.take_prefix _ _)
    rw [List.length_take] at this
    omega

theorem commonPath_roots (cwd : Str) {p q : Str} {k k' : Nat} {l m : List Str} (hp : Is p k l) (hq : Is q k' m) (hk : k ≠ k') :
    commonPath cwd p q = none := by
  unfold commonPath
  rw [iterup_is cwd hp, iterup_is cwd hq, ← List.map_reverse, ← List.map_reverse, ups_reverse, ups_reverse,
    List.map_map, List.map_map, List.range_succ_eq_map, List.range_succ_eq_map]
  simp only [List.map_cons, List.zip_cons_cons]
  rw [show ∀ a b L, commonLoop none ((a, b) :: L) = (if a = b then commonLoop (some a) L else none) from fun _ _ _ => rfl, if_neg]
  intro h
  simp only [Function.comp, List.take_zero] at h
  exact hk (render_inj hp.root hq.root (by simp) (by simp) h).1

end SC.Paths
