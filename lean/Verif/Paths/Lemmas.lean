import Verif.Paths.Spec
import Mathlib.Tactic.ByContra
/-! # Lemmas on paths -/

namespace SC.Paths

theorem split_ne (s : Str) : split s ≠ [] := by
  induction s with
  | nil => simp [split]
  | cons c s ih =>
    unfold split
    split
    · simp
    · split <;> simp

theorem split_append (a b : Str) : split (a ++ '/' :: b) = split a ++ split b := by
  induction a with
  | nil => simp [split]
  | cons c a ih =>
    simp only [List.cons_append, split]
    split
    · simp [ih]
    · rw [ih]
      rcases h : split a with _ | ⟨x, xs⟩
      · exact absurd h (split_ne a)
      · simp

theorem split_slash (b : Str) : split ('/' :: b) = [] :: split b := by simp [split]

theorem split_plain {n : Str} (h : '/' ∉ n) : split n = [n] := by
  induction n with
  | nil => rfl
  | cons c n ih =>
    simp only [List.mem_cons, not_or] at h
    simp only [split, ih h.2, if_neg (Ne.symm h.1)]

theorem split_noslash (s : Str) : ∀ x ∈ split s, '/' ∉ x := by
  induction s with
  | nil => simp [split]
  | cons c s ih =>
    unfold split
    split
    · intro x hx
      rcases List.mem_cons.1 hx with rfl | hx
      · simp
      · exact ih x hx
    · rename_i hc
      split
      · rename_i x xs he
        intro y hy
        rcases List.mem_cons.1 hy with rfl | hy
        · simp only [List.mem_cons, not_or]
          exact ⟨fun h => hc h.symm, ih x (by rw [he]; simp)⟩
        · exact ih y (by rw [he]; simp [hy])
      · intro y hy
        rw [List.mem_singleton.1 hy]
        simp only [List.mem_singleton]
        exact fun h => hc h.symm

theorem glue_cons {sep x : Str} {l : List Str} (h : l ≠ []) : glue sep (x :: l) = x ++ sep ++ glue sep l := by
  cases l with
  | nil => exact absurd rfl h
  | cons y l => rfl

theorem split_glue {l : List Str} (h : ∀ x ∈ l, '/' ∉ x) (hl : l ≠ []) : split (glue ['/'] l) = l := by
  induction l with
  | nil => exact absurd rfl hl
  | cons x l ih =>
    rcases l with _ | ⟨y, l⟩
    · exact split_plain (h x (by simp))
    · rw [glue_cons (by simp), List.append_assoc, List.singleton_append, split_append,
        ih (fun z hz => h z (by simp [hz])) (by simp), split_plain (h x (by simp))]
      rfl

theorem glue_snoc {sep x : Str} {l : List Str} (h : l ≠ []) : glue sep (l ++ [x]) = glue sep l ++ sep ++ x := by
  induction l with
  | nil => exact absurd rfl h
  | cons y l ih =>
    rcases l with _ | ⟨z, l⟩
    · simp [glue]
    · rw [List.cons_append, glue_cons (by simp), ih (by simp), glue_cons (x := y) (l := z :: l) (by simp)]
      simp only [List.append_assoc]

theorem glue_eq_nil {l : List Str} (h : ∀ x ∈ l, x ≠ []) : glue ['/'] l = [] ↔ l = [] := by
  constructor
  · intro h'
    rcases l with _ | ⟨x, _ | ⟨y, l⟩⟩
    · rfl
    · exact absurd h' (h x (by simp))
    · simp [glue] at h'
  · rintro rfl; rfl

/-! ## `follow` -/

theorem follow_append (l a b : List Str) : follow l (a ++ b) = follow (follow l a) b := by
  induction a generalizing l with
  | nil => rfl
  | cons c a ih => exact ih _

theorem follow_skip (l : List Str) {c : Str} (a : List Str) (h : c = [] ∨ c = dot) : follow l (c :: a) = follow l a := by
  rw [show follow l (c :: a) = follow (if c = [] ∨ c = dot then l else if c = dots then l.dropLast else l ++ [c]) a from rfl,
    if_pos h]

theorem follow_dots (l a : List Str) : follow l (dots :: a) = follow l.dropLast a := by
  rw [show follow l (dots :: a) = follow (if dots = [] ∨ dots = dot then l else if dots = dots then l.dropLast else l ++ [dots]) a
    from rfl, if_neg (by simp [dots, dot]), if_pos rfl]

theorem follow_names {l a : List Str} (hl : ∀ n ∈ l, Name n) (ha : ∀ x ∈ a, '/' ∉ x) : ∀ n ∈ follow l a, Name n := by
  induction a generalizing l with
  | nil => exact hl
  | cons c a ih =>
    refine ih ?_ (fun x hx => ha x (by simp [hx]))
    split
    · exact hl
    · rename_i h1
      split
      · exact fun n hn => hl n (List.dropLast_subset _ hn)
      · rename_i h2
        intro n hn
        rcases List.mem_append.1 hn with hn | hn
        · exact hl n hn
        · rw [List.mem_singleton.1 hn]
          simp only [not_or] at h1
          exact ⟨h1.1, ha c (by simp), h1.2, h2⟩

theorem follow_down {l a : List Str} (ha : ∀ n ∈ a, Name n) : follow l a = l ++ a := by
  induction a generalizing l with
  | nil => simp [follow]
  | cons c a ih =>
    obtain ⟨h1, h2, h3, h4⟩ := ha c (by simp)
    unfold follow
    rw [if_neg (by simp [h1, h3]), if_neg h4, ih (fun n hn => ha n (by simp [hn]))]
    simp

theorem follow_up (l : List Str) (k : Nat) : follow l (List.replicate k dots) = l.take (l.length - k) := by
  induction k generalizing l with
  | zero => simp [follow]
  | succ k ih =>
    rw [List.replicate_succ]
    unfold follow
    rw [if_neg (by simp [dots, dot]), if_pos rfl, ih, List.dropLast_eq_take, List.take_take, List.length_take]
    congr 1
    omega

/-- Absolute paths: the loop follows the parts. -/
theorem fold_abs (l a : List Str) (hl : ∀ n ∈ l, Name n) (ha : ∀ x ∈ a, '/' ∉ x) :
    a.foldl (normStep false) l = follow l a := by
  induction a generalizing l with
  | nil => rfl
  | cons c a ih =>
    have hstep : normStep false l c = follow l [c] := by
      unfold normStep follow
      simp only [Bool.false_eq_true, false_and, false_or, follow]
      split
      · rfl
      · by_cases hc : c = dots
        · subst hc
          have : ¬ l.getLast? = some dots := by
            intro h
            exact (hl dots (List.mem_of_getLast? h)).2.2.2 rfl
          simp [this]
        · simp [hc]
    rw [List.foldl_cons, hstep, ih _ (follow_names hl fun x hx => ha x (by simp_all)) (fun x hx => ha x (by simp [hx]))]
    exact (follow_append l [c] a).symm

/-- Relative paths: the normalized text leads to the same place. -/
theorem fold_rel (base l a : List Str) (hl : ∀ x ∈ l, x = dots ∨ Name x) (ha : ∀ x ∈ a, '/' ∉ x) :
    follow base (a.foldl (normStep true) l) = follow (follow base l) a ∧
      ∀ x ∈ a.foldl (normStep true) l, x = dots ∨ Name x := by
  induction a generalizing l with
  | nil => exact ⟨rfl, hl⟩
  | cons c a ih =>
    rw [List.foldl_cons]
    have hstep : follow base (normStep true l c) = follow (follow base l) [c] ∧
        ∀ x ∈ normStep true l c, x = dots ∨ Name x := by
      unfold normStep
      split
      · rename_i h
        exact ⟨(follow_skip (follow base l) [] h).symm, hl⟩
      · rename_i h
        split
        · rename_i h'
          refine ⟨follow_append base l [c], ?_⟩
          intro x hx
          rcases List.mem_append.1 hx with hx | hx
          · exact hl x hx
          · rw [List.mem_singleton.1 hx]
            by_cases hc : c = dots
            · exact Or.inl hc
            · simp only [not_or] at h
              exact Or.inr ⟨h.1, ha c (by simp), h.2, hc⟩
        · rename_i h'
          simp only [not_or, ne_eq, not_not, true_and] at h'
          obtain ⟨rfl, h1, h2⟩ := h'
          refine ⟨?_, fun x hx => hl x (List.dropLast_subset _ hx)⟩
          obtain ⟨m, n, rfl⟩ : ∃ m n, l = m ++ [n] := ⟨l.dropLast, l.getLast h1, (List.dropLast_append_getLast h1).symm⟩
          have hn : Name n := by
            rcases hl n (by simp) with rfl | hn
            · simp at h2
            · exact hn
          rw [List.dropLast_concat, follow_append, follow_down (a := [n]) (by simpa using hn)]
          rw [follow_dots]
          simp [follow]
    obtain ⟨i1, i2⟩ := ih _ hstep.2 (fun x hx => ha x (by simp [hx]))
    refine ⟨?_, i2⟩
    rw [i1, hstep.1, ← follow_append]
    rfl

/-! ## Normalization -/

theorem render_ne {k : Nat} (hk : k = 1 ∨ k = 2) (l : List Str) : render k l ≠ [] := by
  rcases hk with rfl | rfl <;> simp [render]

theorem glue_head {l : List Str} (h : ∀ n ∈ l, Name n) : isabs (glue ['/'] l) = false := by
  rcases l with _ | ⟨x, l⟩
  · rfl
  · obtain ⟨h1, h2, -, -⟩ := h x (by simp)
    rcases x with _ | ⟨c, x⟩
    · exact absurd rfl h1
    · have hc : c ≠ '/' := fun e => h2 (by simp [e])
      rcases l with _ | ⟨y, l⟩ <;> simp [glue, isabs, hc]

theorem slashes_of_not {s : Str} (h : isabs s = false) : slashes s = 0 := by
  unfold slashes
  split <;> simp_all [isabs]

theorem slashes_abs {s : Str} (h : isabs s = true) : slashes s = 1 ∨ slashes s = 2 := by
  unfold slashes
  split <;> simp_all [isabs]

theorem not_isabs {s : Str} (h : isabs s = false) : ∀ t, s ≠ '/' :: t := by
  rintro t rfl
  simp [isabs] at h

theorem slashes_render {k : Nat} (hk : k = 1 ∨ k = 2) {s : Str} (hs : isabs s = false) :
    slashes (List.replicate k '/' ++ s) = k := by
  rcases hk with rfl | rfl
  · rcases s with _ | ⟨c, s⟩
    · rfl
    · have hc : c ≠ '/' := fun e => not_isabs hs s (by rw [e])
      show slashes ('/' :: c :: s) = 1
      have h2 : ∀ t, c :: s ≠ '/' :: t := fun t e => hc (List.cons.inj e).1
      unfold slashes
      split <;> simp_all
  · rcases s with _ | ⟨c, s⟩
    · rfl
    · have hc : c ≠ '/' := fun e => not_isabs hs s (by rw [e])
      show slashes ('/' :: '/' :: c :: s) = 2
      unfold slashes
      split
      · simp_all
      · rfl
      · rename_i hx heq
        exact absurd (List.cons.inj heq).2.symm (hx _)
      · rename_i hx
        exact absurd rfl (hx _)

theorem split_render (k : Nat) (s : Str) : split (List.replicate k '/' ++ s) = List.replicate k [] ++ split s := by
  induction k with
  | zero => simp
  | succ k ih => rw [List.replicate_succ, List.cons_append, split_slash, ih, List.replicate_succ, List.cons_append]

theorem follow_empty (l : List Str) (k : Nat) (a : List Str) : follow l (List.replicate k [] ++ a) = follow l a := by
  induction k with
  | zero => simp
  | succ k ih =>
    rw [List.replicate_succ, List.cons_append]
    rw [follow_skip _ _ (Or.inl rfl)]
    exact ih

theorem normpath_abs {s : Str} (h : isabs s = true) : Is (normpath s) (slashes s) (follow [] (split s)) := by
  have hk := slashes_abs h
  have hs : s ≠ [] := by rintro rfl; simp [isabs] at h
  have h0 : (slashes s == 0) = false := by rcases hk with h | h <;> simp [h]
  refine ⟨?_, hk, follow_names (by simp) (split_noslash s)⟩
  unfold normpath
  rw [if_neg hs]
  dsimp only
  rw [h0, fold_abs [] _ (by simp) (split_noslash s), if_neg (show ¬ List.replicate (slashes s) '/' ++ glue ['/'] (follow [] (split s)) = [] from render_ne hk _)]
  rfl

theorem isabs_render {k : Nat} (hk : k = 1 ∨ k = 2) (l : List Str) : isabs (render k l) = true := by
  rcases hk with rfl | rfl <;> rfl

theorem follow_split_glue {l m : List Str} (hm : ∀ n ∈ m, Name n) : follow l (split (glue ['/'] m)) = l ++ m := by
  rcases m with _ | ⟨x, m⟩
  · simp [glue, split, follow]
  · rw [split_glue (fun x hx => (hm x hx).2.1) (by simp), follow_down hm]

theorem normpath_render {k : Nat} (hk : k = 1 ∨ k = 2) {l : List Str} (hl : ∀ n ∈ l, Name n) :
    normpath (render k l) = render k l := by
  have h := normpath_abs (isabs_render hk l)
  rw [h.eq]
  unfold render
  rw [slashes_render hk (glue_head hl), split_render, follow_empty, follow_split_glue hl]
  rfl

/-- The text of a relative path leads to the same place as its normalized text. -/
theorem normpath_rel {s : Str} (h : isabs s = false) (base : List Str) :
    isabs (normpath s) = false ∧ follow base (split (normpath s)) = follow base (split s) := by
  unfold normpath
  split
  · rename_i hs
    subst hs
    exact ⟨rfl, by simp [split, dot, follow]⟩
  · dsimp only
    rw [slashes_of_not h]
    obtain ⟨h1, h2⟩ := fold_rel base [] (split s) (by simp) (split_noslash s)
    have e0 : ((0 : Nat) == 0) = true := rfl
    rw [e0]
    revert h1 h2
    generalize (split s).foldl (normStep true) [] = m
    intro h1 h2
    have hns : ∀ x ∈ m, '/' ∉ x := by
      intro x hx
      rcases h2 x hx with rfl | h
      · simp [dots]
      · exact h.2.1
    have hne : ∀ x ∈ m, x ≠ [] := by
      intro x hx
      rcases h2 x hx with rfl | h
      · simp [dots]
      · exact h.1
    simp only [List.replicate_zero, List.nil_append]
    split
    · rename_i hg
      rw [glue_eq_nil hne] at hg
      subst hg
      refine ⟨rfl, ?_⟩
      rw [← show follow base [] = follow base (split s) from h1]
      simp [dot, split, follow]
    · rename_i hg
      have hm : m ≠ [] := fun e => hg (by rw [e]; rfl)
      refine ⟨?_, ?_⟩
      · rcases m with _ | ⟨x, m⟩
        · exact absurd rfl hm
        · have hx := hns x (by simp)
          have hx' := hne x (by simp)
          rcases x with _ | ⟨c, x⟩
          · exact absurd rfl hx'
          · have hc : c ≠ '/' := fun e => hx (by simp [e])
            rcases m with _ | ⟨y, m⟩ <;> simp [glue, isabs, hc]
      · rw [split_glue hns hm]
        exact h1

/-- Joining a relative text. -/
theorem join_rel {p : Str} {k : Nat} {l : List Str} (hp : Is p k l) {v : Str} (hv : isabs v = false) :
    isabs (join p v) = true ∧ slashes (join p v) = k ∧ follow [] (split (join p v)) = follow l (split v) := by
  obtain ⟨rfl, hk, hl⟩ := hp
  unfold join
  rw [hv]
  simp only [Bool.false_eq_true, if_false, render_ne hk, false_or]
  rcases hl0 : l with _ | ⟨x, m⟩
  · have : (render k []).getLast? = some '/' := by rcases hk with rfl | rfl <;> rfl
    rw [if_pos this]
    simp only [render, glue, List.append_nil]
    refine ⟨by rcases hk with rfl | rfl <;> rfl, slashes_render hk hv, ?_⟩
    rw [split_render, follow_empty]
  · rw [← hl0]
    have hne : l ≠ [] := by rw [hl0]; simp
    have hg : glue ['/'] l ≠ [] := fun h => hne ((glue_eq_nil fun x hx => (hl x hx).1).1 h)
    have hlast : ¬ (render k l).getLast? = some '/' := by
      intro h
      unfold render at h
      rw [List.getLast?_append, Option.or_eq_some_iff] at h
      have hg' : (glue ['/'] l).getLast? ≠ none := by simpa using hg
      rcases h with h | h
      · obtain ⟨m, n, rfl⟩ : ∃ m n, l = m ++ [n] := ⟨l.dropLast, l.getLast hne, (List.dropLast_append_getLast hne).symm⟩
        have hn := hl n (by simp)
        have : (glue ['/'] (m ++ [n])).getLast? = n.getLast? := by
          rcases m with _ | ⟨y, m⟩
          · rfl
          · rw [glue_snoc (by simp), List.getLast?_append]
            rcases hn' : n.getLast? with _ | c
            · exact absurd (List.getLast?_eq_none_iff.1 hn') hn.1
            · rfl
        rw [this] at h
        exact hn.2.1 (List.mem_of_getLast? h)
      · exact absurd h.1 hg'
    rw [if_neg hlast]
    have hs : isabs (glue ['/'] l ++ '/' :: v) = false := by
      have := glue_head hl
      rcases hgl : glue ['/'] l with _ | ⟨c, g⟩
      · exact absurd hgl hg
      · rw [hgl] at this
        have hc : c ≠ '/' := fun e => not_isabs this g (by rw [e])
        simp [isabs, hc]
    have he : render k l ++ '/' :: v = List.replicate k '/' ++ (glue ['/'] l ++ '/' :: v) := by simp [render]
    rw [he]
    refine ⟨by rcases hk with rfl | rfl <;> rfl, slashes_render hk hs, ?_⟩
    rw [split_render, follow_empty, split_append, follow_append, follow_split_glue hl]
    rfl

theorem join_abs {p v : Str} (hv : isabs v = true) : join p v = v := by simp [join, hv]

/-- Normalization of any text. -/
theorem norm_abs (cwd : Str) {s : Str} (h : isabs s = true) : Is (norm cwd s) (slashes s) (follow [] (split s)) := by
  have hn := normpath_abs h
  have : isabs (normpath s) = true := by rw [hn.eq]; exact isabs_render hn.root _
  unfold norm abspath
  rw [if_pos this, hn.eq, normpath_render hn.root hn.names]
  exact ⟨rfl, hn.root, hn.names⟩

theorem norm_rel {cwd : Str} {k : Nat} {l : List Str} (hc : Is cwd k l) {s : Str} (h : isabs s = false) :
    Is (norm cwd s) k (follow l (split s)) := by
  obtain ⟨h1, h2⟩ := normpath_rel h l
  obtain ⟨g1, g2, g3⟩ := join_rel hc h1
  unfold norm abspath
  rw [h1]
  have := normpath_abs g1
  rw [g2, g3, h2] at this
  exact this

theorem norm_is (cwd : Str) {p : Str} {k : Nat} {l : List Str} (h : Is p k l) : norm cwd p = p := by
  obtain ⟨rfl, hk, hl⟩ := h
  have hn := norm_abs cwd (isabs_render hk l)
  rw [hn.eq]
  unfold render
  rw [slashes_render hk (glue_head hl), split_render, follow_empty, follow_split_glue hl]
  rfl

/-- `p[v]` -/
theorem getitem_is (cwd : Str) {p : Str} {k : Nat} {l : List Str} (h : Is p k l) {v : Str} (hv : isabs v = false) :
    Is (getitem cwd p v) k (follow l (split v)) := by
  obtain ⟨h1, h2, h3⟩ := join_rel h hv
  have := norm_abs cwd h1
  rw [h2, h3] at this
  exact this

end SC.Paths
