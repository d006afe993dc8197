import Verif.Indexing.ExpandLemmas
/-! # Helper lemmas: what the labels of axesorder_afterindexing mean -/
namespace SC.Indexing
open SC.Py SC.Numpy

/-- The label of one probe length (the number of a new axis depends on those before it). -/
theorem labelAxes_get (il : List Nat) (j : Int) (l : List Nat) (i : Nat) (lab : Ax)
    (h : (labelAxes il j l)[i]? = some lab) :
    ∃ n, l[i]? = some n ∧
      ((n = 0 ∧ lab = .adv il) ∨ (n = 1 ∧ lab = .new (j - ((l.take i).count 1 : Nat))) ∨
        (2 ≤ n ∧ lab = .dim (n - 2))) := by
  induction l generalizing i j with
  | nil => simp [labelAxes] at h
  | cons n l ih =>
    cases i with
    | zero =>
      refine ⟨n, by simp, ?_⟩
      simp only [labelAxes] at h
      split at h
      · left; exact ⟨by assumption, by simpa using h.symm⟩
      · split at h
        · right; left; exact ⟨by assumption, by simpa using h.symm⟩
        · right; right; exact ⟨by omega, by simpa using h.symm⟩
    | succ i =>
      simp only [labelAxes] at h
      split at h
      · rename_i h0; subst h0
        obtain ⟨n', h1, h2⟩ := ih j i (by simpa using h)
        exact ⟨n', by simpa using h1, by simpa using h2⟩
      · split at h
        · rename_i h0 h1; subst h1
          obtain ⟨n', h1, h2⟩ := ih (j - 1) i (by simpa using h)
          refine ⟨n', by simpa using h1, ?_⟩
          rcases h2 with h2 | ⟨h2, h3⟩ | h2
          · exact Or.inl h2
          · refine Or.inr (Or.inl ⟨h2, ?_⟩)
            rw [h3]
            simp only [List.take_succ_cons, List.count_cons_self]
            congr 1
            omega
          · exact Or.inr (Or.inr h2)
        · rename_i h0 h1
          obtain ⟨n', h2, h3⟩ := ih j i (by simpa using h)
          refine ⟨n', by simpa using h2, ?_⟩
          simpa [List.count_cons, h1] using h3

theorem labelAxes_length (il : List Nat) (j : Int) (l : List Nat) :
    (labelAxes il j l).length = l.length := by
  induction l generalizing j with
  | nil => rfl
  | cons n l ih =>
    simp only [labelAxes]
    split
    · simp [ih]
    · split <;> simp [ih]

/-- A result dimension labelled by source dimension `k` runs over the positions of its slice. -/
theorem walk_dim {is : List Item} {s : List Nat} {rs : List Res} (c : Nat) (hp : Plain is)
    (h : resolve is s = some rs) {q k : Nat}
    (hq : (dimsOf is ((List.range' c s.length).map (· + 2)))[q]? = some (k + 2)) :
    c ≤ k ∧ ∃ sl n ps, (noNew is)[k - c]? = some (.slice sl) ∧ s[k - c]? = some n ∧
      sl.positions n = some ps ∧
      ∀ j r, (walk rs j r)[k - c]? = some (ps.getD (r.getD q 0) 0) := by
  induction is generalizing s rs c q with
  | nil => simp [dimsOf] at hq
  | cons i is ih =>
    rcases plain_cases hp with rfl | ⟨hn, hcons⟩
    · simp only [resolve, Option.map_eq_some_iff] at h
      obtain ⟨t, ht, rfl⟩ := h
      simp only [dimsOf] at hq
      cases q with
      | zero => simp at hq
      | succ q =>
        obtain ⟨h1, sl, n, ps, h2, h3, h4, h5⟩ := ih c hp.tail ht (by simpa using hq)
        have e : noNew (.newaxis :: is) = noNew is := by simp [noNew]
        refine ⟨h1, sl, n, ps, by rw [e]; exact h2, h3, h4, ?_⟩
        intro j r
        simp only [walk]
        rw [h5 j r.tail]
        cases r <;> simp
    · obtain ⟨n, s', r, rs', rfl, rfl, h5, h6⟩ := resolve_cons_some hcons h
      have e : noNew (i :: is) = i :: noNew is := by simp [noNew, hn]
      rw [e]
      rw [List.length_cons, List.range'_succ, List.map_cons] at hq
      -- the recursive case, shared
      have rec_case : ∀ q', (dimsOf is ((List.range' (c + 1) s'.length).map (· + 2)))[q']? = some (k + 2) →
          c ≤ k ∧ ∃ sl n' ps, (i :: noNew is)[k - c]? = some (.slice sl) ∧ (n :: s')[k - c]? = some n' ∧
            sl.positions n' = some ps ∧
            ∀ (f : Nat → List Nat → Nat) j r, ((f j r) :: walk rs' j r)[k - c]? =
              some (ps.getD (r.getD q' 0) 0) := by
        intro q' hq'
        obtain ⟨h1, sl, n', ps, h2, h3, h4, h7⟩ := ih (c + 1) hp.tail h6 hq'
        have e2 : k - c = k - (c + 1) + 1 := by omega
        refine ⟨by omega, sl, n', ps, ?_, ?_, h4, ?_⟩
        · rw [e2]; simpa using h2
        · rw [e2]; simpa using h3
        · intro f j r; rw [e2]; simpa using h7 j r
      cases i with
      | slice sl =>
        simp only [resolve1, Option.map_eq_some_iff] at h5
        obtain ⟨ps, hps, rfl⟩ := h5
        simp only [dimsOf] at hq
        cases q with
        | zero =>
          simp at hq
          subst hq
          refine ⟨by omega, sl, n, ps, by simp, by simp, hps, ?_⟩
          intro j r
          cases r <;> simp [walk]
        | succ q =>
          obtain ⟨h1, sl', n', ps', h2, h3, h4, h7⟩ := rec_case q (by simpa using hq)
          refine ⟨h1, sl', n', ps', h2, h3, h4, ?_⟩
          intro j r
          have := h7 (fun _ _ => ps.getD (r.headD 0) 0) j r.tail
          simp only [walk]
          rw [this]
          cases r <;> simp
      | newaxis => exact absurd rfl hn
      | int i =>
        simp only [resolve1, Option.map_eq_some_iff] at h5
        obtain ⟨ps, hps, rfl⟩ := h5
        obtain ⟨h1, sl', n', ps', h2, h3, h4, h7⟩ := rec_case q hq
        exact ⟨h1, sl', n', ps', h2, h3, h4, fun j r => h7 (fun _ _ => ps) j r⟩
      | ilist i =>
        simp only [resolve1, Option.map_eq_some_iff] at h5
        obtain ⟨ps, hps, rfl⟩ := h5
        obtain ⟨h1, sl', n', ps', h2, h3, h4, h7⟩ := rec_case q hq
        exact ⟨h1, sl', n', ps', h2, h3, h4,
          fun j r => h7 (fun j _ => ps.getD (if ps.length = 1 then 0 else j) 0) j r⟩
      | blist i =>
        simp only [resolve1] at h5
        split at h5 <;> simp at h5
        subst h5
        obtain ⟨h1, sl', n', ps', h2, h3, h4, h7⟩ := rec_case q hq
        exact ⟨h1, sl', n', ps', h2, h3, h4,
          fun j r => h7 (fun j _ => (nonzeroFrom 0 i).getD (if (nonzeroFrom 0 i).length = 1 then 0 else j) 0) j r⟩
      | ellipsis => simp [Item.consumes] at hcons
      | bool b => simp [Item.consumes] at hcons

/-- Source coordinate of a list-indexed dimension. -/
theorem walk_adv {is : List Item} {s : List Nat} {rs : List Res} (hp : Plain is)
    (h : resolve is s = some rs) {k : Nat} {x : Item} (hx : (noNew is)[k]? = some x)
    (hxa : isAdv x = true) :
    ∃ n ks, s[k]? = some n ∧ resolve1 n x = some (.many ks) ∧
      ∀ j r, (walk rs j r)[k]? = some (ks.getD (if ks.length = 1 then 0 else j) 0) := by
  induction is generalizing s rs k with
  | nil => simp [noNew] at hx
  | cons i is ih =>
    rcases plain_cases hp with rfl | ⟨hn, hcons⟩
    · simp only [resolve, Option.map_eq_some_iff] at h
      obtain ⟨t, ht, rfl⟩ := h
      have e : noNew (.newaxis :: is) = noNew is := by simp [noNew]
      rw [e] at hx
      obtain ⟨n, ks, h1, h2, h3⟩ := ih hp.tail ht hx
      exact ⟨n, ks, h1, h2, fun j r => by simpa [walk] using h3 j r.tail⟩
    · obtain ⟨n, s', r, rs', rfl, rfl, h5, h6⟩ := resolve_cons_some hcons h
      have e : noNew (i :: is) = i :: noNew is := by simp [noNew, hn]
      rw [e] at hx
      cases k with
      | zero =>
        simp at hx; subst hx
        have hk := (resolve1_kind h5)
        cases r with
        | many ks => exact ⟨n, ks, by simp, h5, fun j r => by simp [walk]⟩
        | flag b => exact absurd rfl (hk.2.1 b)
        | _ => simp [Res.isMany, hxa] at hk
      | succ k =>
        obtain ⟨n', ks, h1, h2, h3⟩ := ih hp.tail h6 (by simpa using hx)
        refine ⟨n', ks, by simpa using h1, h2, ?_⟩
        intro j r'
        cases r with
        | span l => simpa [walk] using h3 j r'.tail
        | new => exact absurd rfl (resolve1_kind h5).1
        | flag b => exact absurd rfl ((resolve1_kind h5).2.1 b)
        | _ => simpa [walk] using h3 j r'

end SC.Indexing
