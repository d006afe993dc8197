import Verif.Bliss.Spec
import Verif.Slicing.Props
import Mathlib.Tactic.Ring
/-! # Lemmas about the tasks on Bliss scans -/
namespace SC.Bliss
open SC.Py SC.Numpy SC.Slicing

/-- The entry selects the coordinate. -/
def hit (i : Item) (n p : Nat) : Bool := (SC.Indexing.selectedPositions n i).elim false fun ps => ps.contains p

theorem selects_append : ∀ (is is' : List Item) (s s' r r' : List Nat), is.length = s.length → r.length = s.length →
    Selects (is ++ is') (s ++ s') (r ++ r') = (Selects is s r && Selects is' s' r')
  | [], _, [], _, [], _, _, _ => by simp [Selects]
  | i :: is, is', n :: s, s', p :: r, r', h1, h2 => by
    have := selects_append is is' s s' r r' (by simpa using h1) (by simpa using h2)
    simp only [List.cons_append, Selects, this, Bool.and_assoc]
  | [], _, _ :: _, _, _, _, h1, _ => by simp at h1
  | _ :: _, _, [], _, _, _, h1, _ => by simp at h1
  | [], _, [], _, _ :: _, _, _, h2 => by simp at h2
  | _ :: _, _, _ :: _, _, [], _, _, h2 => by simp at h2

theorem selects_reverse : ∀ (is : List Item) (s r : List Nat), is.length = s.length → r.length = s.length →
    Selects is.reverse s.reverse r.reverse = Selects is s r
  | [], [], [], _, _ => rfl
  | i :: is, n :: s, p :: r, h1, h2 => by
    have h1' : is.length = s.length := by simpa using h1
    have h2' : r.length = s.length := by simpa using h2
    have := selects_reverse is s r h1' h2'
    rw [List.reverse_cons, List.reverse_cons, List.reverse_cons,
      selects_append _ _ _ _ _ _ (by simpa using h1') (by simpa using h2'), this]
    simp only [Selects, Bool.and_true]
    exact Bool.and_comm _ _
  | [], _ :: _, _, h1, _ => by simp at h1
  | _ :: _, [], _, h1, _ => by simp at h1
  | [], [], _ :: _, _, h2 => by simp at h2
  | _ :: _, _ :: _, [], _, h2 => by simp at h2

theorem inB_length : ∀ {p s : List Nat}, InB p s → p.length = s.length
  | [], [], _ => rfl
  | _ :: _, _ :: _, h => by simpa using inB_length h.2
  | [], _ :: _, h => h.elim
  | _ :: _, [], h => h.elim

theorem inB_snoc : ∀ {p s : List Nat} {i n : Nat}, InB p s → i < n → InB (p ++ [i]) (s ++ [n])
  | [], [], _, _, _, h => ⟨h, trivial⟩
  | _ :: _, _ :: _, _, _, h, h' => ⟨h.1, inB_snoc h.2 h'⟩
  | [], _ :: _, _, _, h, _ => h.elim
  | _ :: _, [], _, _, h, _ => h.elim

theorem inB_reverse : ∀ {p s : List Nat}, InB p s → InB p.reverse s.reverse
  | [], [], _ => trivial
  | _ :: _, _ :: _, h => by
    rw [List.reverse_cons, List.reverse_cons]
    exact inB_snoc (inB_reverse h.2) h.1
  | [], _ :: _, h => h.elim
  | _ :: _, [], h => h.elim

theorem slices_cover (shape : List Nat) (nbytes : Nat) (mb : Rat) (hne : shape ≠ []) (p : List Nat) (hp : InB p shape) :
    ∃ idx ∈ slices shape nbytes mb, Selects idx shape p = true := by
  have hne' : shape.reverse ≠ [] := by simpa using hne
  have h := slice_generator_partition shape.reverse nbytes mb hne' p.reverse (inB_reverse hp)
  have hpos : 0 < (sliceGenerator shape.reverse nbytes mb).countP (fun is => Selects is shape.reverse p.reverse) := by omega
  obtain ⟨is, hm, hs⟩ := List.countP_pos_iff.1 hpos
  have hl := slice_generator_length shape.reverse nbytes mb hne' is hm
  refine ⟨is.reverse, List.mem_map.2 ⟨is, hm, rfl⟩, ?_⟩
  have := selects_reverse is shape.reverse p.reverse hl (by simp [inB_length hp])
  rw [List.reverse_reverse, List.reverse_reverse] at this
  rw [this]; exact hs

theorem fill_loop (shape : List Nat) (f : List Nat → Val) (p : List Nat) : ∀ (l : List (List Item)) (a : List Nat → Val),
    ((∃ idx ∈ l, Selects idx shape p = true) ∨ a p = f p) → l.foldl (fun a idx => assign shape idx f a) a p = f p
  | [], a, h => by
    rcases h with ⟨_, h, _⟩ | h
    · simp at h
    · exact h
  | i :: l, a, h => by
    rw [List.foldl_cons]
    apply fill_loop shape f p l
    by_cases hi : Selects i shape p = true
    · right; simp [assign, hi]
    · rcases h with ⟨j, hj, hs⟩ | h
      · rcases List.mem_cons.1 hj with rfl | hj
        · exact absurd hs hi
        · exact Or.inl ⟨j, hj, hs⟩
      · right; simp [assign, hi, h]

/-- Every element of the array gets its value. -/
theorem fill_spec (shape : List Nat) (nbytes : Nat) (mb : Rat) (f : List Nat → Val) (hne : shape ≠ []) (p : List Nat) (hp : InB p shape) :
    fill shape nbytes mb f p = f p :=
  fill_loop shape f p _ _ (Or.inl (slices_cover shape nbytes mb hne p hp))

theorem allSome_map {α β : Type} (f : α → Option β) : ∀ (l : List α) (r : List β), allSome f l = some r ↔ List.Forall₂ (fun a b => f a = some b) l r
  | [], r => by
    simp only [allSome, Option.some.injEq]
    constructor
    · rintro rfl; exact List.Forall₂.nil
    · intro h; cases h; rfl
  | x :: l, r => by
    unfold allSome
    constructor
    · intro h
      cases hx : f x with
      | none => simp [hx] at h
      | some y =>
        cases hr : allSome f l with
        | none => simp [hx, hr] at h
        | some q =>
          simp only [hx, hr, Option.some.injEq] at h
          subst h
          exact List.Forall₂.cons hx ((allSome_map f l q).1 hr)
    · intro h
      cases h with
      | cons hx hl => rw [hx, (allSome_map f l _).2 hl]

theorem allSome_none_iff {α β : Type} (f : α → Option β) : ∀ (l : List α), allSome f l = none ↔ ∃ x ∈ l, f x = none
  | [] => by simp [allSome]
  | x :: l => by
    unfold allSome
    cases hx : f x with
    | none => simp [hx]
    | some y =>
      have := allSome_none_iff f l
      cases hr : allSome f l with
      | none => simpa [hx, hr] using this
      | some q => simpa [hx, hr] using this

theorem total_some (l : List Rat) : total (l.map some) = some l.sum := by
  unfold total
  rw [if_pos (by simp), List.filterMap_map]
  congr 2
  induction l with
  | nil => rfl
  | cons a l ih => simp

theorem add_none_right (v : Val) : add v none = none := by cases v <;> rfl

theorem foldl_add_none : ∀ (l : List Val), l.foldl add none = none
  | [] => rfl
  | _ :: l => by rw [List.foldl_cons]; exact foldl_add_none l

theorem foldl_add_total : ∀ (l : List Val) (v : Val), l.foldl add v = total (v :: l)
  | [], none => rfl
  | [], some x => by simp [total]
  | w :: l, none => by
    rw [List.foldl_cons]
    have : add none w = none := by cases w <;> rfl
    rw [this, foldl_add_none]
    simp [total]
  | none :: l, some x => by
    rw [List.foldl_cons, add_none_right, foldl_add_none]
    simp [total]
  | some y :: l, some x => by
    rw [List.foldl_cons]
    have : add (some x) (some y) = some (x + y) := rfl
    rw [this, foldl_add_total l]
    unfold total
    by_cases h : l.all Option.isSome = true
    · simp [h, add_assoc]
    · simp [h]

end SC.Bliss
