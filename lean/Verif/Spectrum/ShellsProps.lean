import Verif.Spectrum.Shells
import Mathlib.Data.List.Sort
import Mathlib.Data.List.Dedup
import Mathlib.Algebra.BigOperators.Ring.List
import Mathlib.Tactic.FinCases
import Mathlib.Tactic.Ring
/-! # Property C61, part 1: shells and lines -/
namespace SC.Spectrum
open SC.Common

/-! ## Specification -/

/-- The groups of shells and how many shells they have. -/
def groupSizes : List (Char × Nat) := [('K', 1), ('L', 3), ('M', 5), ('N', 7), ('O', 9), ('P', 11), ('Q', 13)]

/-- `s` is the name of a shell of the group `g`: K, L1 to L3, M1 to M5 and so on. -/
def ShellOf (g : Char) (s : Str) : Prop :=
  (g = 'K' ∧ s = ['K']) ∨ ∃ n i, (g, n) ∈ groupSizes ∧ g ≠ 'K' ∧ 1 ≤ i ∧ i ≤ n ∧ s = g :: (toString i).toList

/-- A shell of some group. -/
def IsShell (s : Str) : Prop := ∃ g, ShellOf g s

/-- All shells of the group are in the list. -/
def Complete (l : List Str) (g : Char) : Prop := ∀ s, ShellOf g s → s ∈ l

/-- The first letters of the names, in some order. -/
def Groups (groups : List Char) (l : List Str) : Prop :=
  groups.Nodup ∧ ∀ g, g ∈ groups ↔ ∃ s ∈ l, s.head? = some g

/-! ## Lemmas -/

theorem groups_cases {g : Char} {n : Nat} (h : (g, n) ∈ groupSizes) :
    (g = 'K' ∧ n = 1) ∨ (g = 'L' ∧ n = 3) ∨ (g = 'M' ∧ n = 5) ∨ (g = 'N' ∧ n = 7) ∨ (g = 'O' ∧ n = 9) ∨
    (g = 'P' ∧ n = 11) ∨ (g = 'Q' ∧ n = 13) := by
  simpa [groupSizes] using h

/-- All shells by group. -/
theorem expand_letter (g : Char) (n : Nat) (h : (g, n) ∈ groupSizes) :
    (expand [g]).iter = (if g = 'K' then [['K']] else ((List.range (n + 1)).drop 1).map fun i => g :: (toString i).toList) ∧
    (expand [g]).flat = (expand [g]).iter := by
  rcases groups_cases h with ⟨rfl, rfl⟩ | ⟨rfl, rfl⟩ | ⟨rfl, rfl⟩ | ⟨rfl, rfl⟩ | ⟨rfl, rfl⟩ | ⟨rfl, rfl⟩ | ⟨rfl, rfl⟩ <;> decide +kernel

theorem mem_drop_range (n i : Nat) : i ∈ (List.range (n + 1)).drop 1 ↔ 1 ≤ i ∧ i ≤ n := by
  rw [List.range_eq_range', List.drop_range', List.mem_range'_1]
  omega

/-- The expansion of the letter of a group gives its shells. -/
theorem mem_expand_letter (g : Char) (n : Nat) (h : (g, n) ∈ groupSizes) (s : Str) :
    (s ∈ (expand [g]).iter ↔ ShellOf g s) ∧ (s ∈ (expand [g]).flat ↔ ShellOf g s) := by
  obtain ⟨h1, h2⟩ := expand_letter g n h
  rw [h2, h1, and_self]
  by_cases hK : g = 'K'
  · subst hK
    simp [ShellOf]
  · rw [if_neg hK]
    simp only [List.mem_map, mem_drop_range, ShellOf, hK, false_and, false_or]
    constructor
    · rintro ⟨i, ⟨h3, h4⟩, rfl⟩
      exact ⟨n, i, h, hK, h3, h4, rfl⟩
    · rintro ⟨n', i, h', _, h3, h4, rfl⟩
      have : n' = n := by
        rcases groups_cases h with ⟨rfl, rfl⟩ | ⟨rfl, rfl⟩ | ⟨rfl, rfl⟩ | ⟨rfl, rfl⟩ | ⟨rfl, rfl⟩ | ⟨rfl, rfl⟩ | ⟨rfl, rfl⟩ <;>
          simpa [groupSizes] using h'
      subst this
      exact ⟨i, ⟨h3, h4⟩, rfl⟩

theorem shellOf_group {g : Char} {s : Str} (h : ShellOf g s) : ∃ n, (g, n) ∈ groupSizes := by
  rcases h with ⟨rfl, _⟩ | ⟨n, i, h, _⟩
  · exact ⟨1, by simp [groupSizes]⟩
  · exact ⟨n, h⟩

theorem shellOf_head {g : Char} {s : Str} (h : ShellOf g s) : s.head? = some g := by
  rcases h with ⟨rfl, rfl⟩ | ⟨n, i, _, _, _, _, rfl⟩ <;> rfl

/-- A shell that is not the K shell is expanded to itself. -/
theorem expand_shell (g : Char) (s : Str) (h : ShellOf g s) : (expand s).flat = [s] := by
  rcases h with ⟨rfl, rfl⟩ | ⟨n, i, h, hK, h1, h2, rfl⟩
  · decide
  · have hn : n ≤ 13 := by rcases groups_cases h with h | h | h | h | h | h | h <;> omega
    have key : ∀ i : Fin 14, (toString i.val).toList ≠ [] ∧ (toString i.val).toList.all Char.isDigit = true := by decide +kernel
    obtain ⟨k1, k2⟩ := key ⟨i, by omega⟩
    simp only at k1 k2
    unfold expand
    simp only
    rw [if_pos k1, if_pos k2]
    rfl

theorem head_letter (g : Char) (n : Nat) (h : (g, n) ∈ groupSizes) : upper g = g := by
  rcases groups_cases h with ⟨rfl, _⟩ | ⟨rfl, _⟩ | ⟨rfl, _⟩ | ⟨rfl, _⟩ | ⟨rfl, _⟩ | ⟨rfl, _⟩ | ⟨rfl, _⟩ <;> decide

theorem sort_mem (l : List Str) (s : Str) : s ∈ sort l ↔ s ∈ l := (stableSort_perm id l).mem_iff

theorem sort_unique (l m : List Str) (hl : l.Nodup) (hm : m.Nodup) (h : ∀ s, s ∈ l ↔ s ∈ m) : sort l = sort m := by
  have hp : (sort l).Perm (sort m) :=
    (stableSort_perm id l).trans (((List.perm_ext_iff_of_nodup hl hm).2 h).trans (stableSort_perm id m).symm)
  refine List.Perm.eq_of_pairwise ?_ (stableSort_sorted id l) (stableSort_sorted id m) hp
  intro a b _ _ h1 h2
  exact le_antisymm h1 h2

/-! ## Expanding -/

/-- Expanding a list of shells and groups gives every shell of the groups and every shell of the list,
once, in order. -/
theorem expandall_spec (l : List Str) (h : ∀ s ∈ l, IsShell s ∨ ∃ g n, (g, n) ∈ groupSizes ∧ s = [g]) :
    (∀ s, s ∈ expandall l ↔ (IsShell s ∧ s ∈ l) ∨ ∃ g, [g] ∈ l ∧ ShellOf g s) ∧ (expandall l).Nodup ∧
      (expandall l).Pairwise (· ≤ ·) := by
  refine ⟨?_, ?_, stableSort_sorted id _⟩
  · intro s
    rw [expandall, sort_mem, List.mem_dedup, List.mem_flatMap]
    constructor
    · rintro ⟨a, ha, hs⟩
      rcases h a ha with hi | ⟨g, n, hg, rfl⟩
      · obtain ⟨g, hg⟩ := hi
        rw [expand_shell g a hg] at hs
        obtain rfl : s = a := by simpa using hs
        exact Or.inl ⟨⟨g, hg⟩, ha⟩
      · exact Or.inr ⟨g, ha, ((mem_expand_letter g n hg s).2).1 hs⟩
    · rintro (⟨⟨g, hg⟩, hs⟩ | ⟨g, hg, hs⟩)
      · exact ⟨s, hs, by rw [expand_shell g s hg]; simp⟩
      · obtain ⟨n, hn⟩ := shellOf_group hs
        exact ⟨[g], hg, ((mem_expand_letter g n hn s).2).2 hs⟩
  · exact (stableSort_perm id _).nodup_iff.2 (List.nodup_dedup _)

/-! ## Shrinking -/

theorem shrinkStep_spec (l : List Str) (g : Char) (n : Nat) (h : (g, n) ∈ groupSizes) (s : Str) :
    (s.head? ≠ some g → (s ∈ shrinkStep l g ↔ s ∈ l)) ∧
    (s.head? = some g → ((Complete l g ∧ s = [g]) ∨ (¬ Complete l g ∧ s ∈ l) ↔ s ∈ shrinkStep l g)) := by
  have hall : ((expand [g]).iter.all fun s => decide (s ∈ l)) = true ↔ Complete l g := by
    rw [List.all_eq_true]
    constructor
    · intro h2 s hs
      simpa using h2 s (((mem_expand_letter g n h s).1).2 hs)
    · intro h2 s hs
      simpa using h2 s (((mem_expand_letter g n h s).1).1 hs)
  unfold shrinkStep
  by_cases hc : Complete l g
  · rw [if_pos (hall.2 hc)]
    constructor
    · intro hs
      rw [List.mem_append, List.mem_filter]
      constructor
      · rintro (⟨h1, _⟩ | h1)
        · exact h1
        · exfalso
          obtain rfl : s = [g] := by simpa using h1
          exact hs rfl
      · intro h1
        exact Or.inl ⟨h1, by simpa using hs⟩
    · intro hs
      rw [List.mem_append, List.mem_filter]
      constructor
      · rintro (⟨_, rfl⟩ | ⟨h1, _⟩)
        · right; simp
        · exact absurd hc h1
      · rintro (⟨_, h1⟩ | h1)
        · simp [hs] at h1
        · exact Or.inl ⟨hc, by simpa using h1⟩
  · rw [if_neg (fun h2 => hc (hall.1 h2))]
    refine ⟨fun _ => Iff.rfl, fun _ => ?_⟩
    constructor
    · rintro (⟨h1, _⟩ | ⟨_, h1⟩)
      · exact absurd h1 hc
      · exact h1
    · intro h1; exact Or.inr ⟨hc, h1⟩

theorem shrinkAll_spec (gs : List Char) (hg : ∀ g ∈ gs, ∃ n, (g, n) ∈ groupSizes) (hd : gs.Nodup) (l : List Str) (s : Str) :
    s ∈ gs.foldl shrinkStep l ↔
      (∃ g ∈ gs, s.head? = some g ∧ Complete l g ∧ s = [g]) ∨
      (s ∈ l ∧ ∀ g ∈ gs, s.head? = some g → ¬ Complete l g) := by
  induction gs generalizing l with
  | nil => simp
  | cons g gs ih =>
    rw [List.nodup_cons] at hd
    obtain ⟨n, hn⟩ := hg g (by simp)
    rw [List.foldl_cons, ih (fun x hx => hg x (by simp [hx])) hd.2]
    have hcomp : ∀ g' ∈ gs, (Complete (shrinkStep l g) g' ↔ Complete l g') := by
      intro g' hg'
      have hne : g' ≠ g := fun e => hd.1 (e ▸ hg')
      constructor <;> intro h t ht
      · have h1 := (shrinkStep_spec l g n hn t).1 (by rw [shellOf_head ht]; simpa using hne)
        exact h1.1 (h t ht)
      · have h1 := (shrinkStep_spec l g n hn t).1 (by rw [shellOf_head ht]; simpa using hne)
        exact h1.2 (h t ht)
    by_cases hs : s.head? = some g
    · have h2 := (shrinkStep_spec l g n hn s).2 hs
      have hno : ∀ g' ∈ gs, s.head? ≠ some g' := by
        intro g' hg' e
        rw [hs] at e
        exact hd.1 (Option.some.inj e ▸ hg')
      constructor
      · rintro (⟨g', hg', e, _⟩ | ⟨h3, _⟩)
        · exact absurd e (hno g' hg')
        · rcases h2.2 h3 with ⟨h4, h5⟩ | ⟨h4, h5⟩
          · exact Or.inl ⟨g, by simp, hs, h4, h5⟩
          · refine Or.inr ⟨h5, ?_⟩
            intro g' hg' e
            rcases List.mem_cons.1 hg' with rfl | hg'
            · exact h4
            · exact absurd e (hno g' hg')
      · rintro (⟨g', hg', e, h4, h5⟩ | ⟨h5, h4⟩)
        · have : g' = g := by rw [hs] at e; exact (Option.some.inj e).symm
          subst this
          exact Or.inr ⟨h2.1 (Or.inl ⟨h4, h5⟩), fun g'' hg'' e => absurd e (hno g'' hg'')⟩
        · exact Or.inr ⟨h2.1 (Or.inr ⟨h4 g (by simp) hs, h5⟩), fun g'' hg'' e => absurd e (hno g'' hg'')⟩
    · have h2 := (shrinkStep_spec l g n hn s).1 hs
      constructor
      · rintro (⟨g', hg', e, h4, h5⟩ | ⟨h5, h4⟩)
        · exact Or.inl ⟨g', by simp [hg'], e, (hcomp g' hg').1 h4, h5⟩
        · refine Or.inr ⟨h2.1 h5, ?_⟩
          intro g' hg' e
          rcases List.mem_cons.1 hg' with rfl | hg'
          · exact absurd e hs
          · exact fun h => h4 g' hg' e ((hcomp g' hg').2 h)
      · rintro (⟨g', hg', e, h4, h5⟩ | ⟨h5, h4⟩)
        · rcases List.mem_cons.1 hg' with rfl | hg'
          · exact absurd e hs
          · exact Or.inl ⟨g', hg', e, (hcomp g' hg').2 h4, h5⟩
        · refine Or.inr ⟨h2.2 h5, ?_⟩
          intro g' hg' e h
          exact h4 g' (by simp [hg']) e ((hcomp g' hg').1 h)

/-- Shrinking a list of shells replaces the shells of every complete group by the letter of the group and
keeps the others, whatever the order of the groups. -/
theorem shrink_spec (groups : List Char) (l : List Str) (hg : Groups groups l) (hl : ∀ s ∈ l, IsShell s) (s : Str) :
    s ∈ shrink groups l ↔
      (∃ g, s = [g] ∧ Complete l g ∧ ∃ t ∈ l, ShellOf g t) ∨
      (s ∈ l ∧ ∀ g, ShellOf g s → ¬ Complete l g) := by
  have hof : ∀ t ∈ l, ∀ g, t.head? = some g → ShellOf g t := by
    intro t ht g e
    obtain ⟨g', h'⟩ := hl t ht
    have := shellOf_head h'
    rw [this] at e
    exact Option.some.inj e ▸ h'
  have hgs : ∀ g ∈ groups, ∃ n, (g, n) ∈ groupSizes := by
    intro g h
    obtain ⟨t, ht, e⟩ := (hg.2 g).1 h
    exact shellOf_group (hof t ht g e)
  rw [shrink, sort_mem, shrinkAll_spec groups hgs hg.1]
  constructor
  · rintro (⟨g, h1, h2, h3, h4⟩ | ⟨h1, h2⟩)
    · obtain ⟨t, ht, e⟩ := (hg.2 g).1 h1
      exact Or.inl ⟨g, h4, h3, t, ht, hof t ht g e⟩
    · exact Or.inr ⟨h1, fun g h3 => h2 g ((hg.2 g).2 ⟨s, h1, shellOf_head h3⟩) (shellOf_head h3)⟩
  · rintro (⟨g, rfl, h3, t, ht, h4⟩ | ⟨h1, h2⟩)
    · exact Or.inl ⟨g, (hg.2 g).2 ⟨t, ht, shellOf_head h4⟩, rfl, h3, rfl⟩
    · exact Or.inr ⟨h1, fun g _ e => h2 g (hof s h1 g e)⟩

/-- Expanding what was shrunk gives the sorted shells back. -/
theorem expandall_shrink (groups : List Char) (l : List Str) (hg : Groups groups l) (hl : ∀ s ∈ l, IsShell s)
    (hd : l.Nodup) : expandall (shrink groups l) = sort l := by
  refine sort_unique _ _ (List.nodup_dedup _) hd ?_
  intro s
  have hok : ∀ a ∈ shrink groups l, IsShell a ∨ ∃ g n, (g, n) ∈ groupSizes ∧ a = [g] := by
    intro a ha
    rcases (shrink_spec groups l hg hl a).1 ha with ⟨g, rfl, _, t, _, h3⟩ | ⟨h1, _⟩
    · obtain ⟨n, hn⟩ := shellOf_group h3
      exact Or.inr ⟨g, n, hn, rfl⟩
    · exact Or.inl (hl a h1)
  have := (expandall_spec (shrink groups l) hok).1 s
  rw [expandall, sort_mem] at this
  rw [this]
  constructor
  · rintro (⟨⟨g, hs⟩, h2⟩ | ⟨g, h2, hs⟩)
    · rcases (shrink_spec groups l hg hl s).1 h2 with ⟨g', rfl, h3, _⟩ | ⟨h1, _⟩
      · have : g' = g := by have := shellOf_head hs; simpa using this
        subst this
        exact h3 _ hs
      · exact h1
    · rcases (shrink_spec groups l hg hl [g]).1 h2 with ⟨g', e, h3, _⟩ | ⟨h1, h4⟩
      · obtain rfl : g = g' := by simpa using e
        exact h3 s hs
      · obtain ⟨g', h5⟩ := hl _ h1
        have : g' = g := by have := shellOf_head h5; simpa using this.symm
        subst this
        have hK : g' = 'K' := by
          rcases h5 with ⟨rfl, _⟩ | ⟨n, i, _, _, _, _, h6⟩
          · rfl
          · have : (toString i).toList = [] := by simpa using h6.symm
            have h0 : ∀ i : Nat, (toString i).toList ≠ [] := by
              intro i h
              have h1 : (toString i).toList.length = 0 := by rw [h]; rfl
              have h2 : 0 < (toString i).length := Nat.length_repr_pos
              rw [String.length_toList] at h1
              omega
            exact absurd this (h0 i)
        subst hK
        rcases hs with ⟨_, rfl⟩ | ⟨_, _, _, h, _⟩
        · exact h1
        · exact absurd rfl h
  · intro h1
    obtain ⟨g, hs⟩ := hl s h1
    by_cases hc : Complete l g
    · exact Or.inr ⟨g, (shrink_spec groups l hg hl _).2 (Or.inl ⟨g, rfl, hc, s, h1, hs⟩), hs⟩
    · refine Or.inl ⟨⟨g, hs⟩, (shrink_spec groups l hg hl _).2 (Or.inr ⟨h1, ?_⟩)⟩
      intro g' hs'
      have : g' = g := by
        have a := shellOf_head hs; have b := shellOf_head hs'
        rw [a] at b; exact (Option.some.inj b).symm
      rwa [this]

/-- What PyMca is told without splitting: K, L and M shells only; the M shells only when all of them are
excited. -/
theorem pymcafactory_spec (groups : List Char) (l : List Str) (hg : Groups groups l) (hl : ∀ s ∈ l, IsShell s) (s : Str) :
    s ∈ pymcafactory groups l [] false ↔
      (∃ g, (g = 'K' ∨ g = 'L' ∨ g = 'M') ∧ s = [g] ∧ Complete l g ∧ ∃ t ∈ l, ShellOf g t) ∨
      (ShellOf 'L' s ∧ s ∈ l ∧ ¬ Complete l 'L') := by
  have hM : ∀ g s, ShellOf g s → s.head? = some g := fun g s h => shellOf_head h
  simp only [pymcafactory, ne_eq, not_true_eq_false, if_false, Bool.false_eq_true, List.mem_filter, shrink_spec groups l hg hl s]
  constructor
  · rintro ⟨⟨h, h2⟩, h3⟩
    have h2 : s.head? = some 'K' ∨ s.head? = some 'L' ∨ s.head? = some 'M' := by simpa using h2
    rcases h with ⟨g, rfl, h4, h5⟩ | ⟨h4, h5⟩
    · exact Or.inl ⟨g, by simpa using h2, rfl, h4, h5⟩
    · obtain ⟨g, hs⟩ := hl s h4
      have hh := shellOf_head hs
      have hn := h5 g hs
      rw [hh] at h2 h3
      rcases h2 with e | e | e
      · obtain rfl : g = 'K' := Option.some.inj e
        exfalso
        apply hn
        rcases hs with ⟨_, rfl⟩ | ⟨_, _, _, h, _⟩
        · intro t ht
          rcases ht with ⟨_, rfl⟩ | ⟨_, _, _, h, _⟩
          · exact h4
          · exact absurd rfl h
        · exact absurd rfl h
      · obtain rfl : g = 'L' := Option.some.inj e
        exact Or.inr ⟨hs, h4, hn⟩
      · obtain rfl : g = 'M' := Option.some.inj e
        exfalso
        have h6 : s = ['M'] := by simpa using h3
        subst h6
        rcases hs with ⟨h, _⟩ | ⟨n, i, h, _, h7, h8, h9⟩
        · exact absurd h (by decide)
        · have hn5 : n = 5 := by simpa [groupSizes] using h
          have key : ∀ i : Fin 6, (toString i.val).toList ≠ [] := by decide +kernel
          exact key ⟨i, by omega⟩ (by simpa using h9.symm)
  · rintro (⟨g, hg3, rfl, h4, h5⟩ | ⟨hs, h4, h5⟩)
    · refine ⟨⟨Or.inl ⟨g, rfl, h4, h5⟩, ?_⟩, ?_⟩
      · rcases hg3 with rfl | rfl | rfl <;> decide
      · rcases hg3 with rfl | rfl | rfl <;> decide
    · have hh := shellOf_head hs
      refine ⟨⟨Or.inr ⟨h4, ?_⟩, by simp [hh]⟩, by simp [hh]⟩
      intro g hg'
      have : g = 'L' := by
        have := shellOf_head hg'
        rw [hh] at this
        exact (Option.some.inj this).symm
      rwa [this]

/-- Selecting a group to be split drops all other shells and keeps the group itself next to its shells. -/
theorem expandselection_spec (shells : List Str) (sel s : Str) :
    s ∈ expandselection shells [sel] ↔ (s = sel ∧ sel ∈ shells) ∨ s ∈ (expand sel).iter := by
  simp only [expandselection, sort_mem, List.foldl_cons, List.foldl_nil, List.mem_append, List.mem_filter]
  constructor
  · rintro (⟨h1, h2⟩ | h)
    · have h2 : s = sel := by simpa using h2
      subst h2
      exact Or.inl ⟨rfl, h1⟩
    · exact Or.inr h
  · rintro (⟨rfl, h1⟩ | h)
    · exact Or.inl ⟨h1, by simp⟩
    · exact Or.inr h

/-- So asking PyMca to split the L shells loses the K and M shells, and the L shells are there twice. -/
theorem split_loses_shells :
    pymcafactory ['K', 'L', 'M'] (["K", "L1", "L2", "L3", "M1", "M2", "M3", "M4", "M5"].map String.toList) [] false =
      ["K", "L", "M"].map String.toList ∧
    pymcafactory ['K', 'L', 'M'] (["K", "L1", "L2", "L3", "M1", "M2", "M3", "M4", "M5"].map String.toList) [['L']] false =
      ["L", "L1", "L2", "L3"].map String.toList := by decide +kernel

/-- Selecting a single subshell puts its characters in the list. -/
theorem split_subshell : expandselection (["K", "L1", "L2"].map String.toList) ["L1".toList] =
    ["1", "L", "L1"].map String.toList := by decide +kernel

/-! ## Rates -/

/-- When none of the lines of a composite has a rate of its own, their rates add up to the rate of the
composite. -/
theorem composite_rate (T : Tables) (c : Int) (hm : ∀ x ∈ T.members c, T.rate x = 0 ∧ firstKnown T.rate (T.composites x) = some c)
    (hn : T.members c ≠ []) : ((T.members c).map (radrate T)).sum = T.rate c := by
  have h1 : (T.members c).map (radrate T) = (T.members c).map fun _ => T.rate c / (T.members c).length := by
    apply List.map_congr_left
    intro x hx
    obtain ⟨h1, h2⟩ := hm x hx
    simp [radrate, h1, h2]
  rw [h1]
  have : ((T.members c).length : ℚ) ≠ 0 := by
    have := List.length_pos_of_ne_nil hn
    exact_mod_cast this.ne'
  simp only [List.map_const', List.sum_replicate, nsmul_eq_mul]
  rw [mul_div_assoc', mul_div_cancel_left₀ _ this]

/-- A line with a value of its own has that value. -/
theorem own_value (T : Tables) (x : Int) : (T.rate x ≠ 0 → radrate T x = T.rate x) ∧
    (T.energy x ≠ 0 → lineEnergy T x = T.energy x) :=
  ⟨fun h => by simp [radrate, h], fun h => by simp [lineEnergy, h]⟩

/-- A line without any value has the value of a composite it is in, or zero. -/
theorem composite_energy (T : Tables) (x : Int) (h : T.energy x = 0) :
    (lineEnergy T x = 0 ∧ ∀ c ∈ T.composites x, c < 0 → T.energy c = 0) ∨
    ∃ c ∈ T.composites x, c < 0 ∧ T.energy c ≠ 0 ∧ lineEnergy T x = T.energy c := by
  unfold lineEnergy
  rw [if_pos h]
  cases hf : firstKnown T.energy (T.composites x) with
  | none =>
    refine Or.inl ⟨rfl, ?_⟩
    intro c hc h0
    unfold firstKnown at hf
    rw [List.find?_eq_none] at hf
    have := hf c hc
    simpa [h0] using this
  | some c =>
    refine Or.inr ⟨c, ?_⟩
    unfold firstKnown at hf
    have h1 := List.mem_of_find?_eq_some hf
    have h2 := List.find?_some hf
    simp only [Bool.and_eq_true, decide_eq_true_eq, not_le] at h2
    exact ⟨h1, h2.1, h2.2, rfl⟩

/-- A line without a rate has an equal share of the rate of a composite it is in, or zero. -/
theorem composite_share (T : Tables) (x : Int) (h : T.rate x = 0) :
    (radrate T x = 0 ∧ ∀ c ∈ T.composites x, c < 0 → T.rate c = 0) ∨
    ∃ c ∈ T.composites x, c < 0 ∧ T.rate c ≠ 0 ∧ radrate T x * (T.members c).length = (if T.members c = [] then 0 else T.rate c) := by
  unfold radrate
  rw [if_pos h]
  cases hf : firstKnown T.rate (T.composites x) with
  | none =>
    refine Or.inl ⟨rfl, ?_⟩
    intro c hc h0
    unfold firstKnown at hf
    rw [List.find?_eq_none] at hf
    have := hf c hc
    simpa [h0] using this
  | some c =>
    refine Or.inr ⟨c, ?_⟩
    unfold firstKnown at hf
    have h1 := List.mem_of_find?_eq_some hf
    have h2 := List.find?_some hf
    simp only [Bool.and_eq_true, decide_eq_true_eq, not_le] at h2
    refine ⟨h1, h2.1, h2.2, ?_⟩
    simp only
    split
    · next h3 => simp [h3]
    · next h3 =>
      have : ((T.members c).length : ℚ) ≠ 0 := by
        have := List.length_pos_of_ne_nil h3
        exact_mod_cast this.ne'
      exact div_mul_cancel₀ _ this

/-- When one line of a composite has a rate and another has not, the parts do not add up. -/
theorem composite_rate_broken : ∃ T : Tables, ((T.members (-10)).map (radrate T)).sum ≠ T.rate (-10) ∧
    T.rate (-1) + T.rate (-2) ≤ T.rate (-10) :=
  ⟨⟨fun c => if c = -1 then 1 / 2 else if c = -10 then 3 / 4 else 0, fun _ => 0, fun _ => [-1, -2], fun _ => [-10]⟩,
    by decide +kernel⟩

/-- The yields of the lines add up to the yield of the shell when the lines are given. -/
theorem fluoyield_lines (T : Tables) (y : ℚ) (l : List Int) (h : l.Nodup) :
    ((partialFluoyieldLines T y l).map Prod.snd).sum = partialFluoyield T y (some l) := by
  simp only [partialFluoyieldLines, List.dedup_eq_self.2 h, List.map_map, Function.comp_def, partialFluoyield]
  exact List.sum_map_mul_left (r := y) (f := radrate T) l

example : Groups ['L', 'K'] [['K'], ['L', '1'], ['L', '3']] := by
  refine ⟨by decide, ?_⟩
  intro g
  constructor
  · intro h
    rcases List.mem_cons.1 h with rfl | h
    · exact ⟨['L', '1'], by simp, rfl⟩
    · obtain rfl : g = 'K' := by simpa using h
      exact ⟨['K'], by simp, rfl⟩
  · rintro ⟨s, hs, h⟩
    simp only [List.mem_cons, List.not_mem_nil, or_false] at hs
    rcases hs with rfl | rfl | rfl <;> obtain rfl := Option.some.inj h <;> simp

example : IsShell "M4".toList := ⟨'M', Or.inr ⟨5, 4, by simp [groupSizes], by decide, by omega, by omega, by decide +kernel⟩⟩

end SC.Spectrum
