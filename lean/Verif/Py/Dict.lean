import Mathlib.Data.List.Nodup
/-! # Python dictionaries (trusted specification)

Not part of /repo.  A `dict` as a list of items in insertion order; keys are distinct
(`Dict.WF`, kept by all operations). -/
namespace SC.Py

variable {K V : Type} [DecidableEq K]

abbrev Dict (K V : Type) := List (K × V)

/-- `d.get(k)` -/
def Dict.get? : Dict K V → K → Option V
  | [], _ => none
  | (x, v) :: d, k => if x = k then some v else Dict.get? d k

/-- `d[k] = v`: an existing key keeps its place. -/
def Dict.set : Dict K V → K → V → Dict K V
  | [], k, v => [(k, v)]
  | (x, w) :: d, k, v => if x = k then (x, v) :: d else (x, w) :: Dict.set d k v

/-- `del d[k]` (no effect when missing) -/
def Dict.del (d : Dict K V) (k : K) : Dict K V := d.filter (fun p => !decide (p.1 = k))

/-- `list(d)` -/
def Dict.keys (d : Dict K V) : List K := d.map Prod.fst

/-- `d.update(items)` -/
def Dict.update (d : Dict K V) (l : List (K × V)) : Dict K V := l.foldl (fun d p => Dict.set d p.1 p.2) d

/-- distinct keys -/
def Dict.WF (d : Dict K V) : Prop := (Dict.keys d).Nodup

theorem Dict.get?_set (d : Dict K V) (k x : K) (v : V) :
    Dict.get? (Dict.set d k v) x = if k = x then some v else Dict.get? d x := by
  induction d with
  | nil => simp [Dict.set, Dict.get?]
  | cons p d ih =>
    obtain ⟨y, w⟩ := p
    simp only [Dict.set]
    by_cases h1 : y = k
    · subst h1
      simp only [if_true, Dict.get?]
      split <;> rfl
    · simp only [h1, if_false, Dict.get?, ih]
      by_cases h2 : y = x
      · subst h2
        have : k ≠ y := fun e => h1 e.symm
        simp [this]
      · simp [h2]

theorem Dict.get?_del (d : Dict K V) (k x : K) :
    Dict.get? (Dict.del d k) x = if k = x then none else Dict.get? d x := by
  induction d with
  | nil => simp [Dict.del, Dict.get?]
  | cons p d ih =>
    obtain ⟨y, w⟩ := p
    simp only [Dict.del] at ih
    simp only [Dict.del, List.filter_cons]
    by_cases h1 : y = k
    · subst h1
      simp only [decide_true, Bool.not_true, Bool.false_eq_true, if_false, ih, Dict.get?]
      split <;> rfl
    · simp only [h1, decide_false, Bool.not_false, if_true, Dict.get?, ih]
      by_cases h2 : y = x
      · subst h2
        have : k ≠ y := fun e => h1 e.symm
        simp [this]
      · simp [h2]

theorem Dict.get?_isSome (d : Dict K V) (k : K) : (Dict.get? d k).isSome ↔ k ∈ Dict.keys d := by
  induction d with
  | nil => simp [Dict.get?, Dict.keys]
  | cons p d ih =>
    obtain ⟨y, w⟩ := p
    simp only [Dict.keys] at ih
    simp only [Dict.get?, Dict.keys, List.map_cons, List.mem_cons]
    by_cases h : y = k
    · simp [h]
    · simp [h, ih, Ne.symm h, eq_comm]

theorem Dict.get?_none (d : Dict K V) (k : K) : Dict.get? d k = none ↔ k ∉ Dict.keys d := by
  rw [← Dict.get?_isSome]; cases Dict.get? d k <;> simp

theorem Dict.get?_mem {d : Dict K V} {k : K} {v : V} (h : Dict.get? d k = some v) : (k, v) ∈ d := by
  induction d with
  | nil => simp [Dict.get?] at h
  | cons p d ih =>
    obtain ⟨y, w⟩ := p
    simp only [Dict.get?] at h
    split at h
    · rename_i e; cases h; subst e; exact List.mem_cons_self ..
    · exact List.mem_cons_of_mem _ (ih h)

theorem Dict.get?_of_mem {d : Dict K V} (hd : Dict.WF d) {k : K} {v : V} (h : (k, v) ∈ d) :
    Dict.get? d k = some v := by
  induction d with
  | nil => simp at h
  | cons p d ih =>
    obtain ⟨y, w⟩ := p
    simp only [Dict.WF, Dict.keys, List.map_cons, List.nodup_cons] at hd
    rcases List.mem_cons.mp h with e | hm
    · cases e; simp [Dict.get?]
    · have hne : y ≠ k := by
        intro e; subst e
        exact hd.1 (List.mem_map.mpr ⟨(y, v), hm, rfl⟩)
      simp only [Dict.get?, hne, if_false]
      exact ih hd.2 hm

theorem Dict.mem_keys_set (d : Dict K V) (k x : K) (v : V) :
    x ∈ Dict.keys (Dict.set d k v) ↔ x = k ∨ x ∈ Dict.keys d := by
  rw [← Dict.get?_isSome, ← Dict.get?_isSome, Dict.get?_set]
  by_cases h : k = x
  · simp [h]
  · simp [h, Ne.symm h]

theorem Dict.keys_set (d : Dict K V) (k : K) (v : V) :
    Dict.keys (Dict.set d k v) = if k ∈ Dict.keys d then Dict.keys d else Dict.keys d ++ [k] := by
  induction d with
  | nil => simp [Dict.set, Dict.keys]
  | cons p d ih =>
    obtain ⟨y, w⟩ := p
    simp only [Dict.keys] at ih
    simp only [Dict.set, Dict.keys]
    by_cases h : y = k
    · simp [h]
    · simp only [h, if_false, List.map_cons, ih, List.mem_cons, Ne.symm h, false_or]
      split <;> simp [*]

theorem Dict.wf_set (d : Dict K V) (hd : Dict.WF d) (k : K) (v : V) : Dict.WF (Dict.set d k v) := by
  simp only [Dict.WF, Dict.keys_set]
  split
  · exact hd
  · rename_i h
    exact List.nodup_append.mpr ⟨hd, by simp, by
      intro a ha b hb e
      rw [List.mem_singleton] at hb
      exact h (hb ▸ e ▸ ha)⟩

theorem Dict.keys_del (d : Dict K V) (k : K) : Dict.keys (Dict.del d k) = (Dict.keys d).filter (fun x => !decide (x = k)) := by
  simp only [Dict.keys, Dict.del, List.filter_map]
  rfl

theorem Dict.wf_del (d : Dict K V) (hd : Dict.WF d) (k : K) : Dict.WF (Dict.del d k) := by
  simp only [Dict.WF, Dict.keys_del]; exact hd.filter _

theorem Dict.update_append (d : Dict K V) (l m : List (K × V)) :
    Dict.update d (l ++ m) = Dict.update (Dict.update d l) m := by
  simp [Dict.update, List.foldl_append]

/-- The last item with a key wins. -/
theorem Dict.get?_update (d : Dict K V) (l : List (K × V)) (x : K) :
    Dict.get? (Dict.update d l) x = (Dict.get? l.reverse x).or (Dict.get? d x) := by
  induction l generalizing d with
  | nil => simp [Dict.update, Dict.get?]
  | cons p l ih =>
    obtain ⟨y, w⟩ := p
    have : Dict.update d ((y, w) :: l) = Dict.update (Dict.set d y w) l := rfl
    rw [this, ih, List.reverse_cons, Dict.get?_set]
    have app : ∀ a : Dict K V, Dict.get? (a ++ [(y, w)]) x = (Dict.get? a x).or (if y = x then some w else none) := by
      intro a
      induction a with
      | nil => simp [Dict.get?]
      | cons q a iha =>
        obtain ⟨z, u⟩ := q
        simp only [List.cons_append, Dict.get?, iha]
        split <;> simp
    rw [app]
    cases Dict.get? l.reverse x with
    | some v => simp
    | none => by_cases h : y = x <;> simp [h]

theorem Dict.wf_update (d : Dict K V) (hd : Dict.WF d) (l : List (K × V)) : Dict.WF (Dict.update d l) := by
  induction l generalizing d with
  | nil => exact hd
  | cons p l ih => exact ih _ (Dict.wf_set d hd p.1 p.2)

end SC.Py
