import Verif.Xia.Spec
import Mathlib.Data.List.Flatten
namespace SC.Xia
open SC.Py SC.Naming SC.Common

section
variable {α κ : Type} [DecidableEq κ] (key : α → κ)

theorem groupBy_flatten (l : List α) : (groupBy key l).flatMap (fun x => x.2) = l := by
  induction l with
  | nil => rfl
  | cons a l ih =>
    simp only [groupBy]
    split
    · next h => rw [h] at ih; simp at ih; simp [← ih]
    · next k g r h =>
      rw [h] at ih
      simp only [List.flatMap_cons] at ih
      split
      · simp [List.flatMap_cons, ih]
      · simp [List.flatMap_cons, ih]

theorem groupBy_mem (l : List α) : ∀ x ∈ groupBy key l, x.2 ≠ [] ∧ ∀ a ∈ x.2, key a = x.1 := by
  induction l with
  | nil => simp [groupBy]
  | cons a l ih =>
    simp only [groupBy]
    split
    · simp
    · next k g r h =>
      rw [h] at ih
      have h1 := ih (k, g) (by simp)
      split
      · next hk =>
        intro x hx
        rcases List.mem_cons.1 hx with rfl | hx
        · refine ⟨by simp, ?_⟩
          intro b hb
          rcases List.mem_cons.1 hb with rfl | hb
          · exact hk
          · exact h1.2 b hb
        · exact ih x (by simp [hx])
      · intro x hx
        rcases List.mem_cons.1 hx with rfl | hx
        · simp
        · exact ih x hx

/-- Runs of a list on which the key follows an order. -/
theorem groupBy_strict {ρ : Type} [LinearOrder ρ] (r : α → ρ) (l : List α)
    (hs : l.Pairwise (fun a b => r a ≤ r b)) (hi : ∀ a ∈ l, ∀ b ∈ l, key a = key b ↔ r a = r b) :
    (groupBy key l).Pairwise (fun x y => ∀ a ∈ x.2, ∀ b ∈ y.2, r a < r b) := by
  induction l with
  | nil => simp [groupBy]
  | cons a l ih =>
    rw [List.pairwise_cons] at hs
    have ih := ih hs.2 (fun b hb c hc => hi b (by simp [hb]) c (by simp [hc]))
    have hf := groupBy_flatten key l
    have hm := groupBy_mem key l
    simp only [groupBy]
    split
    · simp
    · next k g rest h =>
      rw [h] at ih hf hm
      rw [List.pairwise_cons] at ih
      have hmem : ∀ b, b ∈ g ∨ (∃ y ∈ rest, b ∈ y.2) → b ∈ l := by
        intro b hb
        rw [← hf, List.flatMap_cons, List.mem_append, List.mem_flatMap]
        exact hb
      obtain ⟨hg, hgk⟩ := hm (k, g) (by simp)
      obtain ⟨b0, hb0⟩ := List.exists_mem_of_ne_nil _ hg
      have hb0l : b0 ∈ l := hmem b0 (Or.inl hb0)
      split
      · next hk =>
        rw [List.pairwise_cons]
        refine ⟨?_, ih.2⟩
        intro y hy c hc d hd
        rcases List.mem_cons.1 hc with rfl | hc
        · have : r c = r b0 := (hi c (by simp) b0 (by simp [hb0l])).1 (by rw [hk, hgk b0 hb0])
          rw [this]
          exact ih.1 y hy b0 hb0 d hd
        · exact ih.1 y hy c hc d hd
      · next hk =>
        have hlt : ∀ b ∈ g, r a < r b := by
          intro b hb
          have hbl := hmem b (Or.inl hb)
          refine lt_of_le_of_ne (hs.1 b hbl) ?_
          intro e
          exact hk (((hi a (by simp) b (by simp [hbl])).2 e).trans (hgk b hb))
        rw [List.pairwise_cons]
        refine ⟨?_, List.pairwise_cons.2 ih⟩
        intro y hy c hc d hd
        simp only [List.mem_singleton] at hc
        subst hc
        rcases List.mem_cons.1 hy with rfl | hy
        · exact hlt d hd
        · exact lt_trans (hlt b0 hb0) (ih.1 y hy b0 hb0 d hd)

theorem groupBy_nodup {ρ : Type} [LinearOrder ρ] (r : α → ρ) (l : List α)
    (hs : l.Pairwise (fun a b => r a ≤ r b)) (hi : ∀ a ∈ l, ∀ b ∈ l, key a = key b ↔ r a = r b) :
    ((groupBy key l).map Prod.fst).Nodup := by
  rw [List.Nodup, List.pairwise_map]
  refine (groupBy_strict key r l hs hi).imp_of_mem ?_
  intro x y hx hy h e
  obtain ⟨hx1, hx2⟩ := groupBy_mem key l x hx
  obtain ⟨hy1, hy2⟩ := groupBy_mem key l y hy
  obtain ⟨a, ha⟩ := List.exists_mem_of_ne_nil _ hx1
  obtain ⟨b, hb⟩ := List.exists_mem_of_ne_nil _ hy1
  have hf := groupBy_flatten key l
  have hal : a ∈ l := by rw [← hf, List.mem_flatMap]; exact ⟨x, hx, ha⟩
  have hbl : b ∈ l := by rw [← hf, List.mem_flatMap]; exact ⟨y, hy, hb⟩
  have := h a ha b hb
  rw [(hi a hal b hbl).1 (by rw [hx2 a ha, hy2 b hb, e])] at this
  exact lt_irrefl _ this

/-- With distinct run keys, looking a key up gives all elements with that key, in order. -/
theorem groupBy_get (f : List α → β) (l : List α) (hn : ((groupBy key l).map Prod.fst).Nodup) (k : κ) :
    Dict.get? ((groupBy key l).map (fun x => (x.1, f x.2))) k =
      if l.filter (fun a => decide (key a = k)) = [] then none else some (f (l.filter (fun a => decide (key a = k)))) := by
  have hf := groupBy_flatten key l
  have hm := groupBy_mem key l
  conv_rhs => rw [← hf]
  generalize groupBy key l = gs at hn hm
  clear hf
  induction gs with
  | nil => simp [Dict.get?]
  | cons x gs ih =>
    obtain ⟨k', g⟩ := x
    simp only [List.map_cons, List.nodup_cons] at hn
    obtain ⟨hg, hgk⟩ := hm (k', g) (by simp)
    simp only [List.map_cons, Dict.get?, List.flatMap_cons, List.filter_append]
    by_cases e : k' = k
    · subst e
      have h1 : g.filter (fun a => decide (key a = k')) = g := by
        rw [List.filter_eq_self]; intro a ha; simpa using hgk a ha
      have h2 : (gs.flatMap (fun x => x.2)).filter (fun a => decide (key a = k')) = [] := by
        rw [List.filter_eq_nil_iff]
        intro a ha
        obtain ⟨y, hy, hay⟩ := List.mem_flatMap.1 ha
        have := (hm y (by simp [hy])).2 a hay
        simp only [decide_eq_true_eq, this]
        intro e
        exact hn.1 (List.mem_map.2 ⟨y, hy, e⟩)
      rw [h1, h2]
      simp [hg]
    · have h1 : g.filter (fun a => decide (key a = k)) = [] := by
        rw [List.filter_eq_nil_iff]; intro a ha; simpa [hgk a ha] using e
      rw [h1]
      simp only [e, if_false, List.nil_append]
      exact ih hn.2 (fun y hy => hm y (by simp [hy]))

theorem groupBy_pair {κ' : Type} [DecidableEq κ'] (key' : α → κ') (l : List α) :
    (groupBy key l).flatMap (fun x => (groupBy key' x.2).map (fun y => ((x.1, y.1), y.2))) =
      groupBy (fun a => (key a, key' a)) l := by
  induction l with
  | nil => rfl
  | cons a l ih =>
    have hm := groupBy_mem key l
    simp only [groupBy]
    rw [← ih]
    cases h : groupBy key l with
    | nil => simp [groupBy]
    | cons x r =>
      obtain ⟨k, g⟩ := x
      rw [h] at hm
      obtain ⟨hg, _⟩ := hm (k, g) (by simp)
      have hg' : groupBy key' g ≠ [] := by
        intro e
        have := groupBy_flatten key' g
        rw [e] at this
        exact hg (by simpa using this.symm)
      obtain ⟨y, ys, hy⟩ := List.exists_cons_of_ne_nil hg'
      obtain ⟨k', g'⟩ := y
      simp only [List.flatMap_cons, hy, List.map_cons, List.cons_append]
      by_cases e : key a = k
      · simp only [e, if_true, List.flatMap_cons, groupBy, hy, Prod.mk.injEq, true_and]
        by_cases e' : key' a = k'
        · simp [e']
        · simp [e']
      · simp [e, groupBy, hy]

end

/-! ## dictionaries filled with distinct keys -/

theorem set_fresh {κ V : Type} [DecidableEq κ] (d : Dict κ V) (k : κ) (v : V) (h : k ∉ d.keys) :
    d.set k v = d ++ [(k, v)] := by
  induction d with
  | nil => rfl
  | cons x d ih =>
    obtain ⟨y, w⟩ := x
    simp only [Dict.keys, List.map_cons, List.mem_cons, not_or] at h
    simp only [Dict.set, Ne.symm h.1, if_false, List.cons_append]
    rw [ih h.2]

theorem foldl_set {κ V α : Type} [DecidableEq κ] (d : Dict κ V) (l : List α) (kf : α → κ) (vf : α → V)
    (hn : (l.map kf).Nodup) (hd : ∀ x ∈ l, kf x ∉ d.keys) :
    l.foldl (fun d x => d.set (kf x) (vf x)) d = d ++ l.map (fun x => (kf x, vf x)) := by
  induction l generalizing d with
  | nil => simp
  | cons a l ih =>
    simp only [List.map_cons, List.nodup_cons] at hn
    simp only [List.foldl_cons]
    rw [set_fresh d _ _ (hd a (by simp)), ih _ hn.2]
    · simp
    · intro x hx
      simp only [Dict.keys, List.map_append, List.map_cons, List.map_nil, List.mem_append, List.mem_singleton, not_or]
      refine ⟨hd x (by simp [hx]), ?_⟩
      intro e
      exact hn.1 (by rw [← e]; exact List.mem_map_of_mem hx)

theorem foldl_update {κ V α : Type} [DecidableEq κ] (d : Dict κ (List V)) (l : List α) (kf : α → κ)
    (f : List V → α → List V) (hn : (l.map kf).Nodup) (hd : ∀ x ∈ l, kf x ∉ d.keys) :
    l.foldl (fun d x => update d (kf x) (fun v => f v x)) d = d ++ l.map (fun x => (kf x, f [] x)) := by
  induction l generalizing d with
  | nil => simp
  | cons a l ih =>
    simp only [List.map_cons, List.nodup_cons] at hn
    simp only [List.foldl_cons]
    have h0 : d.get? (kf a) = none := (Dict.get?_none d _).2 (hd a (by simp))
    have h1 : update d (kf a) (fun v => f v a) = d ++ [(kf a, f [] a)] := by
      simp only [update, h0, Option.getD_none]
      exact set_fresh d _ _ (hd a (by simp))
    rw [h1, ih _ hn.2]
    · simp
    · intro x hx
      simp only [Dict.keys, List.map_append, List.map_cons, List.map_nil, List.mem_append, List.mem_singleton, not_or]
      refine ⟨hd x (by simp [hx]), ?_⟩
      intro e
      exact hn.1 (by rw [← e]; exact List.mem_map_of_mem hx)

theorem fillLeaf_eq {κ : Type} [DecidableEq κ] (key : Item → κ) (l : List Item)
    (hn : ((groupBy key l).map Prod.fst).Nodup) :
    fillLeaf key [] l = (groupBy key l).map (fun x => (x.1, x.2.map Prod.fst)) := by
  unfold fillLeaf
  rw [foldl_set [] (groupBy key l) Prod.fst (fun x => x.2.map Prod.fst) hn (by simp [Dict.keys])]
  rfl

theorem fillNode_eq {κ V : Type} [DecidableEq κ] (key : Item → κ) (inner : List V → List Item → List V)
    (l : List Item) (hn : ((groupBy key l).map Prod.fst).Nodup) :
    fillNode key inner [] l = (groupBy key l).map (fun x => (x.1, inner [] x.2)) := by
  unfold fillNode
  rw [foldl_update [] (groupBy key l) Prod.fst (fun v x => inner v x.2) hn (by simp [Dict.keys])]
  rfl

theorem sub_sorted {κ ρ : Type} [DecidableEq κ] [LinearOrder ρ] (key : Item → κ) (r : Item → ρ) (l : List Item)
    (hs : l.Pairwise (fun a b => r a ≤ r b)) : ∀ x ∈ groupBy key l, x.2.Pairwise (fun a b => r a ≤ r b) := by
  intro x hx
  refine hs.sublist ?_
  have := groupBy_flatten key l
  rw [List.flatMap_def] at this
  rw [← this]
  exact List.sublist_flatten_of_mem (List.mem_map_of_mem hx)

end SC.Xia
