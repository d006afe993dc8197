import Verif.Multilayer.Sample
import Mathlib.Tactic.Ring
import Mathlib.Tactic.FieldSimp
import Mathlib.Data.List.NodupEquivFin
/-! # C59: the configuration of PyMca and the flux of the source -/
namespace SC.Multilayer

variable {M : Type} (toName : M → List Char) (density : M → ℝ) (fromName : List Char → ℝ → M)

/-- C59: a sample of one layer is read back from the configuration, with its angles, except that it is free. -/
theorem one_layer_round_trip (anglein angleout : ℝ) (l : PLayer M) (c : Cfg)
    (hm : fromName (toName l.mat) (density l.mat) = l.mat) (hn : toName l.mat ≠ multiName) :
    ∃ c', savePymca toName density anglein angleout [l] c = .ok c' ∧ c'.multilayer = c.multilayer ∧
      loadPymca fromName c' = .ok (anglein, angleout, [{ l with fixed := false }]) := by
  refine ⟨_, rfl, rfl, ?_⟩
  simp only [loadPymca, if_neg hn, hm]

/-- C59 (deviation): a sample of several layers cannot be saved. -/
theorem layers_not_saved (anglein angleout : ℝ) (ls : List (PLayer M)) (h : 2 ≤ ls.length) (c : Cfg) :
    savePymca toName density anglein angleout ls c = .error .attributeError := by
  match ls, h with
  | a :: b :: ls, _ => rfl

theorem loadLayers_eq (c : Cfg) (xs : List (Bool × List Char × ℝ × ℝ)) : ∀ (fuel i : Nat), xs.length < fuel + i → i ≤ xs.length →
    (∀ j, i ≤ j → j ≤ xs.length → c.layer j = xs[j]?) →
    loadLayers fromName c fuel i = (xs.drop i).filterMap fun x => if x.1 then some ⟨fromName x.2.1 x.2.2.1, x.2.2.2, false⟩ else none
  | 0, i, h, hi, _ => by omega
  | fuel + 1, i, h, hi, hx => by
    unfold loadLayers
    rw [hx i le_rfl hi]
    rcases Nat.lt_or_ge i xs.length with hlt | hge
    · rw [List.drop_eq_getElem_cons hlt, List.getElem?_eq_getElem hlt]
      have ih := loadLayers_eq c xs fuel (i + 1) (by omega) hlt (fun j h1 h2 => hx j (by omega) h2)
      obtain ⟨en, name, d, t⟩ := xs[i]
      simp only [ih]
      cases en <;> simp
    · rw [List.getElem?_eq_none hge, List.drop_eq_nil_of_le hge]
      rfl

theorem layer_mem (c : Cfg) (i : Nat) (x) (h : c.layer i = some x) : i ∈ c.multilayer.map Prod.fst := by
  unfold Cfg.layer at h
  rw [Option.map_eq_some_iff] at h
  obtain ⟨p, hp, -⟩ := h
  have h1 := List.mem_of_find?_eq_some hp
  have h2 := List.find?_some hp
  exact List.mem_map.2 ⟨p, h1, by simpa using h2⟩

theorem layers_bound (c : Cfg) (xs : List (Bool × List Char × ℝ × ℝ)) (hx : ∀ j, j ≤ xs.length → c.layer j = xs[j]?) :
    xs.length ≤ c.multilayer.length := by
  have hsub : List.range xs.length ⊆ c.multilayer.map Prod.fst := by
    intro i hi
    have hi := List.mem_range.1 hi
    exact layer_mem c i xs[i] (by rw [hx i hi.le, List.getElem?_eq_getElem hi])
  have := (List.nodup_range.subperm hsub).length_le
  simpa using this

/-- C59: a configuration of several layers is read as those of the layers that are enabled, in order, up to the first number
that is missing; when there is none, reading fails. -/
theorem layers_loaded (c : Cfg) (d t anglein angleout : ℝ) (hm : c.matrix = some (multiName, d, t, anglein, angleout))
    (xs : List (Bool × List Char × ℝ × ℝ)) (hx : ∀ j, j ≤ xs.length → c.layer j = xs[j]?) :
    loadPymca fromName c =
      if ∃ x ∈ xs, x.1 = true then
        .ok (anglein, angleout, (xs.filter fun x => x.1).map fun x => ⟨fromName x.2.1 x.2.2.1, x.2.2.2, false⟩)
      else .error .valueError := by
  have hl := loadLayers_eq fromName c xs (c.multilayer.length + 1) 0 (by have := layers_bound c xs hx; omega)
    (Nat.zero_le _) (fun j _ h => hx j h)
  have hf : ((xs.drop 0).filterMap fun x => if x.1 then some (⟨fromName x.2.1 x.2.2.1, x.2.2.2, false⟩ : PLayer M) else none) =
      (xs.filter fun x => x.1).map fun x => ⟨fromName x.2.1 x.2.2.1, x.2.2.2, false⟩ := by
    rw [List.drop_zero]
    clear hl hx
    induction xs with
    | nil => rfl
    | cons x xs ih =>
      obtain ⟨en, r⟩ := x
      cases en <;> simp [ih]
  rw [hf] at hl
  unfold loadPymca
  simp only [hm, if_true, hl]
  by_cases h : ∃ x ∈ xs, x.1 = true
  · rw [if_pos h]
    have : ((xs.filter fun x => x.1).map fun x => (⟨fromName x.2.1 x.2.2.1, x.2.2.2, false⟩ : PLayer M)) ≠ [] := by
      obtain ⟨x, hx, hx1⟩ := h
      have : x ∈ xs.filter fun x => x.1 := List.mem_filter.2 ⟨hx, hx1⟩
      intro hc
      rw [List.map_eq_nil_iff] at hc
      rw [hc] at this
      simp at this
    split
    · rename_i h'; exact absurd h' this
    · rfl
  · rw [if_neg h]
    have : (xs.filter fun x => x.1) = [] := by
      rw [List.filter_eq_nil_iff]
      intro x hx hx1
      exact h ⟨x, hx, hx1⟩
    rw [this]
    rfl

/-- C59 (deviation): an empty sample is saved, but cannot be read back. -/
theorem empty_not_loaded (anglein angleout : ℝ) (c : Cfg) (hc : c.multilayer = []) :
    ∃ c', savePymca toName density anglein angleout [] c = .ok c' ∧ loadPymca fromName c' = .error .valueError := by
  refine ⟨_, rfl, ?_⟩
  rw [layers_loaded fromName _ 0 0 anglein angleout rfl [] (by intro j hj; simp [Cfg.layer, hc])]
  simp

/-! ## Flux -/

theorem foldl_div (trans : List (ℝ → ℝ)) (e f : ℝ) (h : ∀ t ∈ trans, t e ≠ 0) :
    trans.foldl (fun f t => f / t e) f * (trans.map fun t => t e).prod = f := by
  induction trans generalizing f with
  | nil => simp
  | cons t trans ih =>
    rw [List.foldl_cons, List.map_cons, List.prod_cons, mul_comm (t e), ← mul_assoc,
      ih _ fun x hx => h x (List.mem_cons_of_mem _ hx)]
    have := h t List.mem_cons_self
    field_simp

/-- C59: behind the atmosphere and the filters every line of the source has the same share of the flux, and
together they have the flux asked for at the sample. -/
theorem sourceflux_at_sample (trans : List (ℝ → ℝ)) (es : List ℝ) (hes : es ≠ []) (flux : ℝ)
    (h : ∀ t ∈ trans, ∀ e ∈ es, t e ≠ 0) :
    List.zipWith (fun e f => f * (trans.map fun t => t e).prod) es (sourceflux trans es flux) = es.map (fun _ => flux / es.length) ∧
    (List.zipWith (fun e f => f * (trans.map fun t => t e).prod) es (sourceflux trans es flux)).sum = flux := by
  have h1 : List.zipWith (fun e f => f * (trans.map fun t => t e).prod) es (sourceflux trans es flux) =
      es.map (fun _ => flux / es.length) := by
    unfold sourceflux
    rw [List.zipWith_map_right, List.zipWith_self]
    exact List.map_congr_left fun e he => foldl_div trans e _ fun t ht => h t ht e he
  refine ⟨h1, ?_⟩
  rw [h1, List.map_const', List.sum_replicate, nsmul_eq_mul]
  have : (es.length : ℝ) ≠ 0 := by
    rw [Nat.cast_ne_zero]
    exact fun h => hes (List.length_eq_zero_iff.1 h)
  field_simp

/-! ## Cases -/

/-- Three layers of which the second is not enabled; number 3 is missing, so that number 4 is not seen. -/
def demoCfg : Cfg := ⟨some (multiName, 0, 0, 60, 30),
  [(1, (false, ['b'], 2, 5)), (0, (true, ['a'], 1, 4)), (2, (true, ['c'], 3, 6)), (4, (true, ['d'], 3, 7))]⟩

example : loadPymca (fun n _ => n) demoCfg = .ok (60, 30, [⟨['a'], 4, false⟩, ⟨['c'], 6, false⟩]) := by
  rw [layers_loaded _ demoCfg 0 0 60 30 rfl [(true, ['a'], 1, 4), (false, ['b'], 2, 5), (true, ['c'], 3, 6)]]
  · rw [if_pos ⟨(true, ['a'], 1, 4), by simp⟩]
    simp
  · intro j hj
    simp only [List.length_cons, List.length_nil] at hj
    rcases j with _ | _ | _ | _ | j
    · simp [Cfg.layer, demoCfg]
    · simp [Cfg.layer, demoCfg]
    · simp [Cfg.layer, demoCfg]
    · simp [Cfg.layer, demoCfg]
    · omega

example : (List.zipWith (fun e f => f * ([fun e : ℝ => 1 / e, fun _ => 1 / 2].map fun t => t e).prod) [1, 2]
    (sourceflux [fun e => 1 / e, fun _ => 1 / 2] [1, 2] 10)).sum = 10 :=
  (sourceflux_at_sample _ [1, 2] (by simp) 10 (by intro t ht e he; simp at ht he; rcases ht with rfl | rfl <;> rcases he with rfl | rfl <;> norm_num)).2

end SC.Multilayer
