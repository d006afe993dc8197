import Verif.Indexing.MoveLemmas
/-! # Helper lemmas: what the shape probes of the code compute -/
namespace SC.Indexing
open SC.Py SC.Numpy

/-- Entries that become a result dimension of their own. -/
def bdim : Item → Bool
  | .slice _ => true
  | .newaxis => true
  | _ => false

/-- No ellipsis and no scalar bool. -/
def Plain (is : List Item) : Prop := ∀ i ∈ is, i ≠ .ellipsis ∧ ∀ b, i ≠ .bool b

theorem Plain.tail {i : Item} {is : List Item} (h : Plain (i :: is)) : Plain is :=
  fun x hx => h x (by simp [hx])

/-- The entry used by the probes. -/
def probe (m : Nat) : Item → Item
  | .ilist _ => .ilist (List.replicate m 0)
  | .blist _ => .ilist (List.replicate m 0)
  | .int _ => .int 0
  | .bool _ => .int 0
  | .newaxis => .newaxis
  | _ => full

def probeRes (m : Nat) : List Item → List Nat → List Res
  | [], _ => []
  | .newaxis :: is, s => .new :: probeRes m is s
  | .slice _ :: is, n :: s => .span (List.range n) :: probeRes m is s
  | .ilist _ :: is, _ :: s => .many (List.replicate m 0) :: probeRes m is s
  | .blist _ :: is, _ :: s => .many (List.replicate m 0) :: probeRes m is s
  | _ :: is, _ :: s => .pick 0 :: probeRes m is s
  | _ :: _, [] => []

def dimsOf : List Item → List Nat → List Nat
  | [], _ => []
  | .newaxis :: is, s => 1 :: dimsOf is s
  | .slice _ :: is, n :: s => n :: dimsOf is s
  | _ :: is, _ :: s => dimsOf is s
  | _ :: _, [] => []

theorem dimChanging_eq : dimChanging = probe 2 := by
  funext i; cases i <;> rfl

theorem axesOrderItem_eq : axesOrderItem = probe 0 := by
  funext i; cases i <;> rfl

theorem trimIndex_eq {i : Item} (h : i ≠ .newaxis) : trimIndex i = probe 2 i := by
  cases i <;> first | rfl | exact absurd rfl h

theorem withNew_eq : (fun i => (nonNewaxis i).getD .newaxis) = probe 2 := by
  funext i; cases i <;> rfl

theorem without_eq (is : List Item) :
    is.filterMap nonNewaxis = (is.filter (· != .newaxis)).map (probe 2) := by
  induction is with
  | nil => rfl
  | cons i is ih =>
    by_cases h : i = .newaxis
    · subst h; simpa [nonNewaxis, List.filterMap_cons] using ih
    · have h2 : nonNewaxis i = some (probe 2 i) := by
        cases i <;> first | rfl | exact absurd rfl h
      simp [h2, h, ih]

theorem mapM_zero {n m : Nat} (hn : 1 ≤ n) :
    (List.replicate m (0 : Int)).mapM (normIdx n) = some (List.replicate m 0) := by
  induction m with
  | zero => rfl
  | succ m ih =>
    have h0 : normIdx n 0 = some 0 := by simp [normIdx]; omega
    simp [List.replicate_succ, h0, ih]

theorem resolve_probe {m : Nat} {is : List Item} {s : List Nat} (hp : Plain is)
    (hc : countConsuming is = s.length) (hs : ∀ n ∈ s, 1 ≤ n) :
    resolve (is.map (probe m)) s = some (probeRes m is s) := by
  induction is generalizing s with
  | nil =>
    cases s with
    | nil => rfl
    | cons n s => simp [countConsuming] at hc
  | cons i is ih =>
    by_cases hnew : i = .newaxis
    · subst hnew
      have := ih (s := s) hp.tail (by simpa [countConsuming, Item.consumes] using hc) hs
      simp [probe, resolve, this, probeRes]
    · have hcons : i.consumes := by
        have := hp i (by simp)
        cases i <;> simp_all [Item.consumes]
      cases s with
      | nil => simp [countConsuming, hcons] at hc
      | cons n s =>
        have hn : 1 ≤ n := hs n (by simp)
        have := ih (s := s) hp.tail (by simpa [countConsuming, hcons] using hc)
          (fun k hk => hs k (by simp [hk]))
        have hnorm : normIdx n 0 = some 0 := by simp [normIdx]; omega
        rw [List.map_cons, resolve_cons (by cases i <;> first | rfl | simp_all), this]
        cases i <;>
          simp_all [probe, resolve1, probeRes, full, full_positions, mapM_zero, Item.consumes]

theorem probeRes_any (m : Nat) {is : List Item} {s : List Nat} (hp : Plain is)
    (hc : countConsuming is = s.length) :
    (probeRes m is s).any Res.isMany = is.any isAdv ∧
    (probeRes m is s).map Res.isDim = is.map bdim ∧
    (probeRes m is s).filterMap Res.dimLen? = dimsOf is s ∧
    ∀ l ∈ (probeRes m is s).filterMap Res.len?, l = m := by
  induction is generalizing s with
  | nil => cases s <;> simp [probeRes, dimsOf]
  | cons i is ih =>
    by_cases hnew : i = .newaxis
    · subst hnew
      obtain ⟨h1, h2, h3, h4⟩ :=
        ih (s := s) hp.tail (by simpa [countConsuming, Item.consumes] using hc)
      refine ⟨?_, ?_, ?_, ?_⟩
      · simp only [probeRes, List.any_cons, h1]; rfl
      · simp only [probeRes, List.map_cons, h2]; rfl
      · simp [probeRes, dimsOf, h3, Res.dimLen?]
      · simpa [probeRes, List.filterMap_cons, Res.len?] using h4
    · have hcons : i.consumes := by
        have := hp i (by simp)
        cases i <;> simp_all [Item.consumes]
      cases s with
      | nil => simp [countConsuming, hcons] at hc
      | cons n s =>
        obtain ⟨h1, h2, h3, h4⟩ :=
          ih (s := s) hp.tail (by simpa [countConsuming, hcons] using hc)
        refine ⟨?_, ?_, ?_, ?_⟩
        · cases i <;> first
            | (simp [Item.consumes] at hcons; done)
            | simp [probeRes, Res.isMany, isAdv, h1]
        · cases i <;> first
            | (simp [Item.consumes] at hcons; done)
            | simp [probeRes, Res.isDim, bdim, h2]
        · cases i <;> first
            | (simp [Item.consumes] at hcons; done)
            | simp [probeRes, Res.dimLen?, dimsOf, List.filterMap_cons, h3]
        · cases i <;> first
            | (simp [Item.consumes] at hcons; done)
            | simpa [probeRes, Res.len?, List.filterMap_cons] using h4

/-- The shape computed by a probe. -/
theorem probe_shape {m : Nat} {is : List Item} {s : List Nat} (hp : Plain is)
    (hc : countConsuming is = s.length) (hs : ∀ n ∈ s, 1 ≤ n) :
    npShape s (is.map (probe m)) =
      some (if is.any isAdv then (dimsOf is s).insertIdx (apos (is.map bdim)) m else dimsOf is s) := by
  obtain ⟨h1, h2, h3, h4⟩ := probeRes_any m hp hc
  have hr := resolve_probe (m := m) hp hc hs
  unfold npShape
  rw [npGet_of_resolve (a := ⟨s, fun _ => ()⟩) hr]
  by_cases ha : is.any isAdv
  · obtain ⟨b, hb, hat⟩ := indexRes_adv (⟨s, fun _ => ()⟩ : Arr Unit) (rs := probeRes m is s) (m := m)
      (by rw [h1]; exact ha) h4
    rw [hb, if_pos ha, Option.map_some, hat.shape, h3, advPos_eq, h2]
  · rw [indexRes_basic _ (by rw [h1]; simpa using ha), if_neg ha]
    simp [h3]

theorem dimsOf_length {is : List Item} {s : List Nat} (hp : Plain is)
    (hc : countConsuming is = s.length) : (dimsOf is s).length = ((is.map bdim).filter id).length := by
  obtain ⟨_, h2, h3, _⟩ := probeRes_any 0 hp hc
  rw [← h3, dims_length, h2]

theorem index?_insert {s : List Nat} {p v : Nat} (hv : v ∉ s) (hp : p ≤ s.length) :
    index? (s.insertIdx p v) v = some p := by
  induction s generalizing p with
  | nil =>
    have : p = 0 := by simpa using hp
    subst this; simp [index?]
  | cons a s ih =>
    have ha : a ≠ v := by rintro rfl; simp at hv
    cases p with
    | zero => simp [index?, List.findIdx?_cons]
    | succ p =>
      have := ih (p := p) (by intro h; exact hv (by simp [h])) (by simpa using hp)
      simp only [index?] at this ⊢
      simp [List.findIdx?_cons, ha, this]

theorem index?_none {s : List Nat} {v : Nat} (hv : v ∉ s) : index? s v = none := by
  rw [index?, List.findIdx?_eq_none_iff]
  intro x hx
  simp only [beq_eq_false_iff_ne]
  rintro rfl; exact hv hx

/-- Position of the advanced dimension in a probe (`v` marks it). -/
theorem index?_probe {is : List Item} {s : List Nat} {v : Nat} (hp : Plain is)
    (hc : countConsuming is = s.length) (hv : v ∉ dimsOf is s) :
    index? (if is.any isAdv then (dimsOf is s).insertIdx (apos (is.map bdim)) v else dimsOf is s) v =
      if is.any isAdv then some (apos (is.map bdim)) else none := by
  by_cases ha : is.any isAdv
  · simp only [ha, if_true]
    exact index?_insert hv (by rw [dimsOf_length hp hc]; exact apos_le _)
  · simp only [ha]
    exact index?_none hv

theorem dimsOf_mem {is : List Item} {s : List Nat} {x : Nat} (h : x ∈ dimsOf is s) :
    x = 1 ∨ x ∈ s := by
  induction is generalizing s with
  | nil => simp [dimsOf] at h
  | cons i is ih =>
    cases i with
    | newaxis =>
      simp only [dimsOf, List.mem_cons] at h
      rcases h with h | h
      · exact Or.inl h
      · exact ih h
    | slice sl =>
      cases s with
      | nil => simp [dimsOf] at h
      | cons n s =>
        simp only [dimsOf, List.mem_cons] at h
        rcases h with h | h
        · exact Or.inr (by simp [h])
        · rcases ih h with h | h
          · exact Or.inl h
          · exact Or.inr (by simp [h])
    | _ =>
      cases s with
      | nil => simp [dimsOf] at h
      | cons n s =>
        simp only [dimsOf] at h
        rcases ih h with h | h
        · exact Or.inl h
        · exact Or.inr (by simp [h])

theorem dimsOf_append {is is' : List Item} {s s' : List Nat} (hp : Plain is)
    (hc : countConsuming is = s.length) :
    dimsOf (is ++ is') (s ++ s') = dimsOf is s ++ dimsOf is' s' := by
  induction is generalizing s with
  | nil =>
    cases s with
    | nil => simp [dimsOf]
    | cons n s => simp [countConsuming] at hc
  | cons i is ih =>
    by_cases hnew : i = .newaxis
    · subst hnew
      simp [dimsOf, ih (s := s) hp.tail (by simpa [countConsuming, Item.consumes] using hc)]
    · have hcons : i.consumes := by
        have := hp i (by simp)
        cases i <;> simp_all [Item.consumes]
      cases s with
      | nil => simp [countConsuming, hcons] at hc
      | cons n s =>
        have := ih (s := s) hp.tail (by simpa [countConsuming, hcons] using hc)
        cases i <;> simp_all [dimsOf]

theorem dimsOf_ones {is : List Item} {n : Nat} (hp : Plain is) (hc : countConsuming is = n) :
    dimsOf is (List.replicate n 1) = List.replicate ((is.map bdim).filter id).length 1 := by
  rw [List.eq_replicate_iff]
  refine ⟨dimsOf_length hp (by simpa using hc), fun x hx => ?_⟩
  rcases dimsOf_mem hx with h | h
  · exact h
  · exact (List.mem_replicate.mp h).2

end SC.Indexing
