import Verif.Resample.InterpProps
/-! # The resampled signals -/
namespace SC.Resample

open SC.Axis

/-- An index is inside of a shape. -/
def Inside (m shape : List Nat) : Prop := List.Forall₂ (· < ·) m shape

theorem mem_allIdx (shape m : List Nat) : m ∈ allIdx shape ↔ Inside m shape := by
  unfold Inside
  induction shape generalizing m with
  | nil => simp [allIdx]
  | cons n r ih =>
    cases m with
    | nil => simp [allIdx]
    | cons i m =>
      simp only [allIdx, List.mem_flatMap, List.mem_map, List.mem_range, List.forall₂_cons]
      constructor
      · rintro ⟨j, hj, x, hx, he⟩
        simp only [List.cons.injEq] at he
        obtain ⟨rfl, rfl⟩ := he
        exact ⟨hj, (ih x).1 hx⟩
      · rintro ⟨h1, h2⟩; exact ⟨i, h1, m, (ih m).2 h2, rfl⟩

theorem nodup_allIdx (shape : List Nat) : (allIdx shape).Nodup := by
  induction shape with
  | nil => simp [allIdx]
  | cons n r ih =>
    rw [allIdx, List.nodup_flatMap]
    refine ⟨fun i _ => ih.map (fun a b h => (List.cons.inj h).2), ?_⟩
    refine List.Pairwise.imp ?_ (List.nodup_range (n := n))
    intro i j hij
    rw [Function.onFun, List.disjoint_left]
    rintro x hx hy
    obtain ⟨a, -, rfl⟩ := List.mem_map.1 hx
    obtain ⟨b, -, he⟩ := List.mem_map.1 hy
    exact hij (List.cons.inj he).1.symm

/-- Shape of the selected parts in the result. -/
def outLens (dims : List Dim) : List Nat := dims.filterMap fun d => d.enc.map List.length

/-- Every index of the result is an element of exactly one selection. -/
theorem sel_loc (dims : List Dim) (m : List Nat) (h : Inside m (dims.map Dim.out)) :
    selOf dims m ∈ selections dims ∧ locOf dims m ∈ allIdx (outLens dims) ∧ fill (selOf dims m) (locOf dims m) = m := by
  induction dims generalizing m with
  | nil =>
    cases h
    simp [selOf, locOf, selections, outLens, allIdx, fill]
  | cons d r ih =>
    cases m with
    | nil => cases h
    | cons i m =>
      obtain ⟨h1, h2⟩ := List.forall₂_cons.1 h
      obtain ⟨r1, r2, r3⟩ := ih m h2
      cases he : d.enc with
      | none =>
        have h1' : i < d.size := by simpa [Dim.out, he] using h1
        simp only [selOf, locOf, selections, outLens, he, List.filterMap_cons, Option.map_none, List.headD_cons, List.tail_cons]
        refine ⟨?_, r2, by simp only [fill, r3]⟩
        rw [List.mem_flatMap]
        exact ⟨i, List.mem_range.2 h1', List.mem_map.2 ⟨_, r1, rfl⟩⟩
      | some l =>
        have h1' : i < l.length := by simpa [Dim.out, he] using h1
        simp only [selOf, locOf, selections, outLens, he, List.filterMap_cons, Option.map_some, List.headD_cons, List.tail_cons, fill, r3]
        refine ⟨List.mem_map.2 ⟨_, r1, rfl⟩, ?_, trivial⟩
        rw [mem_allIdx]
        exact List.Forall₂.cons h1' ((mem_allIdx _ _).1 r2)

theorem loc_sel (dims : List Dim) (ix : List Sel) (loc : List Nat) (hix : ix ∈ selections dims) (hl : loc ∈ allIdx (outLens dims)) :
    Inside (fill ix loc) (dims.map Dim.out) ∧ selOf dims (fill ix loc) = ix ∧ locOf dims (fill ix loc) = loc := by
  induction dims generalizing ix loc with
  | nil =>
    simp only [selections, List.mem_singleton] at hix
    subst hix
    have : loc = [] := by simpa [outLens, allIdx] using hl
    subst this
    simp [fill, selOf, locOf, Inside]
  | cons d r ih =>
    cases he : d.enc with
    | none =>
      simp only [selections, he, List.mem_flatMap, List.mem_map, List.mem_range] at hix
      obtain ⟨i, hi, ix', hix', rfl⟩ := hix
      simp only [outLens, he, List.filterMap_cons, Option.map_none] at hl
      obtain ⟨r1, r2, r3⟩ := ih ix' loc hix' hl
      simp only [fill, selOf, locOf, he, List.headD_cons, List.tail_cons, r2, r3, and_true]
      exact List.Forall₂.cons (by simpa [Dim.out, he] using hi) r1
    | some l =>
      simp only [selections, he, List.mem_map] at hix
      obtain ⟨ix', hix', rfl⟩ := hix
      simp only [outLens, he, List.filterMap_cons, Option.map_some] at hl
      have hl' := (mem_allIdx _ _).1 hl
      cases loc with
      | nil => cases hl'
      | cons j loc =>
        obtain ⟨h1, h2⟩ := List.forall₂_cons.1 hl'
        obtain ⟨r1, r2, r3⟩ := ih ix' loc hix' ((mem_allIdx _ _).2 h2)
        simp only [fill, selOf, locOf, he, List.headD_cons, List.tail_cons, r2, r3, and_true]
        exact List.Forall₂.cons (by simpa [Dim.out, he] using h1) r1

theorem writes_mem (interp : Nat → List Nat → Arr → List Arr → List (List ℚ) → Except Err (List Nat → Option ℚ)) (dims : List Dim)
    (data : Arr) (ixs : List (List Sel)) (l : List (List Nat × Option ℚ)) (h : writes interp dims data ixs = .ok l) (w : List Nat × Option ℚ) :
    w ∈ l ↔ ∃ ix ∈ ixs, ∃ f, processData interp dims ix data = .ok f ∧ ∃ loc ∈ allIdx (outLens dims), w = (fill ix loc, f loc) := by
  induction ixs generalizing l with
  | nil => cases h; simp
  | cons ix r ih =>
    simp only [writes] at h
    cases hp : processData interp dims ix data with
    | error e => rw [hp] at h; cases h
    | ok f =>
      rw [hp] at h
      simp only at h
      cases hw : writes interp dims data r with
      | error e => rw [hw] at h; cases h
      | ok t =>
        rw [hw] at h
        cases h
        rw [List.mem_append, ih t hw]
        simp only [List.mem_cons, exists_eq_or_imp]
        apply or_congr
        · constructor
          · intro hm
            obtain ⟨loc, hl, rfl⟩ := List.mem_map.1 hm
            exact ⟨f, hp, loc, hl, rfl⟩
          · rintro ⟨f', hf', loc, hl, rfl⟩
            rw [hp] at hf'
            cases hf'
            exact List.mem_map.2 ⟨loc, hl, rfl⟩
        · exact Iff.rfl

/-- **C65.**  Every element of the resampled signal is written, and with the value of the interpolation of its own part. -/
theorem writes_spec (interp : Nat → List Nat → Arr → List Arr → List (List ℚ) → Except Err (List Nat → Option ℚ)) (dims : List Dim)
    (data : Arr) (l : List (List Nat × Option ℚ)) (h : writes interp dims data (selections dims) = .ok l) :
    (∀ m, m ∈ l.map Prod.fst ↔ Inside m (dims.map Dim.out)) ∧
    ∀ m v, (m, v) ∈ l → ∃ f, processData interp dims (selOf dims m) data = .ok f ∧ v = f (locOf dims m) := by
  constructor
  · intro m
    constructor
    · intro hm
      obtain ⟨w, hw, rfl⟩ := List.mem_map.1 hm
      obtain ⟨ix, hix, f, -, loc, hl, rfl⟩ := (writes_mem interp dims data _ l h w).1 hw
      exact (loc_sel dims ix loc hix hl).1
    · intro hm
      obtain ⟨r1, r2, r3⟩ := sel_loc dims m hm
      have hok : ∀ (ixs : List (List Sel)) (l : List (List Nat × Option ℚ)), writes interp dims data ixs = .ok l → ∀ ix ∈ ixs,
          ∃ f, processData interp dims ix data = .ok f := by
        intro ixs
        induction ixs with
        | nil => intro l _ ix hix; cases hix
        | cons a r ih =>
          intro l h ix hix
          simp only [writes] at h
          cases hp : processData interp dims a data with
          | error e => rw [hp] at h; cases h
          | ok f =>
            rw [hp] at h
            simp only at h
            cases hw : writes interp dims data r with
            | error e => rw [hw] at h; cases h
            | ok t =>
              rcases List.mem_cons.1 hix with rfl | hix
              · exact ⟨f, hp⟩
              · exact ih t hw ix hix
      obtain ⟨f, hf⟩ := hok _ l h _ r1
      exact List.mem_map.2 ⟨(m, f (locOf dims m)), (writes_mem interp dims data _ l h _).2 ⟨_, r1, f, hf, _, r2, by rw [r3]⟩, rfl⟩
  · intro m v hm
    obtain ⟨ix, hix, f, hf, loc, hl, he⟩ := (writes_mem interp dims data _ l h _).1 hm
    obtain ⟨-, r2, r3⟩ := loc_sel dims ix loc hix hl
    simp only [Prod.mk.injEq] at he
    obtain ⟨rfl, rfl⟩ := he
    exact ⟨f, by rw [r2]; exact hf, by rw [r3]⟩

/-- **C65.**  Without encoders the signal is copied. -/
theorem copy_spec (interp : Nat → List Nat → Arr → List Arr → List (List ℚ) → Except Err (List Nat → Option ℚ)) (dims : List Dim)
    (data : Arr) (hd : ∀ d ∈ dims, d.enc = none ∧ d.signal = none) :
    ∃ l, writes interp dims data (selections dims) = .ok l ∧ ∀ m v, (m, v) ∈ l ↔ Inside m (dims.map Dim.size) ∧ v = some (data m) := by
  have hsig : dims.filterMap (·.signal) = [] := by
    rw [List.filterMap_eq_nil_iff]; intro d hdm; exact (hd d hdm).2
  have hproc : ∀ ix, processData interp dims ix data = .ok fun loc => some (part ix data loc) := by
    intro ix; unfold processData; simp only [hsig, if_true]
  have hok : ∀ ixs, ∃ l, writes interp dims data ixs = .ok l := by
    intro ixs
    induction ixs with
    | nil => exact ⟨[], rfl⟩
    | cons a r ih =>
      obtain ⟨t, ht⟩ := ih
      exact ⟨_, by simp only [writes, hproc, ht]; rfl⟩
  have hout : dims.map Dim.out = dims.map Dim.size := by
    apply List.map_congr_left; intro d hdm; simp [Dim.out, (hd d hdm).1]
  obtain ⟨l, hl⟩ := hok (selections dims)
  obtain ⟨w1, w2⟩ := writes_spec interp dims data l hl
  refine ⟨l, hl, fun m v => ?_⟩
  rw [← hout, ← w1]
  have hval : ∀ m v, (m, v) ∈ l → v = some (data m) := by
    intro m v hm
    obtain ⟨f, hf, rfl⟩ := w2 m v hm
    rw [hproc] at hf
    cases hf
    simp only [part]
    rw [(sel_loc dims m ((w1 m).1 (List.mem_map_of_mem hm))).2.2]
  constructor
  · intro hm; exact ⟨List.mem_map_of_mem hm, hval m v hm⟩
  · rintro ⟨hm, rfl⟩
    obtain ⟨⟨m', v'⟩, hw, rfl⟩ := List.mem_map.1 hm
    rw [← hval m' v' hw]; exact hw

theorem rank_selections (dims : List Dim) (ix : List Sel) (h : ix ∈ selections dims) : rank ix = (dims.filterMap (·.enc)).length := by
  induction dims generalizing ix with
  | nil => simp [selections] at h; subst h; rfl
  | cons d r ih =>
    cases he : d.enc with
    | none =>
      simp only [selections, he, List.mem_flatMap, List.mem_map] at h
      obtain ⟨i, -, ix', hx, rfl⟩ := h
      have := ih ix' hx
      simp only [rank] at this ⊢
      rw [List.filter_cons_of_neg (by simp), this, List.filterMap_cons, he]
    | some l =>
      simp only [selections, he, List.mem_map] at h
      obtain ⟨ix', hx, rfl⟩ := h
      have := ih ix' hx
      simp only [rank] at this ⊢
      rw [List.filter_cons_of_pos (by simp), List.length_cons, this, List.filterMap_cons, he]
      rfl

theorem length_filterMap_le {α β γ : Type} (l : List α) (f : α → Option β) (g : α → Option γ) (h : ∀ a ∈ l, (f a).isSome → (g a).isSome) :
    (l.filterMap f).length ≤ (l.filterMap g).length ∧ ((∃ a ∈ l, (g a).isSome ∧ f a = none) → (l.filterMap f).length < (l.filterMap g).length) := by
  induction l with
  | nil => simp
  | cons a r ih =>
    obtain ⟨i1, i2⟩ := ih fun b hb => h b (by simp [hb])
    have ha := h a (by simp)
    simp only [List.filterMap_cons]
    cases hf : f a with
    | none =>
      cases hg : g a with
      | none =>
        simp only
        refine ⟨i1, ?_⟩
        rintro ⟨b, hb, hb1, hb2⟩
        rcases List.mem_cons.1 hb with rfl | hb
        · rw [hg] at hb1; cases hb1
        · exact i2 ⟨b, hb, hb1, hb2⟩
      | some y =>
        simp only [List.length_cons]
        exact ⟨by omega, fun _ => by omega⟩
    | some x =>
      cases hg : g a with
      | none => rw [hf, hg] at ha; exact absurd (ha rfl) (by simp)
      | some y =>
        simp only [List.length_cons]
        refine ⟨by omega, ?_⟩
        rintro ⟨b, hb, hb1, hb2⟩
        rcases List.mem_cons.1 hb with rfl | hb
        · rw [hf] at hb2; cases hb2
        · have := i2 ⟨b, hb, hb1, hb2⟩; omega

/-- An axis that is not resampled because nothing would be left still counts as an encoder: every signal raises ValueError. -/
theorem skipped_axis_raises (spline : Kind → List (ℚ × ℚ) → ℚ → ℚ) (griddata : Kind → Interp) (cval : Option ℚ) (degree : Int) (dims : List Dim)
    (data : Arr) (hd : ∀ d ∈ dims, d.enc.isSome → d.signal.isSome) (hs : ∃ d ∈ dims, d.signal.isSome ∧ d.enc = none) (ix : List Sel)
    (hix : ix ∈ selections dims) : processData (irregular spline griddata cval degree) dims ix data = .error .valueError := by
  have hlt := (length_filterMap_le dims (·.enc) (·.signal) hd).2 hs
  unfold processData
  simp only
  rw [if_neg (by intro hc; rw [hc] at hlt; simp at hlt)]
  unfold irregular
  rw [if_pos]
  left
  rw [List.length_map, rank_selections dims ix hix]
  omega

/-- **C65.**  A signal that is linear in the position of the motor is resampled exactly: at every new position inside of the
line, the value at this position corrected by the difference between the middle of the real and the nominal positions. -/
theorem resample_exact (spline : Kind → List (ℚ × ℚ) → ℚ → ℚ) (griddata : Kind → Interp) (cval : Option ℚ) (n : Nat) (real : Nat → ℚ)
    (hinj : ∀ i j, i < n → j < n → real i = real j → i = j) (res off δ α β : ℚ) (hr : res ≠ 0) (enc : Arr) (data : Arr)
    (he : ∀ i, i < n → enc [i] = res * real i + off) (hd : ∀ i, i < n → data [i] = α * real i + β) (dest pos : List ℚ)
    (hdest : dest = pos.map fun p => p * res + (off + res * δ)) :
    ∃ f, irregular spline griddata cval 1 1 [n] data [enc] [dest] = .ok f ∧
      ∀ (j : Nat) (p : ℚ), pos[j]? = some p → (∃ i k, i < n ∧ k < n ∧ real i ≤ p + δ ∧ p + δ ≤ real k) → f [j] = some (α * (p + δ) + β) := by
  refine ⟨_, rfl, ?_⟩
  rintro j p hj ⟨i, k, hi, hk, h1, h2⟩
  have hg : dest.getD j 0 = p * res + (off + res * δ) := by
    rw [hdest]; simp [List.getD, hj]
  simp only [List.headD_cons, segOf]
  rw [hg]
  have hmem : ∀ a, a < n → ((enc [a], data [a]) : ℚ × ℚ) ∈ (List.range n).map fun (i : Nat) => (enc [i], data [i]) := fun a ha =>
    List.mem_map.2 ⟨a, List.mem_range.2 ha, rfl⟩
  have hdist : Distinct ((List.range n).map fun (i : Nat) => ((enc [i], data [i]) : ℚ × ℚ)) := by
    unfold Distinct
    rw [List.pairwise_map]
    refine List.Pairwise.imp_of_mem ?_ (List.nodup_range (n := n))
    intro a b ha hb hab hc
    simp only at hc
    rw [he a (List.mem_range.1 ha), he b (List.mem_range.1 hb)] at hc
    apply hab
    apply hinj a b (List.mem_range.1 ha) (List.mem_range.1 hb)
    have : res * real a = res * real b := by linarith
    exact mul_left_cancel₀ hr this
  have hlin : ∀ q ∈ (List.range n).map fun (i : Nat) => ((enc [i], data [i]) : ℚ × ℚ), q.2 = α / res * q.1 + (β - α / res * off) := by
    intro q hq
    obtain ⟨a, ha, rfl⟩ := List.mem_map.1 hq
    simp only
    rw [he a (List.mem_range.1 ha), hd a (List.mem_range.1 ha)]
    field_simp
    ring
  have hval : α / res * (p * res + (off + res * δ)) + (β - α / res * off) = α * (p + δ) + β := by field_simp; ring
  rcases lt_or_gt_of_ne hr with hneg | hpos
  · rw [linear_exact cval _ hdist (α / res) _ hlin _ _ _ (hmem k hk) (hmem i hi) (by
      rw [he k hk]; nlinarith [mul_le_mul_of_nonpos_left h2 hneg.le]) (by
      rw [he i hi]; nlinarith [mul_le_mul_of_nonpos_left h1 hneg.le]), hval]
  · rw [linear_exact cval _ hdist (α / res) _ hlin _ _ _ (hmem i hi) (hmem k hk) (by
      rw [he i hi]; nlinarith [mul_le_mul_of_nonneg_left h1 hpos.le]) (by
      rw [he k hk]; nlinarith [mul_le_mul_of_nonneg_left h2 hpos.le]), hval]

/-- **C65.**  The correction for one line: with real positions of the motor at both sides, the offset that is found differs
from that of the encoder by the difference of the middles. -/
theorem offset_found {pos : Ax} {s h : ℚ} {n : Nat} (hp : pos.values = prog s h n) (hn : 3 ≤ n) (hh : h ≠ 0) (res off : ℚ) (hr : res ≠ 0)
    (crop : Bool) (r0 r1 : ℚ) (hdir : After h r1 r0) :
    ∃ (p' enc : Ax) (δ : ℚ), encoder pos res none crop [res * r0 + off] [res * r1 + off] = .ok (p', some enc, off + res * δ) ∧
      δ = (r0 + r1) / 2 - (s + (s + ((n : ℚ) - 1) * h)) / 2 ∧ enc.values = p'.values.map fun p => p * res + (off + res * δ) := by
  have hrefl : ∀ x, After (h * res) x x := fun x => by simp [After]
  have hl : Limits crop (h * res) [res * r0 + off] [res * r1 + off] (res * r0 + off) (res * r1 + off) := by
    cases crop <;> simp [Limits, IsFirst, IsLast, hrefl]
  have hab : After (h * res) (res * r1 + off) (res * r0 + off) := by
    unfold After at *
    rw [show (res * r1 + off - (res * r0 + off)) / (h * res) = (r1 - r0) / h by field_simp; ring]
    exact hdir
  obtain ⟨p', enc, m, k, e1, -, e3, -⟩ := encoder_spec hp hn hh res hr crop _ _ _ _ hl hab
  have hoff : (res * r0 + off + (res * r1 + off)) / 2 - res * (s + ((n : ℚ) - 1) * h / 2) =
      off + res * ((r0 + r1) / 2 - (s + (s + ((n : ℚ) - 1) * h)) / 2) := by ring
  rw [hoff] at e1 e3
  exact ⟨p', enc, _, e1, rfl, e3⟩

/-! ## Cases -/

/-- Two dimensions, the second has an encoder. -/
def exDims : List Dim := [⟨2, none, none⟩, ⟨3, some [1, 2], some fun m => (m.getD 1 0 : ℚ) + m.getD 0 0⟩]

example : (writes (irregular (fun _ _ _ => 0) (fun _ _ _ _ _ _ => none) none 1) exDims (fun m => 10 * (m.getD 1 0 : ℚ)) (selections exDims)).toOption =
    some [([0, 0], some 10), ([0, 1], some 20), ([1, 0], some 0), ([1, 1], some 10)] := by decide +kernel

/-- The second axis was skipped. -/
example : selections [⟨1, none, none⟩, ⟨1, none, some fun _ => 0⟩] = [[.at 0, .at 0]] := by decide +kernel

end SC.Resample
