import Verif.Spectrum.Alias
import Verif.Spectrum.Props
/-! # Property C61, part 5: adding spectra -/
namespace SC.Spectrum
open SC.Py

/-! ## Values -/

/-- Values of the same length are added number by number. -/
theorem val_iadd (a b : Val) (h : a.toList.length = b.toList.length) :
    ∃ c, a.iadd b = .ok c ∧ c.toList = List.zipWith (· + ·) a.toList b.toList := by
  cases a with
  | num a => cases b with
    | num b => exact ⟨_, rfl, rfl⟩
    | arr m =>
      obtain ⟨b, rfl⟩ := List.length_eq_one_iff.1 h.symm
      exact ⟨_, rfl, rfl⟩
  | arr l => cases b with
    | num b =>
      obtain ⟨a, rfl⟩ := List.length_eq_one_iff.1 h
      exact ⟨_, rfl, rfl⟩
    | arr m =>
      have h : l.length = m.length := h
      exact ⟨.arr (List.zipWith (· + ·) l m), by simp [Val.iadd, h], rfl⟩

/-- Arrays of different lengths cannot be added, unless the second has one number. -/
theorem val_iadd_error (l m : List ℚ) (h : l.length ≠ m.length) (hm : m.length ≠ 1) :
    Val.iadd (.arr l) (.arr m) = .error .valueError := by
  simp only [Val.iadd, if_neg h]
  split
  · simp at hm
  · rfl

theorem zipWith_add_sum (l m : List ℚ) (h : l.length = m.length) : (List.zipWith (· + ·) l m).sum = l.sum + m.sum := by
  induction l generalizing m with
  | nil => cases m with
    | nil => simp
    | cons => simp at h
  | cons a l ih => cases m with
    | nil => simp at h
    | cons b m =>
      simp only [List.zipWith_cons_cons, List.sum_cons, ih m (by simpa using h)]
      ring

/-! ## Dictionaries of lines -/

theorem lget_set (d : Lines) (l : Line) (v : Val) (n : Str) :
    Lines.get? (Lines.set d l v) n = if l.name = n then some v else Lines.get? d n := by
  induction d with
  | nil => simp [Lines.set, Lines.get?]
  | cons p d ih =>
    obtain ⟨k, w⟩ := p
    simp only [Lines.set]
    by_cases h1 : k.name = l.name
    · rw [if_pos h1]
      simp only [Lines.get?, h1]
      split <;> rfl
    · rw [if_neg h1]
      simp only [Lines.get?, ih]
      by_cases h2 : k.name = n
      · subst h2
        rw [if_pos rfl, if_neg (Ne.symm h1), if_pos rfl]
      · simp [h2]

theorem lget_none (d : Lines) (n : Str) : Lines.get? d n = Option.none ↔ n ∉ d.map fun p => p.1.name := by
  induction d with
  | nil => simp [Lines.get?]
  | cons p d ih =>
    simp only [Lines.get?, List.map_cons, List.mem_cons, not_or]
    by_cases h : p.1.name = n
    · simp [h]
    · simp [h, ih, Ne.symm h, eq_comm]

theorem set_keys (d : Lines) (l : Line) (v : Val) :
    (Lines.set d l v).map Prod.fst = if l.name ∈ d.map (fun p => p.1.name) then d.map Prod.fst else d.map Prod.fst ++ [l] := by
  induction d with
  | nil => simp [Lines.set]
  | cons p d ih =>
    obtain ⟨k, w⟩ := p
    simp only [Lines.set]
    by_cases h : k.name = l.name
    · simp [h]
    · simp only [if_neg h, List.map_cons, ih, List.mem_cons, Ne.symm h, false_or]
      split <;> simp

theorem total_set_some (d : Lines) (l : Line) (w v : Val) (h : Lines.get? d l.name = some w) :
    total (Lines.set d l v) = total d - w.toList.sum + v.toList.sum := by
  induction d with
  | nil => cases h
  | cons p d ih =>
    obtain ⟨k, x⟩ := p
    simp only [Lines.get?] at h
    simp only [Lines.set]
    by_cases hk : k.name = l.name
    · rw [if_pos hk] at h
      obtain rfl := Option.some.inj h
      simp only [if_pos hk, total, List.map_cons, List.sum_cons]
      ring
    · rw [if_neg hk] at h
      have := ih h
      simp only [total] at this
      simp only [if_neg hk, total, List.map_cons, List.sum_cons, this]
      ring

theorem total_set_none (d : Lines) (l : Line) (v : Val) (h : Lines.get? d l.name = Option.none) :
    total (Lines.set d l v) = total d + v.toList.sum := by
  induction d with
  | nil => simp [Lines.set, total]
  | cons p d ih =>
    obtain ⟨k, x⟩ := p
    simp only [Lines.get?] at h
    by_cases hk : k.name = l.name
    · rw [if_pos hk] at h; cases h
    · rw [if_neg hk] at h
      have := ih h
      simp only [total] at this
      simp only [Lines.set, if_neg hk, total, List.map_cons, List.sum_cons, this]
      ring

theorem lget_mem (d : Lines) (hd : Distinct d) (l : Line) (v : Val) (h : (l, v) ∈ d) : Lines.get? d l.name = some v := by
  induction d with
  | nil => cases h
  | cons p d ih =>
    have hd' : Distinct d := (List.nodup_cons.1 hd).2
    rcases List.mem_cons.1 h with rfl | h
    · simp [Lines.get?]
    · have : p.1.name ≠ l.name := by
        intro e
        refine (List.nodup_cons.1 hd).1 (List.mem_map.2 ⟨_, h, e.symm⟩)
      simp only [Lines.get?, if_neg this]
      exact ih hd' h

/-! ## The sum -/

/-- What a line is in the sum of two spectra. -/
def sumOf (a b : Option Val) : Option Val :=
  match a, b with
  | some a, some b => match a.iadd b with
    | .ok c => some c
    | .error _ => Option.none
  | some a, Option.none => some a
  | Option.none, b => b

/-- Every line of the sum has the sum of the values; a line that is in one spectrum only keeps its value.  The
lines are those of the first spectrum and the new ones of the second. -/
theorem iadd_spec (o d r : Lines) (ho : Distinct o) (h : iaddLines d o = .ok r) :
    (∀ n, Lines.get? r n = sumOf (Lines.get? d n) (Lines.get? o n)) ∧
    r.map Prod.fst = d.map Prod.fst ++ (o.map Prod.fst).filter fun l => decide (l.name ∉ d.map fun p => p.1.name) := by
  induction o generalizing d with
  | nil =>
    obtain rfl := Except.ok.inj h
    refine ⟨?_, by simp⟩
    intro n
    simp only [Lines.get?, sumOf]
    cases Lines.get? d n <;> rfl
  | cons p o ih =>
    obtain ⟨l, v⟩ := p
    have hno := (List.nodup_cons.1 ho).1
    have ho' : Distinct o := (List.nodup_cons.1 ho).2
    have hnone : Lines.get? o l.name = Option.none := (lget_none o l.name).2 hno
    have hname : ∀ x : Line × Val, (fun p : Line × Val => p.1.name) x = x.1.name := fun _ => rfl
    unfold iaddLines at h
    cases hg : Lines.get? d l.name with
    | some w =>
      rw [hg] at h
      simp only at h
      cases hi : w.iadd v with
      | error e => rw [hi] at h; cases h
      | ok x =>
        rw [hi] at h
        obtain ⟨h1, h2⟩ := ih _ ho' h
        have hin : l.name ∈ d.map fun p => p.1.name := by
          by_contra hc
          rw [← lget_none, hg] at hc
          cases hc
        refine ⟨?_, ?_⟩
        · intro n
          rw [h1 n, lget_set]
          by_cases hn : l.name = n
          · subst hn
            simp [Lines.get?, hnone, hg, sumOf, hi]
          · simp [Lines.get?, hn]
        · have hk := set_keys d l x
          rw [if_pos hin] at hk
          have hk' : (Lines.set d l x).map (fun p => p.1.name) = d.map fun p => p.1.name := by
            have := congrArg (List.map Line.name) hk
            simpa [List.map_map, Function.comp_def] using this
          rw [h2, hk, hk']
          simp only [List.map_cons, List.filter_cons, hin, not_true_eq_false, decide_false, Bool.false_eq_true, if_false]
    | none =>
      rw [hg] at h
      simp only at h
      obtain ⟨h1, h2⟩ := ih _ ho' h
      have hin : l.name ∉ d.map fun p => p.1.name := (lget_none d l.name).1 hg
      refine ⟨?_, ?_⟩
      · intro n
        rw [h1 n, lget_set]
        by_cases hn : l.name = n
        · subst hn
          simp [Lines.get?, hnone, hg, sumOf]
        · simp [Lines.get?, hn]
      · have hk := set_keys d l v
        rw [if_neg hin] at hk
        have hk' : (Lines.set d l v).map (fun p => p.1.name) = d.map (fun p => p.1.name) ++ [l.name] := by
          have := congrArg (List.map Line.name) hk
          simpa [List.map_map, Function.comp_def] using this
        rw [h2, hk, hk']
        simp only [List.map_cons, List.filter_cons, hin, not_false_eq_true, decide_true, if_true, List.append_assoc, List.singleton_append]
        congr 2
        apply List.filter_congr
        intro x hx
        have hne : x.name ≠ l.name := by
          intro e
          obtain ⟨q, hq, rfl⟩ := List.mem_map.1 hx
          exact hno (List.mem_map.2 ⟨_, hq, e⟩)
        simp [hne]

/-- Spectra with values of the same length for the same line can be added and the totals add up. -/
theorem iadd_total (o d : Lines) (ho : Distinct o)
    (hl : ∀ p ∈ o, ∀ w, Lines.get? d p.1.name = some w → w.toList.length = p.2.toList.length) :
    ∃ r, iaddLines d o = .ok r ∧ total r = total d + total o := by
  induction o generalizing d with
  | nil => exact ⟨d, rfl, by simp [total]⟩
  | cons p o ih =>
    obtain ⟨l, v⟩ := p
    have hno := (List.nodup_cons.1 ho).1
    have ho' : Distinct o := (List.nodup_cons.1 ho).2
    have hne : ∀ q ∈ o, l.name ≠ q.1.name := by
      intro q hq e
      exact hno (List.mem_map.2 ⟨_, hq, e.symm⟩)
    unfold iaddLines
    cases hg : Lines.get? d l.name with
    | some w =>
      have hlen := hl (l, v) (by simp) w hg
      obtain ⟨c, hc1, hc2⟩ := val_iadd w v hlen
      simp only [hc1]
      obtain ⟨r, h1, h2⟩ := ih (Lines.set d l c) ho' (by
        intro q hq x hx
        rw [lget_set, if_neg (hne q hq)] at hx
        exact hl q (by simp [hq]) x hx)
      refine ⟨r, h1, ?_⟩
      rw [h2, total_set_some d l w c hg, hc2, zipWith_add_sum _ _ hlen]
      simp only [total, List.map_cons, List.sum_cons]
      ring
    | none =>
      simp only
      obtain ⟨r, h1, h2⟩ := ih (Lines.set d l v) ho' (by
        intro q hq x hx
        rw [lget_set, if_neg (hne q hq)] at hx
        exact hl q (by simp [hq]) x hx)
      refine ⟨r, h1, ?_⟩
      rw [h2, total_set_none d l v hg]
      simp only [total, List.map_cons, List.sum_cons]
      ring

/-- Spectra of different types are not added. -/
theorem iadd_kind (s o : Spec) : (s.kind ≠ o.kind → s.iadd o = .error .valueError) ∧
    ∀ r, s.iadd o = .ok r → s.kind = o.kind ∧ r.kind = s.kind ∧ r.density = s.density ∧ iaddLines s.lines o.lines = .ok r.lines := by
  refine ⟨fun h => by simp [Spec.iadd, h], ?_⟩
  intro r h
  unfold Spec.iadd at h
  by_cases hk : s.kind = o.kind
  · simp only [hk, ne_eq, not_true_eq_false, if_false] at h
    cases hi : iaddLines s.lines o.lines with
    | error e => rw [hi] at h; cases h
    | ok d =>
      rw [hi] at h
      obtain rfl := Except.ok.inj h
      exact ⟨hk, hk.symm, rfl, rfl⟩
  · simp [hk] at h

/-- Scattering of sources with different energies is added all the same and given the energy of the first. -/
theorem iadd_sources : iaddLines [(.rayleigh (.num 10), .num 1)] [(.rayleigh (.num 20), .num 2)] = .ok [(.rayleigh (.num 10), .num 3)] := by
  decide +kernel

/-! ## Arrays as objects -/

/-- The value of a line. -/
def valueOf (h : Heap) (d : RLines) (n : Str) : Option Val := (Dict.get? d n).bind (deref h)

theorem ref_iadd_frame (h h' : Heap) (x y v : Ref) (e : x.iadd h v = .ok (h', y)) :
    (∀ a, a < h.length → x ≠ .obj a → h'[a]? = h[a]?) ∧ h.length ≤ h'.length ∧ (y = x ∨ (∃ q, y = .num q) ∨ y = .obj h.length) := by
  unfold Ref.iadd at e
  split at e
  · next a b ha hb =>
    cases x with
    | num q =>
      cases hi : a.iadd b with
      | error er => rw [hi] at e; cases e
      | ok c =>
        rw [hi] at e
        cases c with
        | num q' =>
          obtain ⟨rfl, rfl⟩ := Prod.mk.inj (Except.ok.inj e)
          exact ⟨fun _ _ _ => rfl, le_rfl, Or.inr (Or.inl ⟨_, rfl⟩)⟩
        | arr l =>
          obtain ⟨rfl, rfl⟩ := Prod.mk.inj (Except.ok.inj e)
          refine ⟨fun a h1 _ => by rw [List.getElem?_append_left h1], by simp, Or.inr (Or.inr rfl)⟩
    | obj i =>
      cases hi : a.iadd b with
      | error er => rw [hi] at e; cases e
      | ok c =>
        rw [hi] at e
        cases c with
        | num q' =>
          obtain ⟨rfl, rfl⟩ := Prod.mk.inj (Except.ok.inj e)
          exact ⟨fun _ _ _ => rfl, le_rfl, Or.inl rfl⟩
        | arr l =>
          obtain ⟨rfl, rfl⟩ := Prod.mk.inj (Except.ok.inj e)
          refine ⟨?_, by simp, Or.inl rfl⟩
          intro a _ h2
          rw [List.getElem?_set_ne]
          rintro rfl
          exact h2 rfl
  · cases e

theorem get?_head {V : Type} (o : Dict Str V) (n : Str) (v : V) (ho : Dict.WF ((n, v) :: o)) :
    Dict.get? o n = Option.none ∧ Dict.WF o := by
  have h := List.nodup_cons.1 (show ((n, v) :: o).map Prod.fst |>.Nodup from ho)
  exact ⟨(Dict.get?_none o n).2 h.1, h.2⟩

/-- Adding a spectrum changes no array but those of the lines of the first spectrum that are also in the second. -/
theorem iaddRefs_frame (o d r : RLines) (h h' : Heap) (ho : Dict.WF o) (e : iaddRefs h d o = .ok (h', r)) (a : Nat)
    (ha : a < h.length) (hna : ∀ n ∈ Dict.keys o, Dict.get? d n ≠ some (.obj a)) : h'[a]? = h[a]? := by
  induction o generalizing d h with
  | nil =>
    obtain ⟨rfl, rfl⟩ := Prod.mk.inj (Except.ok.inj e)
    rfl
  | cons p o ih =>
    obtain ⟨n, v⟩ := p
    obtain ⟨hn, ho'⟩ := get?_head o n v ho
    have hkeys : ∀ (y : Ref), ∀ m ∈ Dict.keys o, Dict.get? (Dict.set d n y) m ≠ some (.obj a) := by
      intro y m hm
      rw [Dict.get?_set, if_neg]
      · exact hna m (by simp only [Dict.keys, List.map_cons, List.mem_cons]; exact Or.inr hm)
      · rintro rfl
        exact (Dict.get?_none o n).1 hn hm
    unfold iaddRefs at e
    cases hg : Dict.get? d n with
    | none =>
      rw [hg] at e
      exact ih _ _ ho' e ha (hkeys v)
    | some x =>
      rw [hg] at e
      simp only at e
      cases hx : x.iadd h v with
      | error er => rw [hx] at e; cases e
      | ok q =>
        obtain ⟨h1, y⟩ := q
        rw [hx] at e
        obtain ⟨f1, f2, _⟩ := ref_iadd_frame h h1 x y v hx
        rw [ih _ _ ho' e (by omega) (hkeys y)]
        refine f1 a ha ?_
        rintro rfl
        exact hna n (by simp [Dict.keys]) hg

/-- Two spectra that share no array, and of which the first uses an array for one line only. -/
structure Separate (h : Heap) (d o : RLines) : Prop where
  /-- all arrays are there -/
  valid : ∀ n a, Dict.get? d n = some (.obj a) ∨ Dict.get? o n = some (.obj a) → a < h.length
  /-- an array that is added to is for one line -/
  once : ∀ n a, n ∈ Dict.keys o → Dict.get? d n = some (.obj a) → ∀ m, m ≠ n → Dict.get? d m ≠ some (.obj a)
  /-- and is not in the other spectrum -/
  apart : ∀ n a, n ∈ Dict.keys o → Dict.get? d n = some (.obj a) → ∀ m, Dict.get? o m ≠ some (.obj a)

theorem ref_iadd_value (h h' : Heap) (x y v : Ref) (e : x.iadd h v = .ok (h', y)) :
    deref h' y = sumOf (deref h x) (deref h v) ∧ (∀ a, y = .obj a → a < h'.length) := by
  unfold Ref.iadd at e
  split at e
  · next a b ha hb =>
    rw [ha, hb]
    cases x with
    | num q =>
      cases hi : a.iadd b with
      | error er => rw [hi] at e; cases e
      | ok c =>
        rw [hi] at e
        cases c with
        | num q' =>
          obtain ⟨rfl, rfl⟩ := Prod.mk.inj (Except.ok.inj e)
          exact ⟨by simp [deref, sumOf, hi], by simp⟩
        | arr l =>
          obtain ⟨rfl, rfl⟩ := Prod.mk.inj (Except.ok.inj e)
          exact ⟨by simp [deref, sumOf, hi], by simp⟩
    | obj i =>
      have hi' : i < h.length := by
        by_contra hc
        simp [deref, List.getElem?_eq_none (by omega : h.length ≤ i)] at ha
      cases hi : a.iadd b with
      | error er => rw [hi] at e; cases e
      | ok c =>
        rw [hi] at e
        cases c with
        | num q' =>
          exfalso
          simp only [deref, Option.map_eq_some_iff] at ha
          obtain ⟨l, _, rfl⟩ := ha
          cases b with
          | num b => simp [Val.iadd] at hi
          | arr m =>
            simp only [Val.iadd] at hi
            split at hi
            · cases hi
            · split at hi <;> cases hi
        | arr l =>
          obtain ⟨rfl, rfl⟩ := Prod.mk.inj (Except.ok.inj e)
          exact ⟨by simp [deref, sumOf, hi, hi'], by simpa using hi'⟩
  · cases e

theorem deref_congr (h h' : Heap) (x : Ref) (hx : ∀ a, x = .obj a → h'[a]? = h[a]?) : deref h' x = deref h x := by
  cases x with
  | num => rfl
  | obj a => simp [deref, hx a rfl]

/-- With arrays as objects the sum has the same values, when the two spectra share no array. -/
theorem iaddRefs_value (o d r : RLines) (h h' : Heap) (ho : Dict.WF o) (hs : Separate h d o) (e : iaddRefs h d o = .ok (h', r)) (n : Str) :
    valueOf h' r n = sumOf (valueOf h d n) (valueOf h o n) := by
  induction o generalizing d h with
  | nil =>
    obtain ⟨rfl, rfl⟩ := Prod.mk.inj (Except.ok.inj e)
    have : valueOf h ([] : RLines) n = Option.none := rfl
    rw [this]
    cases valueOf h d n <;> rfl
  | cons p o ih =>
    obtain ⟨k, v⟩ := p
    obtain ⟨hk, ho'⟩ := get?_head o k v ho
    have hok : ∀ m ∈ Dict.keys o, m ≠ k := by
      rintro m hm rfl
      exact (Dict.get?_none o m).1 hk hm
    have hog : ∀ m, m ≠ k → Dict.get? ((k, v) :: o) m = Dict.get? o m := fun m hm => by
      simp only [Dict.get?, if_neg (Ne.symm hm)]
    have hov : Dict.get? ((k, v) :: o) k = some v := by simp [Dict.get?]
    have hsub : ∀ m x, Dict.get? o m = some x → Dict.get? ((k, v) :: o) m = some x := by
      intro m x hm
      rw [hog m]
      · exact hm
      · rintro rfl; rw [hk] at hm; cases hm
    have hkm : ∀ m ∈ Dict.keys o, m ∈ Dict.keys ((k, v) :: o) := fun m hm => by
      simp only [Dict.keys, List.map_cons, List.mem_cons]; exact Or.inr hm
    unfold iaddRefs at e
    cases hg : Dict.get? d k with
    | none =>
      rw [hg] at e
      have hs' : Separate h (Dict.set d k v) o := by
        refine ⟨?_, ?_, ?_⟩
        · rintro m a (hm | hm)
          · rw [Dict.get?_set] at hm
            split at hm
            · next hkm' =>
              subst hkm'
              exact hs.valid k a (Or.inr (by rw [hov, hm]))
            · exact hs.valid m a (Or.inl hm)
          · exact hs.valid m a (Or.inr (hsub m _ hm))
        · intro m a hm hma m' hm'
          rw [Dict.get?_set, if_neg (Ne.symm (hok m hm))] at hma
          rw [Dict.get?_set]
          split
          · next hkm' =>
            have := hs.apart m a (hkm m hm) hma k
            rwa [hov] at this
          · exact hs.once m a (hkm m hm) hma m' hm'
        · intro m a hm hma m' hm'
          rw [Dict.get?_set, if_neg (Ne.symm (hok m hm))] at hma
          exact hs.apart m a (hkm m hm) hma m' (hsub m' _ hm')
      rw [ih _ _ ho' hs' e]
      by_cases hkn : k = n
      · subst hkn
        simp only [valueOf, Dict.get?_set, if_true, hk, hg, hov, Option.bind_some, Option.bind_none]
        cases deref h v <;> rfl
      · simp only [valueOf, Dict.get?_set, if_neg hkn, hog n (Ne.symm hkn)]
    | some x =>
      rw [hg] at e
      simp only at e
      cases hx : x.iadd h v with
      | error er => rw [hx] at e; cases e
      | ok q =>
        obtain ⟨h1, y⟩ := q
        rw [hx] at e
        obtain ⟨f1, f2, f3⟩ := ref_iadd_frame h h1 x y v hx
        obtain ⟨v1, v2⟩ := ref_iadd_value h h1 x y v hx
        have hkk : k ∈ Dict.keys ((k, v) :: o) := by simp [Dict.keys]
        have hs' : Separate h1 (Dict.set d k y) o := by
          refine ⟨?_, ?_, ?_⟩
          · rintro m a (hm | hm)
            · rw [Dict.get?_set] at hm
              split at hm
              · exact v2 a (Option.some.inj hm)
              · have := hs.valid m a (Or.inl hm)
                omega
            · have := hs.valid m a (Or.inr (hsub m _ hm))
              omega
          · intro m a hm hma m' hm'
            rw [Dict.get?_set, if_neg (Ne.symm (hok m hm))] at hma
            rw [Dict.get?_set]
            split
            · next hkm' =>
              intro hy
              have hy := Option.some.inj hy
              rcases f3 with rfl | ⟨q, rfl⟩ | rfl
              · exact hs.once m a (hkm m hm) hma k (Ne.symm (hok m hm)) (by rw [hg, hy])
              · cases hy
              · have hlt := hs.valid m a (Or.inl hma)
                cases hy
                omega
            · exact hs.once m a (hkm m hm) hma m' hm'
          · intro m a hm hma m' hm'
            rw [Dict.get?_set, if_neg (Ne.symm (hok m hm))] at hma
            exact hs.apart m a (hkm m hm) hma m' (hsub m' _ hm')
        rw [ih _ _ ho' hs' e]
        by_cases hkn : k = n
        · subst hkn
          simp only [valueOf, Dict.get?_set, if_true, hk, hg, hov, Option.bind_some, Option.bind_none, v1]
          cases sumOf (deref h x) (deref h v) <;> rfl
        · have e1 : valueOf h1 (Dict.set d k y) n = valueOf h d n := by
            simp only [valueOf, Dict.get?_set, if_neg hkn]
            cases hdn : Dict.get? d n with
            | none => rfl
            | some z =>
              simp only [Option.bind_some]
              apply deref_congr
              rintro a rfl
              refine f1 a (hs.valid n a (Or.inl hdn)) ?_
              rintro rfl
              exact hs.once k a hkk hg n (Ne.symm hkn) hdn
          have e2 : valueOf h1 o n = valueOf h ((k, v) :: o) n := by
            simp only [valueOf, hog n (Ne.symm hkn)]
            cases hdn : Dict.get? o n with
            | none => rfl
            | some z =>
              simp only [Option.bind_some]
              apply deref_congr
              rintro a rfl
              refine f1 a (hs.valid n a (Or.inr (hsub n _ hdn))) ?_
              rintro rfl
              exact hs.apart k a hkk hg n (hsub n _ hdn)
          rw [e1, e2]

/-- A line that the first spectrum does not have is not copied: the sum has the array of the second spectrum. -/
theorem iaddRefs_shares (o d r : RLines) (h h' : Heap) (ho : Dict.WF o) (e : iaddRefs h d o = .ok (h', r)) (n : Str) (x : Ref)
    (hd : Dict.get? d n = Option.none) (hn : Dict.get? o n = some x) : Dict.get? r n = some x := by
  have keep : ∀ (o d : RLines) (h : Heap) (z : Ref), Dict.get? d n = some z → Dict.get? o n = Option.none →
      iaddRefs h d o = .ok (h', r) → Dict.get? r n = some z := by
    intro o
    induction o with
    | nil => intro d h z h1 _ e; obtain ⟨rfl, rfl⟩ := Prod.mk.inj (Except.ok.inj e); exact h1
    | cons p o ih =>
      intro d h z h1 h2 e
      obtain ⟨k, v⟩ := p
      have hkn : k ≠ n := by
        rintro rfl
        simp [Dict.get?] at h2
      simp only [Dict.get?, if_neg hkn] at h2
      unfold iaddRefs at e
      cases hg : Dict.get? d k with
      | none => rw [hg] at e; exact ih _ _ z (by rw [Dict.get?_set, if_neg hkn, h1]) h2 e
      | some x =>
        rw [hg] at e
        simp only at e
        cases hx : x.iadd h v with
        | error er => rw [hx] at e; cases e
        | ok q => rw [hx] at e; exact ih _ _ z (by rw [Dict.get?_set, if_neg hkn, h1]) h2 e
  induction o generalizing d h with
  | nil => cases hn
  | cons p o ih =>
    obtain ⟨k, v⟩ := p
    obtain ⟨hk, ho'⟩ := get?_head o k v ho
    unfold iaddRefs at e
    by_cases hkn : k = n
    · subst hkn
      rw [hd] at e
      simp only [Dict.get?, if_true] at hn
      exact keep o _ _ x (by rw [Dict.get?_set, if_pos rfl, hn]) hk e
    · simp only [Dict.get?, if_neg hkn] at hn
      cases hg : Dict.get? d k with
      | none => rw [hg] at e; exact ih _ _ ho' e (by rw [Dict.get?_set, if_neg hkn, hd]) hn
      | some x =>
        rw [hg] at e
        simp only at e
        cases hx : x.iadd h v with
        | error er => rw [hx] at e; cases e
        | ok q => rw [hx] at e; exact ih _ _ ho' e (by rw [Dict.get?_set, if_neg hkn, hd]) hn

/-- So after `s += a` and `s += b` the spectrum a has changed. -/
theorem iadd_changes_other :
    (match iaddRefs [[1], [2]] [] [("Rayleigh".toList, .obj 0)] with
      | .ok (h1, s) => match iaddRefs h1 s [("Rayleigh".toList, .obj 1)] with
        | .ok (h2, _) => valueOf h2 [("Rayleigh".toList, .obj 0)] "Rayleigh".toList
        | .error _ => Option.none
      | .error _ => Option.none) = some (.arr [3]) ∧
    valueOf [[1], [2]] [("Rayleigh".toList, .obj 0)] "Rayleigh".toList = some (.arr [1]) := by decide +kernel

example : Separate [[1], [2]] [(['R'], .obj 0)] [(['R'], .obj 1)] := by
  refine ⟨?_, ?_, ?_⟩
  · rintro n a (h | h) <;> simp only [Dict.get?] at h <;> split at h <;> simp at h <;> simp [← h]
  · intro n a hn h m hm
    simp only [Dict.keys, List.map_cons, List.map_nil, List.mem_singleton] at hn
    subst hn
    simp [Dict.get?, Ne.symm hm]
  · intro n a hn h m
    simp only [Dict.keys, List.map_cons, List.map_nil, List.mem_singleton] at hn
    subst hn
    simp only [Dict.get?, if_true] at h
    simp at h
    subst h
    simp only [Dict.get?]
    split <;> simp

end SC.Spectrum
