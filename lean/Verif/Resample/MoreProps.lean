import Verif.Resample.TaskProps
/-! # Planes of signals, unchanged axes and methods of interpolation -/
namespace SC.Resample

open SC.Axis

/-- **C65.**  The positions at one index of a dimension: those of all elements with that index, and no others. -/
theorem plane_mem (shape : List Nat) (dim i : Nat) (signal : Arr) (hi : i < shape[dim]?.getD 0) (v : ℚ) :
    v ∈ plane shape dim i signal ↔ ∃ m, Inside m shape ∧ m[dim]? = some i ∧ signal m = v := by
  unfold plane
  have hdim : dim < shape.length := by
    by_contra h
    rw [List.getElem?_eq_none (by omega)] at hi
    simp at hi
  have hlen : ∀ {m s : List Nat}, Inside m s → m.length = s.length := fun h => List.Forall₂.length_eq h
  have hins : ∀ {m s : List Nat}, Inside m s ↔ m.length = s.length ∧ ∀ (k : Nat) (a b : Nat), m[k]? = some a → s[k]? = some b → a < b := by
    intro m s
    unfold Inside
    rw [List.forall₂_iff_get]
    constructor
    · rintro ⟨h1, h2⟩
      refine ⟨h1, fun k a b ha hb => ?_⟩
      obtain ⟨hk, ha⟩ := List.getElem?_eq_some_iff.1 ha
      obtain ⟨hk', hb⟩ := List.getElem?_eq_some_iff.1 hb
      have := h2 k hk hk'
      simp only [List.get_eq_getElem] at this
      omega
    · rintro ⟨h1, h2⟩
      refine ⟨h1, fun k hk hk' => h2 k _ _ (by simp) (by simp)⟩
  have hsd : shape[dim]? = some (shape[dim]?.getD 0) := by rw [List.getElem?_eq_getElem hdim]; rfl
  constructor
  · intro h
    obtain ⟨m, hm, rfl⟩ := List.mem_map.1 h
    obtain ⟨h1, h2⟩ := hins.1 ((mem_allIdx _ _).1 hm)
    rw [List.length_set] at h1
    refine ⟨m.set dim i, hins.2 ⟨by simpa using h1, fun k a b ha hb => ?_⟩, by rw [List.getElem?_set_self (by omega)], rfl⟩
    by_cases hk : k = dim
    · subst hk
      rw [List.getElem?_set_self (by omega)] at ha
      rw [hb] at hi
      simp at ha hi
      omega
    · rw [List.getElem?_set_ne (Ne.symm hk)] at ha
      exact h2 k a b ha (by rw [List.getElem?_set_ne (Ne.symm hk)]; exact hb)
  · rintro ⟨m, hm, hmi, rfl⟩
    obtain ⟨h1, h2⟩ := hins.1 hm
    refine List.mem_map.2 ⟨m.set dim 0, (mem_allIdx _ _).2 (hins.2 ⟨by simpa using h1, fun k a b ha hb => ?_⟩), ?_⟩
    · by_cases hk : k = dim
      · subst hk
        rw [List.getElem?_set_self (by omega)] at ha hb
        simp at ha hb
        omega
      · rw [List.getElem?_set_ne (Ne.symm hk)] at ha hb
        exact h2 k a b ha hb
    · congr 1
      rw [List.set_set]
      apply List.ext_getElem?
      intro k
      by_cases hk : k = dim
      · subst hk
        rw [List.getElem?_set_self (by omega), hmi]
      · rw [List.getElem?_set_ne (Ne.symm hk)]

theorem allIdx_length (shape : List Nat) : (allIdx shape).length = shape.prod := by
  induction shape with
  | nil => rfl
  | cons n r ih => simp [allIdx, List.length_flatMap, ih]

/-- Every element of the plane once. -/
theorem plane_length (shape : List Nat) (dim i : Nat) (signal : Arr) : (plane shape dim i signal).length = (shape.set dim 1).prod := by
  simp [plane, allIdx_length]

/-- **C65.**  When nothing is to be interpolated the motor positions are those that there were. -/
theorem encoder_unchanged (pos : Ax) (res : ℚ) (given : Option ℚ) (crop : Bool) (first last : List ℚ) (p : Ax) (off : ℚ)
    (h : encoder pos res given crop first last = .ok (p, none, off)) : p = pos := by
  unfold encoder at h
  dsimp only at h
  repeat' split at h
  all_goals first
    | (cases h; done)
    | (cases h; rfl)

theorem irregular_zero (spline : Kind → List (ℚ × ℚ) → ℚ → ℚ) (griddata : Kind → Interp) (cval : Option ℚ) (n : Nat) (data pos : Arr) (dest : List ℚ)
    (f : List Nat → Option ℚ) (h : irregular spline griddata cval 0 1 [n] data [pos] [dest] = .ok f) (k : Nat) :
    f [k] = interp1d nearestSeg cval ((List.range n).map fun (i : Nat) => (pos [i], data [i])) (dest.getD k 0) := by
  unfold irregular at h
  rw [if_neg (by simp), if_pos rfl, show kind1d 0 = some .nearest from rfl] at h
  simp only [Except.ok.injEq] at h
  rw [← h]
  rfl

theorem nearest_range (cval : Option ℚ) (n : Nat) (data pos : Nat → ℚ) 
    (hd : Distinct ((List.range n).map fun (i : Nat) => (pos i, data i))) (a b : Nat) (ha : a < n) (hb : b < n) (x : ℚ) 
    (h1 : pos a ≤ x) (h2 : x ≤ pos b) : ∃ c < n, interp1d nearestSeg cval ((List.range n).map fun (i : Nat) => (pos i, data i)) x = some (data c) ∧ ∀ d < n, |x - pos c| ≤ |x - pos d| := by
  have hm : ∀ c < n, (pos c, data c) ∈ (List.range n).map fun (i : Nat) => (pos i, data i) :=
    fun c hc => List.mem_map.2 ⟨c, List.mem_range.2 hc, rfl⟩
  generalize hp : ((List.range n).map fun (i : Nat) => (pos i, data i)) = pts at *
  have := nearest_spec cval pts hd x (pos a, data a) (pos b, data b) (hm a ha) (hm b hb) h1 h2
  obtain ⟨p, hp', r1, r2⟩ := this
  rw [← hp] at hp'
  obtain ⟨c, hc, hc'⟩ := List.mem_map.1 hp'
  refine ⟨c, List.mem_range.1 hc, ?_, fun d hd => ?_⟩
  · rw [r1, ← hc']
  · have := r2 _ (hm d hd)
    rw [← hc'] at this
    exact this

/-- **C65.**  In one dimension and with degree zero the result at a position between measured positions is the value at one of
the closest positions. -/
theorem irregular_1d (spline : Kind → List (ℚ × ℚ) → ℚ → ℚ) (griddata : Kind → Interp) (cval : Option ℚ) (n : Nat) (data pos : Arr) (dest : List ℚ)
    (f : List Nat → Option ℚ) (h : irregular spline griddata cval 0 1 [n] data [pos] [dest] = .ok f)
    (hd : Distinct ((List.range n).map fun (i : Nat) => (pos [i], data [i]))) (k a b : Nat) (ha : a < n) (hb : b < n)
    (h1 : pos [a] ≤ dest.getD k 0) (h2 : dest.getD k 0 ≤ pos [b]) :
    ∃ c < n, f [k] = some (data [c]) ∧ ∀ d < n, |dest.getD k 0 - pos [c]| ≤ |dest.getD k 0 - pos [d]| := by
  rw [irregular_zero spline griddata cval n data pos dest f h k]
  exact nearest_range cval n (fun i => data [i]) (fun i => pos [i]) hd a b ha hb _ h1 h2

/-- **C65.**  In three and more dimensions: the closest value with degree zero, linear otherwise. -/
theorem irregular_nd (spline : Kind → List (ℚ × ℚ) → ℚ → ℚ) (griddata : Kind → Interp) (cval : Option ℚ) (degree : Int) (ndim : Nat) (hn : 3 ≤ ndim)
    (shape : List Nat) (data : Arr) (coords : List Arr) (dest : List (List ℚ)) (hc : coords.length = ndim) (hd : dest.length = ndim) :
    irregular spline griddata cval degree ndim shape data coords dest =
      .ok (griddata (if degree = 0 then .nearest else .linear) shape data coords dest) := by
  unfold irregular
  rw [if_neg (by omega), if_neg (by omega)]
  unfold kindnd
  rw [if_neg (by omega)]
  by_cases h : degree = 0 <;> simp [h]

example : plane [2, 3] 1 2 (fun m => (m.getD 0 0 : ℚ) * 10 + m.getD 1 0) = [2, 12] := by decide +kernel

example : (irregular (fun _ _ _ => 0) (fun _ _ _ _ _ _ => none) none 0 1 [3] (fun m => (m.headD 0 : ℚ) * 5) [fun m => m.headD 0] [[1/4, 7/4]]).toOption.map
    (fun f => (f [0], f [1])) = some (some 0, some 10) := by decide +kernel

end SC.Resample
