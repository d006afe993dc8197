import Verif.Ft.Model
import Mathlib.Tactic.Ring
import Mathlib.Tactic.Linarith
/-! # Helper lemmas about Fourier conventions -/
namespace SC.Ft
open SC.Numpy

theorem arange_length (a b : Int) : (arange a b).length = (b - a).toNat := by simp [arange]

theorem arange_get (a b : Int) {k : Nat} (h : k < (b - a).toNat) : (arange a b)[k]? = some (a + k) := by
  simp [arange, h]

theorem arange_zero_left (b : Int) {k : Nat} (h : k < b.toNat) : (arange 0 b)[k]? = some (k : Int) := by
  rw [arange_get _ _ (by simpa using h)]; simp

theorem assign_exact {m : Nat} {src : List Int} (h : src.length = m) : assign m src = some src := by simp [assign, h]

theorem assign_zero_one (src : List Int) (h : src.length ≤ 1) : assign 0 src = some [] := by
  unfold assign
  split
  · next h0 => rw [List.length_eq_zero_iff.1 h0]
  · next h0 => rw [if_pos (by omega)]; rfl

theorem freqind_sum (n : Nat) (c : Conv) : (freqind n c).2 + 1 + -(freqind n c).1 = n := by
  cases c <;> simp only [freqind] <;> omega

theorem freqind_bounds (n : Nat) (h : 0 < n) (c : Conv) : (freqind n c).1 ≤ 0 ∧ 0 ≤ (freqind n c).2 := by
  cases c <;> simp only [freqind] <;> omega

theorem fill_exact {n p : Nat} {a b : List Int} (hp : p ≤ n) (ha : a.length = p) (hb : b.length = n - p) :
    fill n p a b = some (a ++ b) := by
  have hp' : bound n (p : Int) = p := by unfold bound; rw [if_neg (by omega)]; simp; omega
  simp [fill, hp', assign_exact ha, assign_exact hb]

/-- The index list of one axis is a rotation. -/
theorem shiftInd_eq (n : Nat) (npos : Int) (h0 : 0 ≤ npos) (h1 : npos ≤ n) :
    shiftInd n npos = some ((List.range n).map fun (j : Nat) => ((j : Int) + npos) % n) := by
  obtain ⟨q, rfl⟩ := Int.eq_ofNat_of_zero_le h0
  have hq : q ≤ n := by omega
  unfold shiftInd
  have : (n : Int) - (q : Int) = ((n - q : Nat) : Int) := by omega
  simp only [this]
  rw [fill_exact (by omega) (by rw [arange_length]; omega) (by rw [arange_length]; omega)]
  congr 1
  apply List.ext_getElem?
  intro k
  by_cases hk : k < n
  · by_cases hk2 : k < n - q
    · rw [List.getElem?_append_left (by rw [arange_length]; omega), arange_get _ _ (by omega)]
      simp [hk]
      rw [Int.emod_eq_of_lt (by omega) (by omega)]; omega
    · rw [List.getElem?_append_right (by rw [arange_length]; omega), arange_length]
      rw [arange_zero_left _ (by omega)]
      simp [hk]
      have : ((k : Int) + q) % n = ((k : Int) + q - n) % n := by rw [Int.sub_emod_right]
      rw [this, Int.emod_eq_of_lt (by omega) (by omega)]; omega
  · rw [List.getElem?_eq_none (by simp [arange_length]; omega), List.getElem?_eq_none (by simp; omega)]

/-- No elements: numpy's assignment of one element to no places is what makes this work. -/
theorem shiftInd_zero_idl : shiftInd 0 1 = some [] ∧ shiftInd 0 (-1) = some [] ∧ shiftInd 0 0 = some [] := by
  decide

theorem shiftInd_fft (n : Nat) (c : Conv) :
    shiftInd n ((freqind n c).2 + 1) = some ((List.range n).map fun (j : Nat) => ((j : Int) + ((freqind n c).2 + 1)) % n) := by
  rcases Nat.eq_zero_or_pos n with h | h
  · subst h; cases c <;> decide
  · have := freqind_bounds n h c
    have := freqind_sum n c
    exact shiftInd_eq n _ (by omega) (by omega)

theorem shiftInd_ifft (n : Nat) (c : Conv) :
    shiftInd n (-(freqind n c).1) = some ((List.range n).map fun (j : Nat) => ((j : Int) + -(freqind n c).1) % n) := by
  rcases Nat.eq_zero_or_pos n with h | h
  · subst h; cases c <;> decide
  · have := freqind_bounds n h c
    have := freqind_sum n c
    exact shiftInd_eq n _ (by omega) (by omega)

/-- Rotation of one axis -/
theorem take_rot {α : Type} (a : Arr α) (k n : Nat) (hn : a.shape[k]? = some n) (s : Int) :
    ∃ b, take a ((List.range n).map fun (j : Nat) => ((j : Int) + s) % n) k = some b ∧ b.shape = a.shape ∧
      ∀ r : List Nat, ∀ i, r[k]? = some i → i < n → b.get r = a.get (r.set k (((i : Int) + s) % n).toNat) := by
  have hk : a.shape.getD k 0 = n := by simp [List.getD_eq_getElem?_getD, hn]
  have hklt : k < a.shape.length := (List.getElem?_eq_some_iff.1 hn).1
  unfold take
  rw [hk, if_pos]
  · refine ⟨_, rfl, ?_, ?_⟩
    · simp only [List.length_map, List.length_range]
      exact List.ext_getElem? fun j => by
        rw [List.getElem?_set]
        split
        · next h => subst h; rw [hn]
        · rfl
    · intro r i hi hin
      have e1 : r.getD k 0 = i := by simp [List.getD_eq_getElem?_getD, hi]
      have e2 : ((List.range n).map fun (j : Nat) => ((j : Int) + s) % n).getD i 0 = ((i : Int) + s) % n := by
        simp [List.getD_eq_getElem?_getD, hin]
      simp only [e1, e2]
      rw [if_neg (by have := Int.emod_nonneg ((i : Int) + s) (b := (n : Int)) (by omega); omega)]
  · simp only [List.all_eq_true, List.mem_map, List.mem_range, decide_eq_true_eq]
    rintro x ⟨j, hj, rfl⟩
    have h1 := Int.emod_nonneg ((j : Int) + s) (b := (n : Int)) (by omega)
    have h2 := Int.emod_lt_of_pos ((j : Int) + s) (b := (n : Int)) (by omega)
    omega

/-- Rotated index tuple: only the axes from `k` on -/
def rotFrom (f : Nat → Int) (dim : List Nat) (ks : List Nat) (r : List Nat) : List Nat :=
  ks.foldr (fun k (r : List Nat) => r.set k ((((r.getD k 0 : Nat) : Int) + f (dim.getD k 0)) % (dim.getD k 0 : Nat)).toNat) r

theorem inB_set : ∀ {r s : List Nat} (k v n : Nat), InB r s → s[k]? = some n → v < n → InB (r.set k v) s
  | [], [], _, _, _, _, h, _ => by simp at h
  | i :: r, m :: s, 0, v, n, h, hk, hv => by
    simp at hk; subst hk; exact ⟨hv, h.2⟩
  | i :: r, m :: s, k + 1, v, n, h, hk, hv => ⟨h.1, inB_set k v n h.2 (by simpa using hk) hv⟩

theorem shiftLoop_spec {α : Type} (f : Nat → Int) (dim : List Nat) (hf : ∀ n : Nat, shiftInd n (f n) = some ((List.range n).map fun (j : Nat) => ((j : Int) + f n) % n)) :
    ∀ (ks : List Nat) (_ : ∀ k ∈ ks, k < dim.length) (a : Arr α), a.shape = dim →
      ∃ b, shiftLoop (dim.map f) dim ks a = some b ∧ b.shape = dim ∧ ∀ r, InB r dim → b.get r = a.get (rotFrom f dim ks r) ∧ InB (rotFrom f dim ks r) dim
  | [], _, a, ha => ⟨a, rfl, ha, fun r hr => ⟨rfl, hr⟩⟩
  | k :: ks, hks, a, ha => by
    have hk : k < dim.length := hks k (by simp)
    obtain ⟨n, hn⟩ : ∃ n, dim[k]? = some n := ⟨dim[k], by simp [hk]⟩
    have e1 : dim.getD k 0 = n := by simp [List.getD_eq_getElem?_getD, hn]
    have e2 : (dim.map f).getD k 0 = f n := by simp [List.getD_eq_getElem?_getD, hn]
    obtain ⟨b, hb, hbs, hbg⟩ := take_rot a k n (by rw [ha]; exact hn) (f n)
    obtain ⟨c, hc, hcs, hcg⟩ := shiftLoop_spec f dim hf ks (fun j hj => hks j (by simp [hj])) b (by rw [hbs, ha])
    refine ⟨c, ?_, hcs, ?_⟩
    · unfold shiftLoop; rw [e1, e2, hf n, Option.bind_some, hb, Option.bind_some, hc]
    · intro r hr
      obtain ⟨g1, g2⟩ := hcg r hr
      obtain ⟨i, hi, hin⟩ := g2.getElem? hn
      have e3 : rotFrom f dim (k :: ks) r = (rotFrom f dim ks r).set k (((i : Int) + f n) % n).toNat := by
        simp only [rotFrom, List.foldr_cons, e1]
        have : (List.foldr (fun k (r : List Nat) => r.set k ((((r.getD k 0 : Nat) : Int) + f (dim.getD k 0)) % (dim.getD k 0 : Nat)).toNat) r ks).getD k 0 = i := by
          have h := hi
          unfold rotFrom at h
          rw [List.getD_eq_getElem?_getD, h]; rfl
        rw [this]
      refine ⟨?_, ?_⟩
      · rw [g1, hbg _ i hi hin, e3]
      · rw [e3]
        apply inB_set k _ n g2 hn
        have h1 := Int.emod_nonneg ((i : Int) + f n) (b := (n : Int)) (by omega)
        have h2 := Int.emod_lt_of_pos ((i : Int) + f n) (b := (n : Int)) (by omega)
        omega

/-- What the loop does to one coordinate -/
theorem rotFrom_get (f : Nat → Int) (dim : List Nat) (r : List Nat) (j : Nat) :
    ∀ (ks : List Nat), ks.Nodup → (rotFrom f dim ks r)[j]? =
      if j ∈ ks then (r[j]?).map (fun (i : Nat) => (((i : Int) + f (dim.getD j 0)) % (dim.getD j 0 : Nat)).toNat) else r[j]?
  | [], _ => by simp [rotFrom]
  | k :: ks, h => by
    have ih := rotFrom_get f dim r j ks (List.nodup_cons.1 h).2
    have hk : k ∉ ks := (List.nodup_cons.1 h).1
    have e : rotFrom f dim (k :: ks) r = (rotFrom f dim ks r).set k (((((rotFrom f dim ks r).getD k 0 : Nat) : Int) + f (dim.getD k 0)) % (dim.getD k 0 : Nat)).toNat := rfl
    rw [e, List.getElem?_set]
    by_cases hkj : k = j
    · subst hkj
      rw [if_pos rfl, if_pos (List.mem_cons_self)]
      rw [if_neg hk] at ih
      rw [List.getD_eq_getElem?_getD, ih]
      rcases hr : r[k]? with _ | i
      · rw [hr] at ih
        rw [if_neg (by rw [List.getElem?_eq_none_iff] at ih; omega)]; rfl
      · rw [hr] at ih
        rw [if_pos (List.getElem?_eq_some_iff.1 ih).1]; rfl
    · rw [if_neg hkj, ih]
      have : (j ∈ k :: ks) = (j ∈ ks) := by simp [Ne.symm hkj]
      simp only [this]

theorem freqs_true (n : Nat) (c : Conv) : freqs n true c = some (arange (freqind n c).1 ((freqind n c).2 + 1)) := by
  simp [freqs]

end SC.Ft
