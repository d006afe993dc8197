import Verif.XasPipe.Spec
import Mathlib.Tactic.Ring
import Mathlib.Tactic.Linarith
import Mathlib.Tactic.FieldSimp
/-! # Lemmas on the XAS pipelines -/
namespace SC.XasPipe
open SC.Py

theorem withTimes_own (ss : List Scan) : withTimes .own ss = (.own, ss.map fun s => (s, s.mtime)) := by
  induction ss with
  | nil => rfl
  | cons s r ih => simp [withTimes, times, ih]

theorem withTimes_iodet (ss : List Scan) : withTimes .iodet ss = (.iodet, ss.map fun s => (s, s.iodet)) := by
  induction ss with
  | nil => rfl
  | cons s r ih => simp [withTimes, times, ih]

theorem synchronized_iff (p : Params) (a b : Scan) : synchronized p a b = true ↔ InSync a b := by
  unfold synchronized InSync energies
  simp only [Bool.and_eq_true, decide_eq_true_eq, List.all_eq_true, List.mem_range, add_sub_add_right_eq_sub]
  constructor
  · rintro ⟨h1, h2⟩; exact ⟨h1.symm, h2⟩
  · rintro ⟨h1, h2⟩; exact ⟨h1.symm, h2⟩

/-- Adding spectra to a sum with the same number of channels. -/
theorem sumXrf_some (m : Nat) (l : List (Scan × Col)) (a : Xrf) (ha : a.nchan = m)
    (h : ∀ q ∈ l, q.1.xrf = none ∨ HasFiles m q.1) :
    sumXrf l (some a) = .ok ⟨m, fun e c => a.counts e c + (l.map fun q => chan q.1 e c / q.2 e).sum⟩ := by
  induction l generalizing a with
  | nil => subst ha; simp [sumXrf]
  | cons q r ih =>
    obtain ⟨s, norm⟩ := q
    have hr : ∀ q ∈ r, q.1.xrf = none ∨ HasFiles m q.1 := fun q hq => h q (List.mem_cons_of_mem _ hq)
    rcases h (s, norm) List.mem_cons_self with h0 | ⟨hs, d, hd, hm⟩
    · simp only at h0
      simp only [sumXrf, addXrf, h0]
      rw [ih a ha hr]
      simp [chan, h0]
    · simp only at hs hd
      simp only [sumXrf, addXrf, hd, hs, if_true, hm, ha]
      rw [ih _ rfl hr]
      simp [chan, hd, add_assoc]

/-- ... from the beginning. -/
theorem sumXrf_none (m : Nat) (q : Scan × Col) (l : List (Scan × Col)) (h0 : HasFiles m q.1)
    (h : ∀ q ∈ l, q.1.xrf = none ∨ HasFiles m q.1) :
    sumXrf (q :: l) none = .ok ⟨m, fun e c => ((q :: l).map fun q => chan q.1 e c / q.2 e).sum⟩ := by
  obtain ⟨s, norm⟩ := q
  obtain ⟨hs, d, hd, hm⟩ := h0
  simp only at hs hd
  simp only [sumXrf, addXrf, hd, hs, if_true]
  rw [sumXrf_some m l ⟨d.nchan, fun e c => d.counts e c / norm e⟩ hm h]
  simp [chan, hd]

theorem finish_counts (b : Rat) (n : Nat) (x : Xrf) (e c : Nat) :
    (finish b n x).counts e c = max 0 (x.counts e c / n - b) := by
  unfold finish
  simp only
  split
  · next h => rw [max_eq_left h.le]
  · next h => rw [max_eq_right (not_lt.1 h)]

theorem range_slice (m a b : Nat) : ((List.range m).take b).drop a = (List.range m).filter fun c => decide (a ≤ c ∧ c < b) := by
  induction m with
  | zero => simp
  | succ m ih =>
    rw [List.range_succ, List.filter_append, ← ih, List.take_append, List.drop_append]
    simp only [List.length_take, List.length_range]
    by_cases h1 : m < b
    · rw [Nat.min_eq_right h1.le, List.take_of_length_le (l := [m]) (by simp; omega)]
      by_cases h2 : a ≤ m
      · simp [h1, h2, Nat.sub_eq_zero_of_le h2]
      · have : (List.drop (a - m) [m]) = [] := List.drop_eq_nil_of_le (by simp; omega)
        simp [h2, this]
    · have : b - m = 0 := by omega
      simp [this, h1]

theorem roiSum_over (x : Xrf) (a b e : Nat) : roiSum x a b e = over x.nchan a b (x.counts e) := by
  unfold roiSum over
  rw [range_slice]

theorem get?_map_some {V W : Type} (f : V → W) (d : Dict Str V) (k : Str) :
    Dict.get? (d.map fun q => (q.1, f q.2)) k = (Dict.get? d k).map f := by
  induction d with
  | nil => rfl
  | cons q r ih =>
    obtain ⟨y, w⟩ := q
    simp only [List.map_cons, Dict.get?, ih]
    split <;> rfl

theorem get?_none_of {V : Type} (l : Dict Str V) (k : Str) (h : ∀ q ∈ l, q.1 ≠ k) : Dict.get? l k = none := by
  induction l with
  | nil => rfl
  | cons q r ih =>
    obtain ⟨y, w⟩ := q
    have : y ≠ k := h (y, w) List.mem_cons_self
    simp only [Dict.get?, this, if_false]
    exact ih fun q hq => h q (List.mem_cons_of_mem _ hq)

theorem addRest_free (x : Ext) (p : Params) (en : Col) (l : List (Scan × Col)) (ns : List Col) (d : Dict Str (List Col)) (k : Str)
    (h : Free p k) : Dict.get? (addRest x p en l ns d) k = Dict.get? d k := by
  obtain ⟨h1, h2, h3⟩ := h
  unfold addRest
  rw [Dict.get?_set, if_neg (Ne.symm h2), Dict.get?_update, get?_none_of, Option.none_or, Dict.get?_set, if_neg (Ne.symm h1)]
  intro q hq
  simp only [List.mem_reverse, List.mem_map] at hq
  obtain ⟨c, hc, rfl⟩ := hq
  exact h3 c hc

/-- The value of a key that occurs once among the items. -/
theorem get?_update_unique {α V : Type} (key : α → Str) (val : α → V) (l : List α) (d : Dict Str V) (a : α) (ha : a ∈ l)
    (hn : (l.map key).Nodup) : Dict.get? (Dict.update d (l.map fun a => (key a, val a))) (key a) = some (val a) := by
  rw [Dict.get?_update]
  have : Dict.get? (l.map fun a => (key a, val a)).reverse (key a) = some (val a) := by
    apply Dict.get?_of_mem
    · unfold Dict.WF Dict.keys
      rw [List.map_reverse, List.nodup_reverse, List.map_map]
      exact hn
    · simp only [List.mem_reverse, List.mem_map]
      exact ⟨a, ha, rfl⟩
  rw [this]; rfl

theorem norms_plain (x : Ext) (p : Params) (n : Nat) (l : List (Scan × Col)) (h : p.normmedian = false) :
    norms x p n l = l.map fun s => corrected p.bkgflux s.1.realtime s.1.iodet s.2 := by
  simp [norms, h]

theorem unitsOk_iff (p : Params) : unitsOk p = true ↔ NoBackground p := by
  simp [unitsOk, NoBackground]

/-- What a successful spectrum consists of. -/
theorem spectrum_ok (x : Ext) (p : Params) (rois : Option Rois) (cfg : Str) (s0 : Scan × Col) (r : List (Scan × Col))
    (d : Dict Str (List Col)) (h : spectrum x p rois cfg (s0 :: r) = .ok d) :
    (unitsOk p = true ∧ ∀ s ∈ r, InSync s0.1 s.1) ∧ ∃ rep data res, p.replacebasedir = some rep ∧
      sumXrf (((s0 :: r).map Prod.fst).zip (norms x p s0.1.n (s0 :: r))) none = .ok data ∧
      xrfResults x rois (replaceTimes rep (s0 :: r).length cfg) (finish p.bkgxas (s0 :: r).length data)
              (((s0 :: r).getLast?.bind fun s => s.1.xrf).isSome) s0.1.n (energies p s0.1) = .ok res ∧
      d = addRest x p (energies p s0.1) (s0 :: r) (norms x p s0.1.n (s0 :: r)) res := by
  unfold spectrum at h
  simp only at h
  split at h
  · cases h
  · next hu =>
    split at h
    · next hs =>
      refine ⟨⟨by simpa using hu, fun s hs' => (synchronized_iff p _ _).1 (List.all_eq_true.1 hs s hs')⟩, ?_⟩
      split at h
      · cases h
      · next rep hrep =>
        split at h
        · cases h
        · next data hdata =>
          split at h
          · cases h
          · next res hres =>
            exact ⟨rep, data, res, hrep, hdata, hres, by cases h; rfl⟩
    · cases h

/-- The data of scans with their own exposure times. -/
theorem sum_own (x : Ext) (p : Params) (m : Nat) (s0 : Scan) (r : List Scan) (hm : p.normmedian = false) (h0 : HasFiles m s0)
    (h : ∀ s ∈ r, s.xrf = none ∨ HasFiles m s) :
    sumXrf ((((s0 :: r).map fun s => (s, s.mtime)).map Prod.fst).zip (norms x p s0.n ((s0 :: r).map fun s => (s, s.mtime)))) none
      = .ok ⟨m, fun e c => ((s0 :: r).map fun s => chan s e c / I0 p s (s.mtime e) e).sum⟩ := by
  rw [norms_plain x p _ _ hm]
  have e1 : (((s0 :: r).map fun s => (s, s.mtime)).map Prod.fst).zip
      (((s0 :: r).map fun s => (s, s.mtime)).map fun s : Scan × Col => corrected p.bkgflux s.1.realtime s.1.iodet s.2)
      = (s0 :: r).map fun s => (s, corrected p.bkgflux s.realtime s.iodet s.mtime) := by
    rw [List.map_map, List.map_map, List.zip_map']
    rfl
  rw [e1, List.map_cons]
  rw [sumXrf_none m _ _ h0]
  · congr 2
    funext e c
    simp [List.map_map, Function.comp_def, corrected, I0]
  · intro q hq
    obtain ⟨s, hs, rfl⟩ := List.mem_map.1 hq
    exact h s hs

/-! ## Replacing -/

theorem replaceN_absent (a b : Str) (n : Nat) (s : Str) (h : ¬ a <:+: s) : Expression.replaceN a b n s = s := by
  induction n generalizing s with
  | zero => rfl
  | succ n ih =>
    cases s with
    | nil => rfl
    | cons c s =>
      have h1 : a.isPrefixOf (c :: s) = false := by
        rw [Bool.eq_false_iff]
        intro hp
        exact h (List.isPrefixOf_iff_prefix.1 hp).isInfix
      have h2 : ¬ a <:+: s := fun hi => h (hi.trans (List.suffix_cons c s).isInfix)
      simp [Expression.replaceN, h1, ih s h2]

theorem replaceTimes_absent (a b : Str) (n : Nat) (s : Str) (h : ¬ a <:+: s) : replaceTimes [a, b] n s = s := by
  induction n with
  | zero => rfl
  | succ n ih =>
    have : replaceOnce [a, b] s = s := replaceN_absent a b _ s h
    simp [replaceTimes, this, ih]

end SC.XasPipe
