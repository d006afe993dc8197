import Verif.XiaStats.Lemmas
import Verif.Xia.Props
import Mathlib.Algebra.Order.Field.Rat
import Mathlib.Tactic.Linarith
import Mathlib.Tactic.NormNum
/-! # C29 and C30: XIA statistics, dead time and normalisation -/
namespace SC.XiaStats
open SC.Naming SC.Xia

variable {V : Type} [Inhabited V]

/-! ## C29 -/

/-- C29, layout: statistic `a` of detector `d` is in column `d * nstats + a` of the file, whatever the
number of statistics. -/
theorem saved_cell (nstats ndet : Nat) (stats : List (List (List V))) (h : Shaped nstats ndet stats)
    (i a d : Nat) (ha : a < nstats) (hd : d < ndet) (m : List (List V)) (hm : stats[i]? = some m) :
    ∃ row, (saveStats nstats ndet stats).image[i]? = some row ∧ row.length = nstats * ndet ∧
      row[d * nstats + a]? = (m[a]?).bind (fun r => r[d]?) := by
  have hmem : m ∈ stats := List.mem_of_getElem? hm
  obtain ⟨h1, h2⟩ := h m hmem
  refine ⟨take m.flatten (saveOrder nstats ndet), by simp [saveStats, hm], ?_, ?_⟩
  · simp [take, saveOrder_eq, List.length_flatten, List.map_map, Function.comp_def, Nat.mul_comm]
  · have hlen : (take m.flatten (saveOrder nstats ndet)).length = nstats * ndet := by
      simp [take, saveOrder_eq, List.length_flatten, List.map_map, Function.comp_def, Nat.mul_comm]
    have hlt : d * nstats + a < nstats * ndet := by
      have h3 : (d + 1) * nstats ≤ ndet * nstats := Nat.mul_le_mul_right _ hd
      rw [Nat.succ_mul] at h3
      rw [Nat.mul_comm nstats]
      omega
    have e1 : (take m.flatten (saveOrder nstats ndet)).getD (d * nstats + a) default = (m.getD a []).getD d default := by
      rw [saved_row nstats ndet m h2, flatten_getD _ (k := nstats) (by
        intro l hl
        obtain ⟨x, _, rfl⟩ := List.mem_map.1 hl
        simp) d a ha]
      simp [List.getD_eq_getElem?_getD, hd, ha]
    have ha' : a < m.length := by omega
    have hd' : d < (m[a]).length := by rw [h2 _ (List.getElem_mem ha')]; exact hd
    rw [List.getElem?_eq_getElem (by omega), List.getElem?_eq_getElem ha', Option.bind_some, List.getElem?_eq_getElem hd']
    simp only [List.getD_eq_getElem?_getD, List.getElem?_eq_getElem ha', Option.getD_some, List.getElem?_eq_getElem hd'] at e1
    rw [List.getElem?_eq_getElem (by omega), Option.getD_some] at e1
    rw [e1]

/-- C29: with the six statistics of XIA the array read back is the array saved, for any number of
spectra and detectors. -/
theorem save_read (ndet : Nat) (stats : List (List (List V))) (h : Shaped 6 ndet stats) :
    readStats (6 * ndet) (saveStats 6 ndet stats) = some stats := by
  have e : 6 * ndet / NSTATS = ndet := by simp [NSTATS]
  unfold readStats
  rw [e, if_pos (by simp [NSTATS, Nat.mul_comm])]
  congr 1
  simp only [saveStats, List.map_map]
  conv_rhs => rw [← List.map_id stats]
  refine List.map_congr_left ?_
  intro m hm
  obtain ⟨h1, h2⟩ := h m hm
  simp only [Function.comp, id]
  rw [saved_row 6 ndet m h2]
  have := read_row ndet 6 (fun a d => (m.getD a []).getD d default)
  simp only [NSTATS]
  rw [this, rebuild 6 ndet m h1 h2]

/-- What the caller expects: the statistics (all, or ICR and OCR only) of the selected detectors. -/
def Restricted (sel : List Nat) (onlyicrocr : Bool) (stats out : List (List (List V))) : Prop :=
  out.length = stats.length ∧ ∀ (i : Nat) m m', stats[i]? = some m → out[i]? = some m' →
    m'.length = (if onlyicrocr then 2 else m.length) ∧
      ∀ (a : Nat) (j d : Nat), sel[j]? = some d → a < m'.length →
        ((m'[a]?).bind (fun r => r[j]?)) = ((m[if onlyicrocr then a + 2 else a]?).bind (fun r => r[d]?))

theorem mapM_some {α β : Type} (f : α → Option β) (g : α → β) (l : List α) (h : ∀ x ∈ l, f x = some (g x)) :
    l.mapM f = some (l.map g) := by
  induction l with
  | nil => rfl
  | cons a l ih =>
    rw [List.mapM_cons, h a (by simp), ih (fun x hx => h x (by simp [hx]))]
    rfl

theorem statIndices_of (ndet : Nat) (labels : List Str) (sel : List Nat) (hsel : ∀ i ∈ sel, i < ndet)
    (hl : ∀ i ∈ sel, toNumber (xiaparselabel (labels.getD i [])).2 = some i) :
    statIndices (List.range ndet) (sel.map (fun i => (xiaparselabel (labels.getD i [])).2)) = some (sel.map some) := by
  unfold statIndices
  have : ∀ l : List Nat, (∀ i ∈ l, i < ndet) → (∀ i ∈ l, toNumber (xiaparselabel (labels.getD i [])).2 = some i) →
      (l.map (fun i => (xiaparselabel (labels.getD i [])).2)).mapM (fun d =>
        match toNumber d with
        | none => some none
        | some n => (indexOf (List.range ndet) n).map some) = some (l.map some) := by
    intro l h1 h2
    induction l with
    | nil => rfl
    | cons a l ih =>
      rw [List.map_cons, List.mapM_cons, h2 a (by simp), ih (fun i hi => h1 i (by simp [hi])) (fun i hi => h2 i (by simp [hi]))]
      simp only [indexOf_range, if_pos (h1 a (by simp))]
      rfl
  exact this sel hsel hl

/-- C29: when the number in the label of every selected detector is its position, saving and reading
gives the statistics of the selected detectors. -/
theorem save_load (zero : V) (ndet : Nat) (labels : List Str) (sel : List Nat) (only : Bool)
    (stats : List (List (List V))) (h : Shaped 6 ndet stats) (hsel : ∀ i ∈ sel, i < ndet) (hne : sel ≠ [])
    (hl : ∀ i ∈ sel, toNumber (xiaparselabel (labels.getD i [])).2 = some i) :
    ∃ out, saveLoad zero 6 ndet labels sel only stats = some out ∧ Restricted sel only stats out := by
  unfold saveLoad getStats
  rw [save_read ndet stats h]
  simp only [saveStats, Option.bind_some, statIndices_of ndet labels sel hsel hl, Option.map_some]
  rw [if_neg (by simpa using hne)]
  refine ⟨_, rfl, by simp, ?_⟩
  intro i m m' hm hm'
  have hmem : m ∈ stats := List.mem_of_getElem? hm
  obtain ⟨h1, h2⟩ := h m hmem
  rw [List.getElem?_map, hm, Option.map_some, Option.some_inj] at hm'
  have key : ∀ (a j d : Nat), sel[j]? = some d → a < 6 →
      (((m.map (select zero (sel.map some)))[a]?).bind (fun r => r[j]?)) = ((m[a]?).bind (fun r => r[d]?)) := by
    intro a j d hj ha
    have ha' : a < m.length := by omega
    have hd : d < (m[a]).length := by rw [h2 _ (List.getElem_mem ha')]; exact hsel d (List.mem_of_getElem? hj)
    simp [select, hj, List.getElem?_eq_getElem ha', List.getElem?_eq_getElem hd, List.getD_eq_getElem?_getD]
  cases only with
  | false =>
    simp only [Bool.false_eq_true, if_false] at hm' ⊢
    subst hm'
    refine ⟨by simp, ?_⟩
    intro a j d hj ha
    exact key a j d hj (by simpa [h1] using ha)
  | true =>
    simp only [if_true] at hm' ⊢
    subst hm'
    refine ⟨by simp, ?_⟩
    intro a j d hj ha
    simp only [List.length_cons, List.length_nil] at ha
    have hlen : (m.map (select zero (sel.map some))).length = 6 := by simp [h1]
    generalize hM : m.map (select zero (sel.map some)) = M at key hlen
    have hg : ∀ k, k < 6 → M[k]? = some (M.getD k []) := by
      intro k hk
      rw [List.getD_eq_getElem?_getD, List.getElem?_eq_getElem (by omega)]
      rfl
    rcases a with _ | _ | a
    · have := key 2 j d hj (by omega)
      rw [hg 2 (by omega)] at this
      simpa using this
    · have := key 3 j d hj (by omega)
      rw [hg 3 (by omega)] at this
      simpa using this
    · omega

/-- C29: with the default labels every selection of detectors gets its own statistics. -/
theorem save_load_default (zero : V) (ndet : Nat) (sel : List Nat) (only : Bool)
    (stats : List (List (List V))) (h : Shaped 6 ndet stats) (hsel : ∀ i ∈ sel, i < ndet) (hne : sel ≠ []) :
    ∃ out, saveLoad zero 6 ndet ((List.range ndet).map defaultLabel) sel only stats = some out ∧
      Restricted sel only stats out := by
  refine save_load zero ndet _ sel only stats h hsel hne ?_
  intro i hi
  have := hsel i hi
  have e : ((List.range ndet).map defaultLabel).getD i [] = defaultLabel i := by
    simp [List.getD_eq_getElem?_getD, this]
  rw [e, toNumber_default]

/-- Reading all detectors in the order in which they were saved gives back the array. -/
theorem restricted_all (ndet : Nat) (stats out : List (List (List V))) (h : Shaped 6 ndet stats) (ho : Shaped 6 ndet out) :
    Restricted (List.range ndet) false stats out ↔ out = stats := by
  constructor
  · rintro ⟨h1, h2⟩
    refine List.ext_getElem h1 ?_
    intro i hi hi'
    obtain ⟨h3, h4⟩ := h2 i _ _ (List.getElem?_eq_getElem hi') (List.getElem?_eq_getElem hi)
    obtain ⟨_, hr⟩ := h _ (List.getElem_mem hi')
    obtain ⟨_, hro⟩ := ho _ (List.getElem_mem hi)
    refine List.ext_getElem (by simpa using h3) ?_
    intro a ha ha'
    have l1 := hr _ (List.getElem_mem ha')
    have l2 := hro _ (List.getElem_mem ha)
    refine List.ext_getElem (by omega) ?_
    intro d hd hd'
    have := h4 a d d (by rw [List.getElem?_range (by omega)]) ha
    simpa [List.getElem?_eq_getElem ha, List.getElem?_eq_getElem ha', List.getElem?_eq_getElem hd, List.getElem?_eq_getElem hd'] using this
  · rintro rfl
    refine ⟨rfl, ?_⟩
    intro i m m' hm hm'
    rw [hm] at hm'
    obtain rfl := Option.some_inj.1 hm'
    refine ⟨by simp, ?_⟩
    intro a j d hj _
    by_cases hjn : j < ndet
    · rw [List.getElem?_range hjn, Option.some_inj] at hj
      subst hj
      rfl
    · simp [hjn] at hj

theorem mapM_eq {α β : Type} (f : α → Option β) : ∀ (l : List α) (r : List β), l.mapM f = some r →
    r.length = l.length ∧ ∀ (i : Nat) a, l[i]? = some a → f a = r[i]? := by
  intro l
  induction l with
  | nil =>
    intro r h
    simp only [List.mapM_nil] at h
    obtain rfl := Option.some_inj.1 h
    simp
  | cons x l ih =>
    intro r h
    rw [List.mapM_cons] at h
    cases hx : f x with
    | none => rw [hx] at h; simp at h
    | some y =>
      cases hl : l.mapM f with
      | none => rw [hx, hl] at h; simp at h
      | some ys =>
        rw [hx, hl] at h
        have : r = y :: ys := by simpa using h.symm
        subst this
        obtain ⟨i1, i2⟩ := ih ys hl
        refine ⟨by simp [i1], ?_⟩
        intro i a hi
        cases i with
        | zero => simp at hi; subst hi; simpa using hx
        | succ i => simpa using i2 i a (by simpa using hi)

/-- C29 holds for the given labels exactly when the number in each label is its position: with any
other label some statistics come back as those of another detector, as zeros, or not at all. -/
theorem save_load_iff [Nontrivial V] (zero : V) (ndet : Nat) (labels : List Str) (hn : 0 < ndet) :
    (∀ stats : List (List (List V)), Shaped 6 ndet stats →
      saveLoad zero 6 ndet labels (List.range ndet) false stats = some stats) ↔
    ∀ i < ndet, toNumber (xiaparselabel (labels.getD i [])).2 = some i := by
  constructor
  · intro H i hi
    obtain ⟨x, hx⟩ := exists_ne zero
    let row : List V := (List.range ndet).map (fun d => if d = i then x else zero)
    let stats : List (List (List V)) := [List.replicate 6 row]
    have hs : Shaped 6 ndet stats := by
      intro m hm
      simp only [stats, List.mem_singleton] at hm
      subst hm
      refine ⟨by simp, ?_⟩
      intro r hr
      obtain rfl := (List.mem_replicate.1 hr).2
      simp [row]
    have h := H stats hs
    unfold saveLoad getStats at h
    rw [save_read ndet stats hs, Option.bind_some] at h
    cases hind : statIndices (saveStats 6 ndet stats).xdet
        ((List.range ndet).map (fun i => (xiaparselabel (labels.getD i [])).2)) with
    | none => rw [hind] at h; simp at h
    | some ind =>
      rw [hind, Option.map_some, Option.some_inj] at h
      simp only [saveStats] at hind
      obtain ⟨hlen, hat⟩ := mapM_eq _ _ _ hind
      have hne : ind ≠ [] := by
        intro he
        subst he
        simp at hlen
        omega
      rw [if_neg hne] at h
      simp only [Bool.false_eq_true, if_false, stats, List.map_cons, List.map_nil, List.map_replicate, List.cons.injEq,
        and_true] at h
      have hrow : select zero ind row = row := by
        have := congrArg (fun l => l.getD 0 []) h
        simpa using this
      have hi' : (select zero ind row)[i]? = some x := by
        rw [hrow]
        simp [row, hi]
      have hat' := hat i _ (by rw [List.getElem?_map, List.getElem?_range hi, Option.map_some])
      rw [select, List.getElem?_map] at hi'
      cases ht : toNumber (xiaparselabel (labels.getD i [])).2 with
      | none =>
        rw [ht] at hat'
        simp only at hat'
        rw [← hat'] at hi'
        simp only [Option.map_some, Option.some_inj] at hi'
        exact absurd hi'.symm hx
      | some n =>
        rw [ht] at hat'
        simp only [indexOf_range] at hat'
        by_cases hnn : n < ndet
        · rw [if_pos hnn, Option.map_some] at hat'
          rw [← hat'] at hi'
          simp only [Option.map_some, Option.some_inj, row, List.getD_eq_getElem?_getD, List.getElem?_map,
            List.getElem?_range hnn, Option.getD_some] at hi'
          by_cases hni : n = i
          · rw [hni]
          · rw [if_neg hni] at hi'
            exact absurd hi'.symm hx
        · rw [if_neg hnn] at hat'
          rw [← hat'] at hi'
          simp at hi'
  · intro hl stats hs
    have hsel : ∀ i ∈ List.range ndet, i < ndet := fun i hi => List.mem_range.1 hi
    have hl' : ∀ i ∈ List.range ndet, toNumber (xiaparselabel (labels.getD i [])).2 = some i := fun i hi => hl i (hsel i hi)
    have hne : List.range ndet ≠ [] := by
      intro he
      have := congrArg List.length he
      simp at this
      omega
    obtain ⟨out, h1, h2⟩ := save_load zero ndet labels (List.range ndet) false stats hs hsel hne hl'
    have ho : Shaped 6 ndet out := by
      unfold saveLoad getStats at h1
      rw [save_read ndet stats hs, Option.bind_some] at h1
      simp only [saveStats, statIndices_of ndet labels _ hsel hl', Option.map_some, Option.some_inj] at h1
      rw [if_neg (by simpa using hne)] at h1
      subst h1
      intro m hm
      obtain ⟨m0, hm0, rfl⟩ := List.mem_map.1 hm
      simp only [Bool.false_eq_true, if_false, List.length_map]
      refine ⟨(hs m0 hm0).1, ?_⟩
      intro r hr
      obtain ⟨r0, _, rfl⟩ := List.mem_map.1 hr
      simp [select]
    rw [h1, (restricted_all ndet stats out hs ho).1 h2]

/-- The data files with default labels are recognised for the first hundred detectors only. -/
theorem default_label_name_iff (extra : List Str) {radix : Str} {m l : Int} (hne : radix ≠ []) (hr : Plain radix)
    (hm : 0 ≤ m) (hl : 0 ≤ l) (i : Nat) : RoundTrips extra radix m l (defaultLabel i) ↔ i < 100 := by
  have hp : Plain (defaultLabel i) := by
    intro c hc
    simp only [defaultLabel, List.mem_append, List.mem_cons, List.not_mem_nil, or_false] at hc
    rcases hc with (rfl | rfl | rfl) | hc
    · decide
    · decide
    · decide
    · have := pad_digit 2 i c hc
      constructor <;> (rintro rfl; exact absurd this (by decide))
  rw [spectra_roundtrip_iff extra hne hr hp hm hl]
  have hlen := pad_length 2 i
  have hiff := Nat.length_toDigits_le_iff (b := 10) (n := i) (k := 2) (by omega) (by omega)
  constructor
  · rintro (⟨a, b, h⟩ | h)
    · have := congrArg List.length h
      simp only [defaultLabel, List.length_append, List.length_cons, List.length_nil] at this
      exact hiff.1 (by omega)
    · have := congrArg List.length h
      simp only [defaultLabel, List.length_append, List.length_cons, List.length_nil] at this
      have := Nat.le_max_left 2 (Nat.toDigits 10 i).length
      omega
  · intro h
    have h2 := hiff.2 h
    have : (pad 2 i).length = 2 := by rw [hlen]; exact Nat.max_eq_left h2
    obtain ⟨a, b, hab⟩ := List.length_eq_two.1 this
    exact Or.inl ⟨a, b, by simp [defaultLabel, hab]⟩

/-! ## C30 -/

open SC.Linop

variable {K : Type} [Field K] [LinearOrder K] [IsStrictOrderedRing K]

/-- A pair of count rates for which there is a correction. -/
def ValidRates (icr ocr : F K) : Prop :=
  ∃ a b : K, icr = .fin a ∧ ocr = .fin b ∧ 1000 ≤ a ∧ b ≠ 0 ∧ 1 ≤ a / b

theorem deadtime_getElem (icr ocr : List (F K)) (i : Nat) (a b : F K) (ha : icr[i]? = some a) (hb : ocr[i]? = some b) :
    (deadtimecorrector icr ocr)[i]? =
      some (if F.lt a (.fin 1000) || F.lt (if isFinite (F.div a b) then F.div a b else .fin 1) (.fin 1) then .fin 1
        else if isFinite (F.div a b) then F.div a b else .fin 1) := by
  simp only [deadtimecorrector, maskSet, List.getElem?_zipWith, List.getElem?_map, ha, hb]
  cases h : isFinite (F.div a b) <;> simp [h]

/-- C30: for valid rates the factor is `icr / ocr`. -/
theorem deadtime_valid (icr ocr : List (F K)) (i : Nat) (a b : K) (ha : icr[i]? = some (.fin a)) (hb : ocr[i]? = some (.fin b))
    (h1000 : 1000 ≤ a) (h0 : b ≠ 0) (h1 : 1 ≤ a / b) :
    (deadtimecorrector icr ocr)[i]? = some (.fin (a / b)) := by
  rw [deadtime_getElem icr ocr i _ _ ha hb]
  simp [F.div, h0, isFinite, F.lt, not_lt.2 h1000, not_lt.2 h1]

/-- C30: otherwise (too few counts, no output counts, NaN, infinite, more output than input) it is 1. -/
theorem deadtime_invalid (icr ocr : List (F K)) (i : Nat) (a b : F K) (ha : icr[i]? = some a) (hb : ocr[i]? = some b)
    (h : ¬ ValidRates a b) : (deadtimecorrector icr ocr)[i]? = some (.fin 1) := by
  rw [deadtime_getElem icr ocr i _ _ ha hb]
  congr 1
  cases a with
  | nan => simp [F.div, isFinite, F.lt]
  | ninf => cases b <;> simp [F.lt]
  | pinf =>
    cases b with
    | fin y => by_cases hy : y < 0 <;> simp [F.div, isFinite, F.lt, hy]
    | _ => simp [F.div, isFinite, F.lt]
  | fin x =>
    cases b with
    | nan => simp [F.div, isFinite]
    | pinf => simp [F.div, isFinite, F.lt]
    | ninf => simp [F.div, isFinite, F.lt]
    | fin y =>
      by_cases hx : x < 1000
      · simp [F.lt, hx]
      · by_cases hy : y = 0
        · have : 0 < x := by linarith [not_lt.1 hx]
          simp [F.div, hy, F.signInf, this, isFinite]
        · by_cases hq : x / y < 1
          · simp [F.div, hy, isFinite, F.lt, hq]
          · exact absurd ⟨x, y, rfl, rfl, not_lt.1 hx, hy, not_lt.1 hq⟩ h

/-- C30: the factor is always a finite number, at least 1, and there is one for every pair of rates. -/
theorem deadtime_finite (icr ocr : List (F K)) (hl : icr.length = ocr.length) :
    (deadtimecorrector icr ocr).length = icr.length ∧ ∀ c ∈ deadtimecorrector icr ocr, ∃ x : K, c = .fin x ∧ 1 ≤ x := by
  have hlen : (deadtimecorrector icr ocr).length = icr.length := by simp [deadtimecorrector, maskSet, hl]
  refine ⟨hlen, ?_⟩
  intro c hc
  obtain ⟨i, hi, rfl⟩ := List.getElem_of_mem hc
  have h1 : i < icr.length := by omega
  have h2 : i < ocr.length := by omega
  by_cases hv : ValidRates icr[i] ocr[i]
  · obtain ⟨a, b, e1, e2, h3, h4, h5⟩ := hv
    have := deadtime_valid icr ocr i a b (by rw [List.getElem?_eq_getElem h1, e1]) (by rw [List.getElem?_eq_getElem h2, e2]) h3 h4 h5
    rw [List.getElem?_eq_getElem hi, Option.some_inj] at this
    exact ⟨a / b, this, h5⟩
  · have h := deadtime_invalid icr ocr i _ _ (List.getElem?_eq_getElem h1) (List.getElem?_eq_getElem h2) hv
    rw [List.getElem?_eq_getElem hi, Option.some_inj] at h
    exact ⟨1, h, le_refl _⟩

/-- C30: the normaliser replaces zeros by one and changes nothing else. -/
theorem normalizer_spec (norm : List (F K)) (i : Nat) (x : F K) (hx : norm[i]? = some x) :
    ∃ y, (normalizer norm)[i]? = some y ∧ y ≠ .fin 0 ∧ (x = .fin 0 → y = .fin 1) ∧ (x ≠ .fin 0 → y = x) := by
  by_cases h : x = .fin 0
  · refine ⟨.fin 1, by simp [normalizer, maskSet, List.getElem?_zipWith, hx, h], by simp, by simp, fun h' => absurd h h'⟩
  · exact ⟨x, by simp [normalizer, maskSet, List.getElem?_zipWith, hx, h], h, fun h' => absurd h' h, fun _ => rfl⟩

omit [IsStrictOrderedRing K] in
theorem normalizer_length (norm : List (F K)) : (normalizer norm).length = norm.length := by simp [normalizer, maskSet]

omit [IsStrictOrderedRing K] in
theorem sum_finite (l : List (F K)) (s : K) (h : ∀ x ∈ l, ∃ a, x = .fin a) : ∃ t, l.foldl F.add (.fin s) = .fin t := by
  induction l generalizing s with
  | nil => exact ⟨s, rfl⟩
  | cons x l ih =>
    obtain ⟨a, rfl⟩ := h x (by simp)
    exact ih (s + a) (fun y hy => h y (by simp [hy]))

/-- C30: finite data corrected for dead time, summed over detectors and normalised are finite, whatever
the count rates, unless the monitor is NaN. -/
theorem corrected_finite (data : List K) (icr ocr : List (F K)) (hl : icr.length = ocr.length) (norm : List (F K)) (i : Nat)
    (m : F K) (hm : (normalizer norm)[i]? = some m) (hnan : norm[i]? ≠ some .nan) :
    ∃ x : K, correct (data.map .fin) (deadtimecorrector icr ocr) m = .fin x := by
  have hc := (deadtime_finite icr ocr hl).2
  have hs : ∀ x ∈ List.zipWith F.mul (data.map F.fin) (deadtimecorrector icr ocr), ∃ a, x = .fin a := by
    intro x hx
    obtain ⟨j, hj, rfl⟩ := List.getElem_of_mem hx
    rw [List.length_zipWith] at hj
    obtain ⟨c, h1, _⟩ := hc _ (List.getElem_mem (by omega : j < (deadtimecorrector icr ocr).length))
    rw [List.getElem_zipWith, h1, List.getElem_map]
    exact ⟨_, rfl⟩
  obtain ⟨t, ht⟩ := sum_finite _ 0 hs
  have hi : i < norm.length := by
    rw [← normalizer_length]
    exact (List.getElem?_eq_some_iff.1 hm).1
  obtain ⟨y, h1, h2, h3, h4⟩ := normalizer_spec norm i norm[i] (List.getElem?_eq_getElem hi)
  rw [hm] at h1
  obtain rfl := Option.some_inj.1 h1
  unfold correct
  rw [ht]
  cases m with
  | nan =>
    exfalso
    by_cases hz : norm[i] = .fin 0
    · exact absurd (h3 hz) (by simp)
    · exact hnan (by rw [List.getElem?_eq_getElem hi, ← h4 hz])
  | pinf => exact ⟨0, rfl⟩
  | ninf => exact ⟨0, rfl⟩
  | fin b =>
    have : b ≠ 0 := fun hb => h2 (by rw [hb])
    exact ⟨t / b, by simp [F.div, this]⟩

end SC.XiaStats
