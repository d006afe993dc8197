import Verif.Qxrf.Spec
import Mathlib.Tactic.FieldSimp
import Mathlib.Tactic.Linarith
import Mathlib.Tactic.Ring
/-! # Property C62, part 3: the data of a calibration -/
namespace SC.Qxrf
open SC.Py

/-! ## Names -/

theorem split_last (c : Char) (x y : Str) (hx : c ∉ x) (hy : c ∉ y) (i j : Str) (h : i ++ c :: x = j ++ c :: y) :
    i = j ∧ x = y := by
  have h1 := congrArg (fun l => (l.reverse.takeWhile (· ≠ c)).reverse) h
  have key : ∀ (i x : Str), c ∉ x → ((i ++ c :: x).reverse.takeWhile (· ≠ c)).reverse = x := by
    intro i x hx
    rw [List.reverse_append, List.reverse_cons, List.append_assoc, List.takeWhile_append_of_pos]
    · simp
    · intro a ha
      simp only [ne_eq, decide_eq_true_eq]
      rintro rfl
      exact hx (List.mem_reverse.1 ha)
  rw [key i x hx, key j y hy] at h1
  subst h1
  exact ⟨List.append_cancel_right h, rfl⟩

theorem name_text (n : Name) : '_' ∉ n.text := by cases n <;> decide

theorem name_text_inj (n m : Name) (h : n.text = m.text) : n = m := by
  cases n <;> cases m <;> first | rfl | exact absurd h (by decide)

/-- Different names have different texts, whatever the prefixes are. -/
theorem text_injective (k l : Key) (h : k.text = l.text) : k = l := by
  have hu : ∀ (i : Str) (n : Name), '_' ∈ (Key.field i n).text := by intro i n; simp [Key.text]
  have ht : '_' ∉ Key.time.text := by decide
  have he : '_' ∉ Key.energy.text := by decide
  cases k with
  | field i n =>
    cases l with
    | field j m =>
      obtain ⟨h1, h2⟩ := split_last '_' _ _ (name_text n) (name_text m) i j h
      rw [h1, name_text_inj _ _ h2]
    | time => exact absurd (h ▸ hu i n) ht
    | energy => exact absurd (h ▸ hu i n) he
  | time =>
    cases l with
    | field j m => exact absurd (h ▸ hu j m) ht
    | time => rfl
    | energy => exact absurd h (by decide)
  | energy =>
    cases l with
    | field j m => exact absurd (h ▸ hu j m) he
    | time => exact absurd h (by decide)
    | energy => rfl

/-! ## Parts of the validation -/

/-- The quantity in base units. -/
def norm (k : Key) (q : Qty) : Qty := ⟨q.base, unit1 k.dim⟩

theorem norm_base (k : Key) (q : Qty) : (norm k q).base = q.base := by simp [norm, Qty.base, unit1]

theorem to_unit1 (q : Qty) (k : Key) : q.to (unit1 k.dim) =
    if q.unit.dim = k.dim then .ok (norm k q) else .error .dimensionality := by
  simp [Qty.to, unit1, norm, Qty.base]

theorem convert_err (k : Key) (d : Dict Key Qty) :
    (∃ d', convert k d = .ok d') ↔ ∀ q, Dict.get? d k = some q → q.unit.dim = k.dim := by
  unfold convert
  cases h : Dict.get? d k with
  | none => simp
  | some q =>
    simp only [to_unit1, Option.some.injEq, forall_eq']
    by_cases hd : q.unit.dim = k.dim <;> simp [hd]

theorem convert_get (k : Key) (d d' : Dict Key Qty) (h : convert k d = .ok d') (x : Key) :
    Dict.get? d' x = if x = k then (Dict.get? d k).map (norm k) else Dict.get? d x := by
  unfold convert at h
  cases hk : Dict.get? d k with
  | none =>
    rw [hk] at h
    cases h
    split
    · next hx => rw [hx, hk]; rfl
    · rfl
  | some q =>
    rw [hk] at h
    simp only [to_unit1] at h
    split at h
    · next q' hq =>
      split at hq
      · cases hq
        cases h
        rw [Dict.get?_set]
        simp only [eq_comm, Option.map_some]
      · cases hq
    · cases h

theorem fill_get (units : Key → PUnit) (data static : Dict Key Raw) (l : List Key) (d : Dict Key Qty) (k : Key) :
    Dict.get? (l.foldl (fill units data static) d) k =
      if k ∈ l then (match source? units data static k with | some q => some q | none => Dict.get? d k) else Dict.get? d k := by
  have h1 : ∀ (d : Dict Key Qty) (a : Key), Dict.get? (fill units data static d a) k =
      if k = a then (match source? units data static k with | some q => some q | none => Dict.get? d k) else Dict.get? d k := by
    intro d a
    unfold fill source?
    by_cases hk : k = a
    · subst hk
      cases Dict.get? data k with
      | some x => simp [Dict.get?_set]
      | none =>
        cases Dict.get? static k with
        | some x => simp [Dict.get?_set]
        | none => simp
    · rw [if_neg hk]
      have hk' : ¬ a = k := fun e => hk e.symm
      cases Dict.get? data a with
      | some x => simp [Dict.get?_set, hk, hk']
      | none =>
        cases Dict.get? static a with
        | some x => simp [Dict.get?_set, hk, hk']
        | none => simp
  induction l generalizing d with
  | nil => simp
  | cons a l ih =>
    rw [List.foldl_cons, ih, h1]
    by_cases hk : k = a
    · subst hk
      simp only [if_true, List.mem_cons_self]
      cases source? units data static k <;> simp
    · simp [hk]

/-- The rate after the step about numbers and rates. -/
def rateQ (knum krate : Key) (rate number time : Option Qty) : Option Qty :=
  match rate with
  | some r => some (norm krate r)
  | none => match number, time with
    | some n, some t => some ⟨(norm knum n).val / t.val, unit1 .hertz⟩
    | _, _ => none

theorem addRate_get (knum krate : Key) (d : Dict Key Qty) (x : Key) :
    Dict.get? (addRate knum krate d) x =
      if x = krate then (match Dict.get? d krate with
        | some r => some r
        | none => match Dict.get? d knum, Dict.get? d .time with
          | some n, some t => some ⟨n.val / t.val, unit1 .hertz⟩
          | _, _ => none)
      else Dict.get? d x := by
  unfold addRate
  by_cases hx : x = krate
  · subst hx
    rw [if_pos rfl]
    cases h1 : Dict.get? d x with
    | some r => simp only; exact h1
    | none =>
      cases h2 : Dict.get? d knum with
      | none => simp only; exact h1
      | some n =>
        cases h3 : Dict.get? d .time with
        | none => simp only; exact h1
        | some t => simp [Dict.get?_set]
  · have hx' : ¬ krate = x := fun e => hx e.symm
    rw [if_neg hx]
    cases h1 : Dict.get? d krate with
    | some r => rfl
    | none =>
      cases h2 : Dict.get? d knum with
      | none => rfl
      | some n =>
        cases h3 : Dict.get? d .time with
        | none => rfl
        | some t => simp [Dict.get?_set, hx']

theorem rateStep_ok (knum krate : Key) (hk : knum ≠ krate) (hr : krate.dim = .hertz)
    (d : Dict Key Qty) : (∃ d', rateStep knum krate d = .ok d') ↔
      (∀ q, Dict.get? d knum = some q → q.unit.dim = knum.dim) ∧ ∀ q, Dict.get? d krate = some q → q.unit.dim = krate.dim := by
  unfold rateStep
  cases hc : convert knum d with
  | error e =>
    simp only [reduceCtorEq, exists_false, false_iff, not_and]
    intro h
    obtain ⟨d', hd⟩ := (convert_err knum d).2 h
    rw [hd] at hc
    cases hc
  | ok d1 =>
    have h1 := (convert_err knum d).1 ⟨d1, hc⟩
    have hg := convert_get knum d d1 hc
    simp only [convert_err]
    have e1 : Dict.get? d1 krate = Dict.get? d krate := by rw [hg, if_neg (Ne.symm hk)]
    rw [addRate_get, if_pos rfl, e1]
    constructor
    · intro h
      refine ⟨h1, fun q hq => h q ?_⟩
      rw [hq]
    · rintro ⟨_, h2⟩ q hq
      cases hkr : Dict.get? d krate with
      | some r => rw [hkr] at hq; cases hq; exact h2 _ hkr
      | none =>
        rw [hkr] at hq
        cases hkn : Dict.get? d1 knum with
        | none => rw [hkn] at hq; cases hq
        | some n =>
          cases hkt : Dict.get? d1 .time with
          | none => rw [hkn, hkt] at hq; cases hq
          | some t => rw [hkn, hkt] at hq; cases hq; rw [hr]; rfl

theorem rateStep_get (knum krate : Key) (hk : knum ≠ krate) (hr : krate.dim = .hertz) (htn : knum ≠ .time)
    (d d' : Dict Key Qty) (h : rateStep knum krate d = .ok d') (x : Key) :
    Dict.get? d' x =
      if x = knum then (Dict.get? d knum).map (norm knum)
      else if x = krate then rateQ knum krate (Dict.get? d krate) (Dict.get? d knum) (Dict.get? d .time)
      else Dict.get? d x := by
  unfold rateStep at h
  cases hc : convert knum d with
  | error e => rw [hc] at h; cases h
  | ok d1 =>
    rw [hc] at h
    simp only at h
    have hg := convert_get knum d d1 hc
    have hcv := convert_get krate _ d' h
    have e1 : Dict.get? d1 krate = Dict.get? d krate := by rw [hg, if_neg (Ne.symm hk)]
    have e2 : Dict.get? d1 knum = (Dict.get? d knum).map (norm knum) := by rw [hg, if_pos rfl]
    have e3 : Dict.get? d1 .time = Dict.get? d .time := by rw [hg, if_neg (Ne.symm htn)]
    rw [hcv, addRate_get, addRate_get, if_pos rfl, e1, e2, e3]
    by_cases hx : x = krate
    · subst hx
      rw [if_pos rfl, if_neg (Ne.symm hk), if_pos rfl]
      unfold rateQ
      cases Dict.get? d x with
      | some r => rfl
      | none =>
        cases Dict.get? d knum with
        | none => rfl
        | some n =>
          cases Dict.get? d .time with
          | none => rfl
          | some t => simp [norm, Qty.base, unit1, hr]
    · rw [if_neg hx, if_neg hx, hg]
      simp [hx]

theorem diodeStep_ok (id : Str) (d : Dict Key Qty) : (∃ d', diodeStep id d = .ok d') ↔
    ∀ n q, Dict.get? d (.field id n) = some q → q.unit.dim = (Key.field id n).dim := by
  have a1 := rateStep_ok (.field id .counts) (.field id .cps) (by simp) rfl d
  unfold diodeStep
  cases h1 : rateStep (.field id .counts) (.field id .cps) d with
  | error e =>
    simp only [reduceCtorEq, exists_false, false_iff]
    intro h
    obtain ⟨d', hd⟩ := a1.2 ⟨h .counts, h .cps⟩
    rw [hd] at h1
    cases h1
  | ok d1 =>
    have b1 := a1.1 ⟨d1, h1⟩
    have g1 := rateStep_get _ _ (by simp) rfl (by simp) d d1 h1
    have a2 := rateStep_ok (.field id .photons) (.field id .flux) (by simp) rfl d1
    rw [g1, g1] at a2
    simp only [Key.field.injEq, reduceCtorEq, and_false, if_false] at a2
    simp only
    cases h2 : rateStep (.field id .photons) (.field id .flux) d1 with
    | error e =>
      simp only [reduceCtorEq, exists_false, false_iff]
      intro h
      obtain ⟨d', hd⟩ := a2.2 ⟨h .photons, h .flux⟩
      rw [hd] at h2
      cases h2
    | ok d2 =>
      have b2 := a2.1 ⟨d2, h2⟩
      have g2 := rateStep_get _ _ (by simp) rfl (by simp) d1 d2 h2
      simp only [convert_err]
      have g4 : Dict.get? d2 (.field id .current) = Dict.get? d (.field id .current) := by
        rw [g2, if_neg (by simp), if_neg (by simp), g1, if_neg (by simp), if_neg (by simp)]
      rw [g4]
      constructor
      · intro h n
        cases n with
        | counts => exact b1.1
        | cps => exact b1.2
        | photons => exact b2.1
        | flux => exact b2.2
        | current => exact h
      · intro h; exact h .current

/-- The data of one diode after its step. -/
theorem diodeStep_get (id : Str) (d d' : Dict Key Qty) (h : diodeStep id d = .ok d') (x : Key) :
    Dict.get? d' x = match x with
      | .field i n => if i = id then (match n with
          | .counts => (Dict.get? d (.field id .counts)).map (norm (.field id .counts))
          | .cps => rateQ (.field id .counts) (.field id .cps) (Dict.get? d (.field id .cps)) (Dict.get? d (.field id .counts)) (Dict.get? d .time)
          | .current => (Dict.get? d (.field id .current)).map (norm (.field id .current))
          | .photons => (Dict.get? d (.field id .photons)).map (norm (.field id .photons))
          | .flux => rateQ (.field id .photons) (.field id .flux) (Dict.get? d (.field id .flux)) (Dict.get? d (.field id .photons)) (Dict.get? d .time))
        else Dict.get? d x
      | _ => Dict.get? d x := by
  unfold diodeStep at h
  cases h1 : rateStep (.field id .counts) (.field id .cps) d with
  | error e => rw [h1] at h; cases h
  | ok d1 =>
    rw [h1] at h
    simp only at h
    have g1 := rateStep_get _ _ (by simp) rfl (by simp) d d1 h1
    cases h2 : rateStep (.field id .photons) (.field id .flux) d1 with
    | error e => rw [h2] at h; cases h
    | ok d2 =>
      rw [h2] at h
      simp only at h
      have g2 := rateStep_get _ _ (by simp) rfl (by simp) d1 d2 h2
      have g3 := convert_get _ d2 d' h
      rw [g3, g2, g2, g1, g1, g1, g1, g1]
      cases x with
      | time => simp
      | energy => simp
      | field i n =>
        by_cases hi : i = id
        · subst hi
          cases n <;> simp
        · simp [hi]

/-! ## The validation -/

/-- The time that is used. -/
def timeOf (units : Key → PUnit) (dflt : Qty) (data static : Dict Key Raw) : Qty :=
  (source? units data static .time).getD dflt

theorem mem_fields (fid tid : Str) (k : Key) : k ∈ fields fid tid ↔
    k = .time ∨ k = .energy ∨ ∃ n, k = .field fid n ∨ k = .field tid n := by
  constructor
  · intro h
    simp only [fields, List.mem_cons, List.not_mem_nil, or_false] at h
    rcases h with h | h | h | h | h | h | h | h | h | h | h | h
    all_goals first
      | exact Or.inl h
      | exact Or.inr (Or.inl h)
      | exact Or.inr (Or.inr ⟨_, Or.inl h⟩)
      | exact Or.inr (Or.inr ⟨_, Or.inr h⟩)
  · rintro (rfl | rfl | ⟨n, rfl | rfl⟩)
    · simp [fields]
    · simp [fields]
    all_goals cases n <;> simp [fields]

section
variable (units : Key → PUnit) (dflt : Qty) (fid tid : Str) (data static : Dict Key Raw)

/-- The data once the time is known. -/
theorem start_get (k : Key) :
    Dict.get? (withTime dflt ((fields fid tid).foldl (fill units data static) [])) k =
      if k = .time then some (timeOf units dflt data static)
      else if k ∈ fields fid tid then source? units data static k else none := by
  have hf := fill_get units data static (fields fid tid) []
  have hn : ∀ k, Dict.get? ((fields fid tid).foldl (fill units data static) []) k =
      if k ∈ fields fid tid then source? units data static k else none := by
    intro k
    rw [hf]
    split
    · cases source? units data static k <;> rfl
    · rfl
  have ht : Key.time ∈ fields fid tid := by simp [fields]
  unfold withTime
  cases hs : Dict.get? ((fields fid tid).foldl (fill units data static) []) .time with
  | none =>
    simp only
    rw [Dict.get?_set]
    rw [hn, if_pos ht] at hs
    by_cases hk : k = .time
    · subst hk; simp [timeOf, hs]
    · have hk' : ¬ Key.time = k := fun e => hk e.symm
      rw [if_neg hk', if_neg hk, hn]
  | some q =>
    simp only
    rw [hn] at hs ⊢
    rw [if_pos ht] at hs
    by_cases hk : k = .time
    · subst hk; rw [if_pos rfl, if_pos ht, hs]; simp [timeOf, hs]
    · rw [if_neg hk]

/-- Data are accepted exactly when every quantity, and the default time when it is needed, has the right dimension. -/
theorem validate_ok (hne : fid ≠ tid) : (∃ r, validate units dflt fid tid data static = .ok r) ↔
    (timeOf units dflt data static).unit.dim = .second ∧
    ∀ k ∈ fields fid tid, ∀ q, source? units data static k = some q → q.unit.dim = k.dim := by
  have hst := start_get units dflt fid tid data static
  unfold validate
  generalize (withTime dflt ((fields fid tid).foldl (fill units data static) [])) = d0 at hst ⊢
  have e0 := convert_err .time d0
  rw [hst, if_pos rfl] at e0
  simp only [Option.some.injEq, forall_eq'] at e0
  have htime : ∀ q, source? units data static .time = some q → q = timeOf units dflt data static := by
    intro q hq; simp [timeOf, hq]
  cases h1 : convert .time d0 with
  | error e =>
    simp only [reduceCtorEq, exists_false, false_iff]
    rintro ⟨ht, _⟩
    obtain ⟨d', hd⟩ := e0.2 ht
    rw [hd] at h1
    cases h1
  | ok d1 =>
    have ht := e0.1 ⟨d1, h1⟩
    have g1 := convert_get _ _ _ h1
    have e1 := convert_err .energy d1
    rw [g1, if_neg (by simp), hst, if_neg (by simp), if_pos (by simp [fields])] at e1
    simp only
    cases h2 : convert .energy d1 with
    | error e =>
      simp only [reduceCtorEq, exists_false, false_iff]
      rintro ⟨_, h⟩
      obtain ⟨d', hd⟩ := e1.2 (h .energy (by simp [fields]))
      rw [hd] at h2
      cases h2
    | ok d2 =>
      have he := e1.1 ⟨d2, h2⟩
      have g2 := convert_get _ _ _ h2
      have hfield : ∀ i n, (i = fid ∨ i = tid) → Dict.get? d2 (.field i n) = source? units data static (.field i n) := by
        intro i n hi
        have hm : Key.field i n ∈ fields fid tid := by
          rw [mem_fields]
          rcases hi with rfl | rfl
          · exact Or.inr (Or.inr ⟨n, Or.inl rfl⟩)
          · exact Or.inr (Or.inr ⟨n, Or.inr rfl⟩)
        rw [g2, if_neg (by simp), g1, if_neg (by simp), hst, if_neg (by simp), if_pos hm]
      have e2 := diodeStep_ok fid d2
      simp only
      cases h3 : diodeStep fid d2 with
      | error e =>
        simp only [reduceCtorEq, exists_false, false_iff]
        rintro ⟨_, h⟩
        obtain ⟨d', hd⟩ := e2.2 (fun n q hq => h (.field fid n) ((mem_fields ..).2 (Or.inr (Or.inr ⟨n, Or.inl rfl⟩))) q
          (by rw [← hfield fid n (Or.inl rfl)]; exact hq))
        rw [hd] at h3
        cases h3
      | ok d3 =>
        have h0 := e2.1 ⟨d3, h3⟩
        have g3 := diodeStep_get fid d2 d3 h3
        simp only
        rw [diodeStep_ok]
        have ht3 : ∀ n, Dict.get? d3 (.field tid n) = source? units data static (.field tid n) := by
          intro n
          rw [g3]
          simp only [Ne.symm hne, if_false]
          exact hfield tid n (Or.inr rfl)
        constructor
        · intro h
          refine ⟨ht, fun k hk q hq => ?_⟩
          rcases (mem_fields ..).1 hk with rfl | rfl | ⟨n, rfl | rfl⟩
          · rw [htime q hq]; exact ht
          · exact he q hq
          · exact h0 n q (by rw [hfield fid n (Or.inl rfl)]; exact hq)
          · exact h n q (by rw [ht3]; exact hq)
        · rintro ⟨_, h⟩ n q hq
          rw [ht3] at hq
          exact h (.field tid n) ((mem_fields ..).2 (Or.inr (Or.inr ⟨n, Or.inr rfl⟩))) q hq

/-- What is known afterwards of every name. -/
theorem validate_get (hne : fid ≠ tid) (r : Dict Key Qty) (h : validate units dflt fid tid data static = .ok r) (k : Key) :
    Dict.get? r k = match k with
      | .time => some (norm .time (timeOf units dflt data static))
      | .energy => (source? units data static .energy).map (norm .energy)
      | .field i n => if i = fid ∨ i = tid then (match n with
          | .cps => rateQ (.field i .counts) (.field i .cps) (source? units data static (.field i .cps))
              (source? units data static (.field i .counts)) (some (norm .time (timeOf units dflt data static)))
          | .flux => rateQ (.field i .photons) (.field i .flux) (source? units data static (.field i .flux))
              (source? units data static (.field i .photons)) (some (norm .time (timeOf units dflt data static)))
          | n => (source? units data static (.field i n)).map (norm (.field i n)))
        else none := by
  have hst := start_get units dflt fid tid data static
  unfold validate at h
  generalize (withTime dflt ((fields fid tid).foldl (fill units data static) [])) = d0 at hst h
  cases h1 : convert .time d0 with
  | error e => rw [h1] at h; cases h
  | ok d1 =>
    rw [h1] at h
    simp only at h
    have g1 := convert_get _ _ _ h1
    cases h2 : convert .energy d1 with
    | error e => rw [h2] at h; cases h
    | ok d2 =>
      rw [h2] at h
      simp only at h
      have g2 := convert_get _ _ _ h2
      have hmem : ∀ i n, (i = fid ∨ i = tid) ↔ Key.field i n ∈ fields fid tid := by
        intro i n
        rw [mem_fields]
        constructor
        · rintro (rfl | rfl)
          · exact Or.inr (Or.inr ⟨n, Or.inl rfl⟩)
          · exact Or.inr (Or.inr ⟨n, Or.inr rfl⟩)
        · rintro (h | h | ⟨m, h | h⟩)
          · cases h
          · cases h
          · cases h; exact Or.inl rfl
          · cases h; exact Or.inr rfl
      have hfield : ∀ i n, Dict.get? d2 (.field i n) = if i = fid ∨ i = tid then source? units data static (.field i n) else none := by
        intro i n
        rw [g2, if_neg (by simp), g1, if_neg (by simp), hst, if_neg (by simp)]
        by_cases hi : i = fid ∨ i = tid
        · rw [if_pos hi, if_pos ((hmem i n).1 hi)]
        · rw [if_neg hi, if_neg (fun hc => hi ((hmem i n).2 hc))]
      have htime2 : Dict.get? d2 .time = some (norm .time (timeOf units dflt data static)) := by
        rw [g2, if_neg (by simp), g1, if_pos rfl, hst, if_pos rfl]; rfl
      have hen2 : Dict.get? d2 .energy = (source? units data static .energy).map (norm .energy) := by
        rw [g2, if_pos rfl, g1, if_neg (by simp), hst, if_neg (by simp), if_pos (by simp [fields])]
      cases h3 : diodeStep fid d2 with
      | error e => rw [h3] at h; cases h
      | ok d3 =>
        rw [h3] at h
        simp only at h
        have g3 := diodeStep_get fid d2 d3 h3
        have g4 := diodeStep_get tid d3 r h
        rw [g4]
        cases k with
        | time => simp only; rw [g3]; exact htime2
        | energy => simp only; rw [g3]; exact hen2
        | field i n =>
          simp only
          have hne' : ¬ tid = fid := Ne.symm hne
          by_cases hi : i = tid
          · subst hi
            simp only [if_true, or_true]
            simp only [g3, hne', if_false, htime2, hfield, or_true, if_true]
            cases n <;> rfl
          · simp only [hi, if_false, or_false]
            rw [g3]
            simp only
            by_cases hi2 : i = fid
            · subst hi2
              simp only [if_true]
              simp only [htime2, hfield, true_or, if_true]
              cases n <;> rfl
            · simp only [hi2, if_false]
              rw [hfield]
              simp [hi, hi2]

/-- Accepted data are in base units. -/
theorem validate_units (hne : fid ≠ tid) (r : Dict Key Qty) (h : validate units dflt fid tid data static = .ok r) (k : Key)
    (q : Qty) (hq : Dict.get? r k = some q) : q.unit = unit1 k.dim := by
  rw [validate_get units dflt fid tid data static hne r h] at hq
  have hm : ∀ (o : Option Qty) (k : Key) (q : Qty), o.map (norm k) = some q → q.unit = unit1 k.dim := by
    intro o k q ho
    cases o with
    | none => cases ho
    | some x => cases ho; rfl
  have hr : ∀ (kn kr : Key) (a b c : Option Qty) (q : Qty), kr.dim = .hertz → rateQ kn kr a b c = some q → q.unit = unit1 kr.dim := by
    intro kn kr a b c q hd ho
    unfold rateQ at ho
    cases a with
    | some x => cases ho; rfl
    | none =>
      cases b with
      | none => cases ho
      | some b =>
        cases c with
        | none => cases ho
        | some c => cases ho; rw [hd]
  cases k with
  | time => cases hq; rfl
  | energy => exact hm _ _ _ hq
  | field i n =>
    simp only at hq
    split at hq
    · cases n with
      | cps => exact hr _ _ _ _ _ _ rfl hq
      | flux => exact hr _ _ _ _ _ _ rfl hq
      | counts => exact hm _ _ _ hq
      | current => exact hm _ _ _ hq
      | photons => exact hm _ _ _ hq
    · cases hq

/-- The rates of a diode: as given, else counts per time; the flux: as given, else photons per time; the rest is as
given, in base units. -/
theorem validate_values (hne : fid ≠ tid) (r : Dict Key Qty) (h : validate units dflt fid tid data static = .ok r) (i : Str)
    (hi : i = fid ∨ i = tid) :
    (Dict.get? r (.field i .cps)).map Qty.base = rateOf (source? units data static (.field i .cps))
      (source? units data static (.field i .counts)) (timeOf units dflt data static) ∧
    (Dict.get? r (.field i .flux)).map Qty.base = rateOf (source? units data static (.field i .flux))
      (source? units data static (.field i .photons)) (timeOf units dflt data static) ∧
    (Dict.get? r (.field i .counts)).map Qty.base = (source? units data static (.field i .counts)).map Qty.base ∧
    (Dict.get? r (.field i .photons)).map Qty.base = (source? units data static (.field i .photons)).map Qty.base ∧
    (Dict.get? r (.field i .current)).map Qty.base = (source? units data static (.field i .current)).map Qty.base ∧
    (Dict.get? r .energy).map Qty.base = (source? units data static .energy).map Qty.base ∧
    (Dict.get? r .time).map Qty.base = some (timeOf units dflt data static).base := by
  have hm : ∀ (o : Option Qty) (k : Key), (o.map (norm k)).map Qty.base = o.map Qty.base := by
    intro o k
    cases o with
    | none => rfl
    | some q => simp [norm_base]
  have hr : ∀ (kn kr : Key) (a b : Option Qty) (t : Qty),
      (rateQ kn kr a b (some (norm .time t))).map Qty.base = rateOf a b t := by
    intro kn kr a b t
    unfold rateQ rateOf
    cases a with
    | some q => simp [norm_base]
    | none =>
      cases b with
      | none => rfl
      | some n => simp [Qty.base, norm, unit1]
  have hg := validate_get units dflt fid tid data static hne r h
  refine ⟨?_, ?_, ?_, ?_, ?_, ?_, ?_⟩
  all_goals rw [hg]
  all_goals simp only [hi, if_true]
  · exact hr _ _ _ _ _
  · exact hr _ _ _ _ _
  · exact hm _ _
  · exact hm _ _
  · exact hm _ _
  · exact hm _ _
  · simp [norm_base]

end

theorem get?_map_qty (r : Dict Key Qty) (k : Key) :
    Dict.get? (r.map fun p => (p.1, Raw.qty p.2)) k = (Dict.get? r k).map Raw.qty := by
  induction r with
  | nil => rfl
  | cons p r ih =>
    obtain ⟨a, q⟩ := p
    simp only [List.map_cons, Dict.get?]
    split
    · rfl
    · exact ih

/-- Validated data are valid and stay as they are. -/
theorem validate_twice (units : Key → PUnit) (dflt dflt2 : Qty) (fid tid : Str) (data static : Dict Key Raw) (hne : fid ≠ tid)
    (r : Dict Key Qty) (h : validate units dflt fid tid data static = .ok r) :
    ∃ r', validate units dflt2 fid tid (r.map fun p => (p.1, .qty p.2)) [] = .ok r' ∧ ∀ k, Dict.get? r' k = Dict.get? r k := by
  have hu := validate_units units dflt fid tid data static hne r h
  have hs : ∀ k, source? units (r.map fun p => (p.1, Raw.qty p.2)) [] k = Dict.get? r k := by
    intro k
    unfold source?
    rw [get?_map_qty]
    cases Dict.get? r k <;> rfl
  have hn : ∀ k q, Dict.get? r k = some q → norm k q = q := by
    intro k q hq
    have := hu k q hq
    obtain ⟨v, u⟩ := q
    simp only at this
    subst this
    simp [norm, Qty.base, unit1]
  have hmap : ∀ k, (Dict.get? r k).map (norm k) = Dict.get? r k := by
    intro k
    cases hk : Dict.get? r k with
    | none => rfl
    | some q => rw [Option.map_some, hn k q hk]
  have hg := validate_get units dflt fid tid data static hne r h
  have ht : timeOf units dflt2 (r.map fun p => (p.1, Raw.qty p.2)) [] = norm .time (timeOf units dflt data static) := by
    unfold timeOf
    rw [hs, hg .time]
    rfl
  have hok : ∃ r', validate units dflt2 fid tid (r.map fun p => (p.1, Raw.qty p.2)) [] = .ok r' := by
    rw [validate_ok _ _ _ _ _ _ hne, ht]
    refine ⟨rfl, fun k _ q hq => ?_⟩
    rw [hs] at hq
    rw [hu k q hq]
    rfl
  obtain ⟨r', hr'⟩ := hok
  refine ⟨r', hr', fun k => ?_⟩
  rw [validate_get _ _ _ _ _ _ hne r' hr']
  simp only [hs, ht]
  have hrate : ∀ kn kr, kn ≠ kr → (Dict.get? r kr = none → Dict.get? r kn = none) →
      rateQ kn kr (Dict.get? r kr) (Dict.get? r kn) (some (norm .time (norm .time (timeOf units dflt data static)))) = Dict.get? r kr := by
    intro kn kr _ himp
    unfold rateQ
    cases hkr : Dict.get? r kr with
    | some q => simp only; rw [hn kr q hkr]
    | none => rw [himp hkr]
  cases k with
  | time =>
    simp only
    rw [hg .time]
    simp only [Option.some.injEq]
    exact hn .time _ (hg .time)
  | energy => exact hmap .energy
  | field i n =>
    simp only
    by_cases hi : i = fid ∨ i = tid
    · rw [if_pos hi]
      have hv := validate_values units dflt fid tid data static hne r h i hi
      cases n with
      | counts => exact hmap _
      | photons => exact hmap _
      | current => exact hmap _
      | cps =>
        apply hrate _ _ (by simp)
        intro h1
        have h2 := hv.1
        have h3 := hv.2.2.1
        rw [h1] at h2
        unfold rateOf at h2
        cases ha : source? units data static (.field i .cps) with
        | some q => rw [ha] at h2; cases h2
        | none =>
          rw [ha] at h2
          cases hb : source? units data static (.field i .counts) with
          | some q => rw [hb] at h2; cases h2
          | none => rw [hb] at h3; exact Option.map_eq_none_iff.1 h3
      | flux =>
        apply hrate _ _ (by simp)
        intro h1
        have h2 := hv.2.1
        have h3 := hv.2.2.2.1
        rw [h1] at h2
        unfold rateOf at h2
        cases ha : source? units data static (.field i .flux) with
        | some q => rw [ha] at h2; cases h2
        | none =>
          rw [ha] at h2
          cases hb : source? units data static (.field i .photons) with
          | some q => rw [hb] at h2; cases h2
          | none => rw [hb] at h3; exact Option.map_eq_none_iff.1 h3
    · rw [if_neg hi, hg]
      simp [hi]

/-- At ID21 (configuration.py:264-265) currents without unit are in hertz: data with a current are refused. -/
theorem id21_current (units : Key → PUnit) (dflt : Qty) (fid tid : Str) (data static : Dict Key Raw) (hne : fid ≠ tid)
    (hu : (units (.field fid .current)).dim = .hertz) (x : ℚ) (hd : Dict.get? data (.field fid .current) = some (.num x)) :
    ¬ ∃ r, validate units dflt fid tid data static = .ok r := by
  rw [validate_ok units dflt fid tid data static hne]
  rintro ⟨_, h⟩
  have := h (.field fid .current) ((mem_fields ..).2 (Or.inr (Or.inr ⟨_, Or.inl rfl⟩))) _ (by unfold source?; rw [hd])
  simp only [Raw.quantity, hu] at this
  cases this

/-- Units as at ID21 for examples: counts, rates, seconds and keV; current in hertz. -/
def exampleUnits : Key → PUnit
  | .field _ .counts => ⟨.dimless, 1⟩
  | .field _ .photons => ⟨.dimless, 1⟩
  | .time => ⟨.second, 1⟩
  | .energy => ⟨.energy, 1⟩
  | _ => ⟨.hertz, 1⟩

/-- Counts of two diodes in 2 s, given as 2000 ms, and the energy from a motor. -/
def exampleData : Dict Key Raw :=
  [(.field ['0'] .counts, .num 10), (.field ['t'] .counts, .num 6), (.time, .qty ⟨2000, ⟨.second, 1/1000⟩⟩)]

/-- Hypotheses can be met: rates are counts per time. -/
example : ∃ r, validate exampleUnits ⟨1, ⟨.second, 1⟩⟩ ['0'] ['t'] exampleData [(.energy, .num 7)] = .ok r ∧
    (Dict.get? r (.field ['0'] .cps)).map Qty.base = some 5 ∧ (Dict.get? r (.field ['t'] .cps)).map Qty.base = some 3 ∧
    (Dict.get? r .energy).map Qty.base = some 7 := by
  refine ⟨_, rfl, ?_, ?_, ?_⟩ <;> decide +kernel

/-! ## The calibration -/

section
variable (close : ℚ → ℚ → Bool) (f0 ft : Qty → Qty → Qty → ℚ) (p : Params) (fid tid : Str) (d : Dict Key Qty)

/-- The gain according to the data: from the rate and the current, or the flux when there is no current; not from data
without beam. -/
theorem dataGain_spec (f : Qty → Qty → Qty → ℚ) (dark : Bool) (id : Str) (g : ℚ) :
    dataGain f dark id d = some g ↔ dark = false ∧ ∃ e c, Dict.get? d .energy = some e ∧
      Dict.get? d (.field id .cps) = some c ∧
      ((∃ j, Dict.get? d (.field id .current) = some j ∧ g = f c j e) ∨
       (Dict.get? d (.field id .current) = none ∧ ∃ j, Dict.get? d (.field id .flux) = some j ∧ g = f c j e)) := by
  unfold dataGain
  cases dark with
  | true => cases Dict.get? d .energy <;> simp
  | false =>
    cases Dict.get? d .energy with
    | none => simp
    | some e =>
      cases Dict.get? d (.field id .cps) with
      | none => simp
      | some c =>
        cases Dict.get? d (.field id .current) with
        | some j => simp [eq_comm]
        | none => cases Dict.get? d (.field id .flux) <;> simp [eq_comm]

/-- Without telling whether there is beam nothing can be calibrated, although there is a default. -/
theorem dark_needed (h : p.dark = none) : calibrateDiodes close f0 ft p fid tid d = .error .keyError := by
  unfold calibrateDiodes
  rw [h]

/-- The gains after a calibration are the ones asked for or those of the data. -/
theorem calibrate_gains (g0 gt : ℚ) (l : List Act) (h : calibrateDiodes close f0 ft p fid tid d = .ok (g0, gt, l)) :
    ∃ dark, p.dark = some dark ∧ chooseGain close p.gainI0 (dataGain f0 dark fid d) = .ok g0 ∧
      chooseGain close p.gainIt (dataGain ft dark tid d) = .ok gt := by
  unfold calibrateDiodes at h
  cases hd : p.dark with
  | none => rw [hd] at h; cases h
  | some dark =>
    rw [hd] at h
    simp only at h
    cases h0 : chooseGain close p.gainI0 (dataGain f0 dark fid d) with
    | error e => rw [h0] at h; cases h
    | ok x =>
      rw [h0] at h
      simp only at h
      cases h1 : chooseGain close p.gainIt (dataGain ft dark tid d) with
      | error e => rw [h1] at h; cases h
      | ok y =>
        rw [h1] at h
        simp only at h
        refine ⟨dark, rfl, ?_⟩
        split at h
        · cases h; exact ⟨h0, h1⟩
        · split at h
          · cases h; exact ⟨h0, h1⟩
          · split at h
            · cases h; exact ⟨h0, h1⟩
            · cases h

/-- Data without beam: the dark current of each diode from its rate, unless calibrating is switched off or the dark
current fixed. -/
theorem calibrate_dark (g0 gt : ℚ) (l : List Act) (h : calibrateDiodes close f0 ft p fid tid d = .ok (g0, gt, l))
    (hd : p.dark = some true) (hosc : p.oscillator.getD false = false) (a : Act) :
    a ∈ l ↔ p.calibrate.getD true = true ∧ p.fixdark.getD false = false ∧
      ((∃ c, Dict.get? d (.field fid .cps) = some c ∧ a = .dark true c) ∨
       (∃ c, Dict.get? d (.field tid .cps) = some c ∧ a = .dark false c)) := by
  have hl : l = calibrateDark p fid tid d := by
    unfold calibrateDiodes at h
    rw [hd] at h
    simp only [hosc] at h
    cases h0 : chooseGain close p.gainI0 (dataGain f0 true fid d) with
    | error e => rw [h0] at h; cases h
    | ok x =>
      rw [h0] at h
      simp only at h
      cases h1 : chooseGain close p.gainIt (dataGain ft true tid d) with
      | error e => rw [h1] at h; cases h
      | ok y => rw [h1] at h; cases h; rfl
  rw [hl]
  unfold calibrateDark
  cases p.calibrate.getD true <;> cases p.fixdark.getD false <;>
    cases Dict.get? d (.field fid .cps) <;> cases Dict.get? d (.field tid .cps) <;> simp

/-- Data with beam: the first diode is calibrated with the second, from currents when both are known, else from rates
when both are known, else nothing is done and nothing is raised. -/
theorem calibrate_beam (g0 gt : ℚ) (l : List Act) (h : calibrateDiodes close f0 ft p fid tid d = .ok (g0, gt, l))
    (hd : p.dark = some false) (hosc : p.oscillator.getD false = false) (hc : p.calibrate.getD true = true) :
    (∃ i t, Dict.get? d (.field fid .current) = some i ∧ Dict.get? d (.field tid .current) = some t ∧ l = [.gain i t]) ∨
    ((Dict.get? d (.field fid .current) = none ∨ Dict.get? d (.field tid .current) = none) ∧
      ((∃ i t, Dict.get? d (.field fid .cps) = some i ∧ Dict.get? d (.field tid .cps) = some t ∧ l = [.gain i t]) ∨
       ((Dict.get? d (.field fid .cps) = none ∨ Dict.get? d (.field tid .cps) = none) ∧ l = []))) := by
  have hl : calibrateGain p fid tid d = .ok l := by
    unfold calibrateDiodes at h
    rw [hd] at h
    simp only [hosc] at h
    cases h0 : chooseGain close p.gainI0 (dataGain f0 false fid d) with
    | error e => rw [h0] at h; cases h
    | ok x =>
      rw [h0] at h
      simp only at h
      cases h1 : chooseGain close p.gainIt (dataGain ft false tid d) with
      | error e => rw [h1] at h; cases h
      | ok y =>
        rw [h1] at h
        simp only [Bool.false_eq_true, if_false] at h
        cases h2 : calibrateGain p fid tid d with
        | error e => rw [h2] at h; cases h
        | ok m => rw [h2] at h; cases h; rfl
  unfold calibrateGain at hl
  rw [if_pos hc] at hl
  cases he : Dict.get? d .energy with
  | none => rw [he] at hl; cases hl
  | some e =>
    rw [he] at hl
    cases h1 : Dict.get? d (.field tid .current) <;> cases h2 : Dict.get? d (.field fid .current) <;>
      cases h3 : Dict.get? d (.field tid .cps) <;> cases h4 : Dict.get? d (.field fid .cps) <;>
      rw [h1, h2] at hl <;> simp only [h3, h4, Except.ok.injEq] at hl <;> simp [eq_comm, hl]

end

/-- The flux monitor of a calibration: rates of both diodes, the gains as asked. -/
example : calibrateDiodes (fun a b => a == b) (fun _ _ _ => 0) (fun _ _ _ => 0) ⟨some false, none, none, none, some 3, some 4⟩
    ['0'] ['t'] [(.field ['0'] .cps, ⟨5, unit1 .hertz⟩), (.field ['t'] .cps, ⟨3, unit1 .hertz⟩), (.energy, ⟨7, unit1 .energy⟩)] =
    .ok (3, 4, [.gain ⟨5, unit1 .hertz⟩ ⟨3, unit1 .hertz⟩]) := by
  decide +kernel

/-! ## Reference and filters -/

/-- The reference is a flux in hertz or a number of counts; other units raise DimensionalityError, not the ValueError
that is written there. -/
theorem reference_spec (x : Raw) :
    (∀ q, x.quantity (unit1 .dimless) = q → q.unit.dim = .hertz → setReference x = .ok ⟨q.base, unit1 .hertz⟩) ∧
    (∀ q, x.quantity (unit1 .dimless) = q → q.unit.dim = .dimless → setReference x = .ok ⟨q.base, unit1 .dimless⟩) ∧
    ∀ q, x.quantity (unit1 .dimless) = q → q.unit.dim ≠ .hertz → q.unit.dim ≠ .dimless → setReference x = .error .dimensionality := by
  unfold setReference Qty.to
  generalize x.quantity (unit1 .dimless) = r
  refine ⟨?_, ?_, ?_⟩
  · rintro q rfl h; simp [h, unit1, Qty.base]
  · rintro q rfl h; simp [h, unit1, Qty.base]
  · rintro q rfl h1 h2; simp [h1, h2, unit1]

/-- A number without unit is a number of counts. -/
theorem reference_number (v : ℚ) : setReference (.num v) = .ok ⟨v, unit1 .dimless⟩ := by
  simp [setReference, Raw.quantity, Qty.to, unit1]

/-- The weighted mean lies between the values, and only the ratios of the weights matter. -/
theorem weightedSum_bounds (values w : List ℚ) (hl : values.length = w.length) (hw : ∀ x ∈ w, 0 ≤ x) (hs : 0 < w.sum)
    (a b : ℚ) (ha : ∀ x ∈ values, a ≤ x) (hb : ∀ x ∈ values, x ≤ b) :
    a ≤ weightedSum values (some w) ∧ weightedSum values (some w) ≤ b := by
  have key : ∀ (v w : List ℚ), v.length = w.length → (∀ x ∈ w, 0 ≤ x) → (∀ x ∈ v, a ≤ x) → (∀ x ∈ v, x ≤ b) →
      a * w.sum ≤ (List.zipWith (· * ·) v w).sum ∧ (List.zipWith (· * ·) v w).sum ≤ b * w.sum := by
    intro v
    induction v with
    | nil => intro w h _ _ _; cases w with | nil => simp | cons => simp at h
    | cons x v ih =>
      intro w h hw ha hb
      cases w with
      | nil => simp at h
      | cons y w =>
        obtain ⟨h1, h2⟩ := ih w (by simpa using h) (fun z hz => hw z (List.mem_cons_of_mem _ hz))
          (fun z hz => ha z (List.mem_cons_of_mem _ hz)) (fun z hz => hb z (List.mem_cons_of_mem _ hz))
        have hy := hw y (List.mem_cons_self ..)
        have h3 := mul_le_mul_of_nonneg_right (ha x (List.mem_cons_self ..)) hy
        have h4 := mul_le_mul_of_nonneg_right (hb x (List.mem_cons_self ..)) hy
        simp only [List.zipWith_cons_cons, List.sum_cons, mul_add]
        constructor <;> linarith
  cases values with
  | nil => cases w with | nil => simp at hs | cons => simp at hl
  | cons x v =>
    cases v with
    | nil => exact ⟨ha x (by simp), hb x (by simp)⟩
    | cons y v =>
      obtain ⟨h1, h2⟩ := key (x :: y :: v) w hl hw ha hb
      unfold weightedSum
      simp only
      constructor
      · rw [le_div_iff₀ hs]; exact h1
      · rw [div_le_iff₀ hs]; exact h2

/-- A common factor of the weights does not matter. -/
theorem weightedSum_scale (values w : List ℚ) (c : ℚ) (hc : c ≠ 0) :
    weightedSum values (some (w.map (c * ·))) = weightedSum values (some w) := by
  have h1 : ∀ (v w : List ℚ), (List.zipWith (· * ·) v (w.map (c * ·))).sum = c * (List.zipWith (· * ·) v w).sum := by
    intro v
    induction v with
    | nil => intro w; simp
    | cons x v ih =>
      intro w
      cases w with
      | nil => simp
      | cons y w => simp only [List.map_cons, List.zipWith_cons_cons, List.sum_cons, ih]; ring
  have h2 : (w.map (c * ·)).sum = c * w.sum := by
    induction w with
    | nil => simp
    | cons y w ih => simp only [List.map_cons, List.sum_cons, ih]; ring
  match values with
  | [v] => rfl
  | [] => simp only [weightedSum]; rw [h1, h2, mul_div_mul_left _ _ hc]
  | a :: b :: v => simp only [weightedSum]; rw [h1, h2, mul_div_mul_left _ _ hc]

/-- Without weights all lines count the same. -/
theorem weightedSum_none (values : List ℚ) (h : values ≠ []) : weightedSum values none * values.length = values.sum := by
  match values with
  | [v] => simp [weightedSum]
  | a :: b :: v =>
    simp only [weightedSum]
    have : ((a :: b :: v).length : ℚ) ≠ 0 := by
      have : 0 < (a :: b :: v).length := by simp
      exact_mod_cast this.ne'
    exact div_mul_cancel₀ _ this

/-- The flux before the filters times their transmission is the flux at the sample; geometries with different filters
are refused. -/
theorem fluxOp_remove (op op' : ℚ × ℚ) (filters : List (List ℚ)) (weights : Option (List ℚ))
    (h : fluxOp op filters weights true = .ok op') (t : ℚ) (f : List ℚ) (hf : f ∈ filters) (ht : weightedSum f weights = t)
    (h0 : t ≠ 0) (x : ℚ) : (op'.1 * x + op'.2) * t = op.1 * x + op.2 ∧ ∀ g ∈ filters, weightedSum g weights = t := by
  unfold fluxOp at h
  rw [if_pos rfl] at h
  cases hb : beamTransmission filters weights with
  | error e => rw [hb] at h; cases h
  | ok u =>
    rw [hb] at h
    cases h
    have hall : ∀ g ∈ filters, weightedSum g weights = u := by
      unfold beamTransmission at hb
      cases hm : filters.map fun f => weightedSum f weights with
      | nil => rw [hm] at hb; cases hb
      | cons y r =>
        rw [hm] at hb
        simp only at hb
        split at hb
        · next hr =>
          cases hb
          intro g hg
          have hmem : weightedSum g weights ∈ filters.map fun f => weightedSum f weights := List.mem_map_of_mem hg
          rw [hm] at hmem
          rcases List.mem_cons.1 hmem with h | h
          · exact h
          · simpa using List.all_eq_true.1 hr _ h
        · cases hb
    have hu : u = t := by rw [← hall f hf, ht]
    subst hu
    refine ⟨?_, hall⟩
    field_simp
    ring

/-- Without geometries the filters cannot be removed: IndexError. -/
theorem fluxOp_no_geometry (op : ℚ × ℚ) (weights : Option (List ℚ)) : fluxOp op [] weights true = .error .indexError := rfl

example : fluxOp (6, 2) [[1/2, 1/4], [1/4, 1/2]] (some [1, 1]) true = .ok (16, 16/3) := by decide +kernel

end SC.Qxrf
