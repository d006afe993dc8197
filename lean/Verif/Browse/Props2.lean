import Verif.Browse.Props
import Mathlib.Data.List.Perm.Subperm
import Mathlib.Data.List.Nodup
/-! # C84: free names, ancestors, open files -/
namespace SC.Browse

/-! ## Free names -/

theorem numbered_inj {b : Str} {i j : Nat} (h : numbered b i = numbered b j) : i = j := by
  simp only [numbered, List.append_assoc] at h
  have h := List.append_cancel_left (List.append_cancel_left h)
  exact SC.Stack.toDigits_inj (List.append_cancel_right h)

theorem search_ge (taken : List Str) (b : Str) (fuel i : Nat) : i ≤ search taken b fuel i := by
  induction fuel generalizing i with
  | zero => exact le_rfl
  | succ n ih =>
    rw [search]; split
    · exact le_trans (Nat.le_succ i) (ih (i + 1))
    · exact le_rfl

theorem search_min (taken : List Str) (b : Str) (fuel i j : Nat) (h1 : i ≤ j) (h2 : j < search taken b fuel i) :
    numbered b j ∈ taken := by
  induction fuel generalizing i with
  | zero => rw [search] at h2; omega
  | succ n ih =>
    rw [search] at h2
    split at h2
    · rename_i hm
      rcases Nat.eq_or_lt_of_le h1 with rfl | h
      · exact hm
      · exact ih (i + 1) h h2
    · omega

theorem search_run (taken : List Str) (b : Str) (fuel i : Nat) (h : numbered b (search taken b fuel i) ∈ taken) :
    ∀ k ≤ fuel, numbered b (i + k) ∈ taken := by
  induction fuel generalizing i with
  | zero => intro k hk; rw [search] at h; have : k = 0 := by omega
            subst this; exact h
  | succ n ih =>
    rw [search] at h
    split at h
    · rename_i hm
      intro k hk
      cases k with
      | zero => exact hm
      | succ k =>
        have := ih (i + 1) h k (by omega)
        have e : i + (k + 1) = i + 1 + k := by omega
        rw [e]; exact this
    · rename_i hm; exact absurd h hm

/-- The loop ends at a free name: there are more numbers than entries. -/
theorem search_free (taken : List Str) (b : Str) (i : Nat) : numbered b (search taken b taken.length i) ∉ taken := by
  intro h
  have hr := search_run taken b taken.length i h
  let l := (List.range (taken.length + 1)).map fun k => numbered b (i + k)
  have hn : l.Nodup := by
    refine List.Nodup.map_on ?_ List.nodup_range
    intro x _ y _ e
    have := numbered_inj e
    omega
  have hs : l ⊆ taken := by
    intro x hx
    obtain ⟨k, hk, rfl⟩ := List.mem_map.mp hx
    exact hr k (by have := List.mem_range.mp hk; omega)
  have := (List.subperm_of_subset hn hs).length_le
  simp [l] at this

/-- **C84.**  The name is free. -/
theorem nonexistingName_free (taken : List Str) (name : Str) : nonexistingName taken name ∉ taken := by
  unfold nonexistingName
  split
  · assumption
  · exact search_free taken _ _

/-- **C84.**  A free name is kept. -/
theorem nonexistingName_keep (taken : List Str) (name : Str) (h : name ∉ taken) : nonexistingName taken name = name := by
  simp [nonexistingName, h]

theorem takeWhile_digits (ds r : Str) (hd : ∀ c ∈ ds, c.isDigit = true) :
    (ds ++ '(' :: r).takeWhile Char.isDigit = ds ∧ (ds ++ '(' :: r).dropWhile Char.isDigit = '(' :: r := by
  have hp : Char.isDigit '(' = false := by decide
  induction ds with
  | nil => simp [hp]
  | cons c ds ih =>
    have h1 := hd c List.mem_cons_self
    obtain ⟨i1, i2⟩ := ih fun x hx => hd x (List.mem_cons_of_mem _ hx)
    simp [List.takeWhile_cons, List.dropWhile_cons, h1, i1, i2]

/-- **C84.**  A name with a number is read back. -/
theorem splitNumber_numbered (b : Str) (hb : b ≠ []) (i : Nat) : splitNumber (numbered b i) = some (b, i) := by
  have hd := (SC.Scan.natVal_repr i).1
  have hv := (SC.Scan.natVal_repr i).2
  have e : (numbered b i).reverse = ')' :: ((Nat.toDigits 10 i).reverse ++ '(' :: b.reverse) := by
    simp [numbered]
  obtain ⟨t1, t2⟩ := takeWhile_digits (Nat.toDigits 10 i).reverse b.reverse (fun c hc => hd.2 c (List.mem_reverse.mp hc))
  simp only [splitNumber, e, t1, t2]
  simp [hb, hd.1, hv]

/-- Only names with a number are. -/
theorem splitNumber_sound (name b : Str) (i : Nat) (h : splitNumber name = some (b, i)) :
    b ≠ [] ∧ ∃ ds : Str, SC.Scan.IsNat ds ∧ SC.Scan.natVal ds = i ∧ name = b ++ ['('] ++ ds ++ [')'] := by
  unfold splitNumber at h
  split at h
  · rename_i r hr
    dsimp only at h
    split at h
    · rename_i b' hb'
      split at h
      · rename_i hc
        simp only [Option.some.injEq, Prod.mk.injEq] at h
        obtain ⟨rfl, rfl⟩ := h
        refine ⟨by simpa using hc.2, (r.takeWhile Char.isDigit).reverse, ⟨by simpa using hc.1, ?_⟩, rfl, ?_⟩
        · intro c hcm
          exact List.mem_takeWhile_imp (List.mem_reverse.mp hcm)
        · have e1 : r = r.takeWhile Char.isDigit ++ '(' :: b' := by
            rw [← hb', List.takeWhile_append_dropWhile]
          have e2 : name = (')' :: r).reverse := by rw [← hr, List.reverse_reverse]
          rw [e2, List.reverse_cons]
          conv_lhs => rw [e1]
          simp
      · cases h
    · cases h
  · cases h

/-- **C84.**  A taken name gets the first free number; a name with a number gets a higher number instead of a second
one, so that repeated calls stay in one series. -/
theorem nonexistingName_series (taken : List Str) (b : Str) (hb : b ≠ []) (i : Nat) (h : numbered b i ∈ taken) :
    ∃ j, i < j ∧ nonexistingName taken (numbered b i) = numbered b j ∧ ∀ k, i < k → k < j → numbered b k ∈ taken := by
  refine ⟨search taken b taken.length (i + 1), search_ge _ _ _ _, ?_, fun k h1 h2 => search_min _ _ _ _ _ h1 h2⟩
  simp [nonexistingName, h, splitNumber_numbered b hb i]

/-- The first number is one. -/
theorem nonexistingName_first (taken : List Str) (name : Str) (h : name ∈ taken) (hs : splitNumber name = none) :
    ∃ j, 1 ≤ j ∧ nonexistingName taken name = numbered name j ∧ ∀ k, 1 ≤ k → k < j → numbered name k ∈ taken := by
  refine ⟨search taken name taken.length 1, search_ge _ _ _ _, ?_, fun k h1 h2 => search_min _ _ _ _ _ h1 h2⟩
  simp [nonexistingName, h, hs]

/-- **C84.**  Without braces in the name the formatting gives the name with the number. -/
theorem numberedFmt_eq (b : Str) (i : Nat) (h : '{' ∉ b ∧ '}' ∉ b) : numberedFmt b i = some (numbered b i) := by
  unfold numberedFmt numbered
  induction b with
  | nil => simp [format]
  | cons c b ih =>
    simp only [List.mem_cons, not_or] at h
    have h1 : c ≠ '{' := fun e => h.1.1 e.symm
    have h2 : c ≠ '}' := fun e => h.2.1 e.symm
    have := ih ⟨h.1.2, h.2.2⟩
    rw [List.cons_append]
    unfold format
    split
    · rename_i heq; exact absurd (List.cons.inj heq).1 h1
    · rename_i heq; exact absurd (List.cons.inj heq).1 h2
    · rename_i heq; exact absurd (List.cons.inj heq).1 h1
    · rename_i heq; exact absurd (List.cons.inj heq).1 h1
    · rename_i heq; exact absurd (List.cons.inj heq).1 h2
    · rename_i c' r' _ _ _ _ _ heq
      obtain ⟨rfl, rfl⟩ := List.cons.inj heq
      rw [this]; simp
    · rename_i heq; cases heq

/-- **C84 (deviation).**  Braces in a name: an error, or another name. -/
theorem numberedFmt_braces : numberedFmt "a{}".toList 1 = none ∧ numberedFmt "a{".toList 1 = none ∧
    numberedFmt "a{{".toList 1 = some "a{(1)".toList := by decide +kernel

/-! ## Ancestors -/

variable {N : Type}

/-- Specification: the prefixes of a path, short ones first, behind `pre`. -/
def prefixes (pre : List N) : List N → List (List N)
  | [] => [pre]
  | a :: p => pre :: prefixes (pre ++ [a]) p

theorem prefixes_snoc (pre p : List N) (a : N) : prefixes pre (p ++ [a]) = prefixes pre p ++ [pre ++ p ++ [a]] := by
  induction p generalizing pre with
  | nil => simp [prefixes]
  | cons b p ih => simp [prefixes, ih]

/-- **C84.**  Going up gives all ancestors, from the path itself to the root. -/
theorem iterup_eq (p : List N) : (iterup p).reverse = prefixes [] p := by
  have key : ∀ r : List N, (iterupRev r).reverse = prefixes [] r.reverse := by
    intro r
    induction r with
    | nil => rfl
    | cons n r ih =>
      rw [iterupRev, List.reverse_cons, ih, List.reverse_cons, prefixes_snoc]
      simp
  rw [iterup, key, List.reverse_reverse]

theorem mem_prefixes (pre p q : List N) : q ∈ prefixes pre p ↔ ∃ r, q = pre ++ r ∧ r <+: p := by
  induction p generalizing pre with
  | nil => simp [prefixes]
  | cons a p ih =>
    rw [prefixes, List.mem_cons, ih]
    constructor
    · rintro (rfl | ⟨r, rfl, h⟩)
      · exact ⟨[], by simp, List.nil_prefix⟩
      · exact ⟨a :: r, by simp, by simpa using h⟩
    · rintro ⟨r, rfl, h⟩
      cases r with
      | nil => left; simp
      | cons b r =>
        rw [List.cons_prefix_cons] at h
        obtain ⟨rfl, h⟩ := h
        exact .inr ⟨r, by simp, h⟩

/-- They are the prefixes of the path. -/
theorem mem_iterup (p q : List N) : q ∈ iterup p ↔ q <+: p := by
  rw [← List.mem_reverse, iterup_eq, mem_prefixes]
  simp

/-- **C84.**  The root is the empty path. -/
theorem root_eq (p : List N) : root p = some [] := by
  have h := iterup_eq p
  unfold root
  have : iterup p = (prefixes [] p).reverse := by rw [← h, List.reverse_reverse]
  rw [this, List.getLast?_reverse]
  cases p <;> rfl

/-- Specification: the longest common prefix. -/
def lcp [DecidableEq N] : List N → List N → List N
  | a :: p, b :: q => if a = b then a :: lcp p q else []
  | _, _ => []

theorem lcp_prefix [DecidableEq N] (p q : List N) : lcp p q <+: p ∧ lcp p q <+: q := by
  induction p generalizing q with
  | nil => simp [lcp]
  | cons a p ih =>
    cases q with
    | nil => simp [lcp]
    | cons b q =>
      rw [lcp]; split
      · rename_i h; subst h
        exact ⟨by simpa using (ih q).1, by simpa using (ih q).2⟩
      · exact ⟨List.nil_prefix, List.nil_prefix⟩

theorem lcp_max [DecidableEq N] (p q r : List N) (h1 : r <+: p) (h2 : r <+: q) : r <+: lcp p q := by
  induction r generalizing p q with
  | nil => exact List.nil_prefix
  | cons c r ih =>
    cases p with
    | nil => simp at h1
    | cons a p =>
      cases q with
      | nil => simp at h2
      | cons b q =>
        rw [List.cons_prefix_cons] at h1 h2
        obtain ⟨rfl, h1⟩ := h1
        obtain ⟨rfl, h2⟩ := h2
        rw [lcp, if_pos rfl, List.cons_prefix_cons]
        exact ⟨rfl, ih p q h1 h2⟩

theorem commonLoop_eq [DecidableEq N] (ret : Option (List N)) (pre p q : List N) :
    commonLoop ret ((prefixes pre p).zip (prefixes pre q)) = some (pre ++ lcp p q) := by
  induction p generalizing pre q ret with
  | nil => cases q <;> simp [prefixes, commonLoop, lcp]
  | cons a p ih =>
    cases q with
    | nil => simp [prefixes, commonLoop, lcp]
    | cons b q =>
      by_cases h : a = b
      · subst h
        simp [prefixes, commonLoop, ih, lcp]
      · simp only [prefixes, List.zip_cons_cons, commonLoop, if_true, lcp, if_neg h, List.append_nil]
        have hne : pre ++ [a] ≠ pre ++ [b] := by simpa using h
        cases p <;> cases q <;> simp [prefixes, commonLoop, hne, h]

/-- **C84.**  The common ancestor is the longest one. -/
theorem common_spec {D : Type} [DecidableEq D] [DecidableEq N] (d : D) (p q : List N) :
    ∃ c, common d p d q = some c ∧ c <+: p ∧ c <+: q ∧ ∀ r, r <+: p → r <+: q → r <+: c := by
  refine ⟨lcp p q, ?_, (lcp_prefix p q).1, (lcp_prefix p q).2, fun r => lcp_max p q r⟩
  simp only [common, ne_eq, not_true, if_false, iterup_eq, commonLoop_eq, List.nil_append]

/-- On different devices there is none. -/
theorem common_device {D : Type} [DecidableEq D] [DecidableEq N] (d e : D) (h : d ≠ e) (p q : List N) : common d p e q = none := by
  simp [common, h]

/-! ## Open files -/

variable {F : Type}

/-- Specification: the functions that were asked for. -/
def askedOf (l : List (Event F)) : List F := l.filterMap fun | .asked f => some f | _ => none
/-- Specification: the functions that were run. -/
def ranOf (l : List (Event F)) : List F := l.filterMap fun | .ran f => some f | _ => none

/-- Specification: a log in which opening and closing alternate and no function is run while the file is open; gives
whether the file is open at the end. -/
def check : Bool → List (Event F) → Option Bool
  | o, [] => some o
  | false, .opened :: l => check true l
  | true, .closed :: l => check false l
  | o, .asked _ :: l => check o l
  | false, .ran _ :: l => check false l
  | _, _ :: _ => none

theorem check_append (o : Bool) (l m : List (Event F)) : check o (l ++ m) = (check o l).bind (check · m) := by
  induction l generalizing o with
  | nil => cases o <;> cases m <;> rfl
  | cons e l ih => cases e <;> cases o <;> simp [check, ih]

theorem check_ran (fails : F → Bool) (fs : List F) : check false (runCallbacks fails fs).1 = some false := by
  induction fs with
  | nil => rfl
  | cons f fs ih =>
    rw [runCallbacks]; split
    · rfl
    · simpa [check] using ih

/-- What holds at every moment. -/
structure Inv (fails : F → Bool) (st : St F) : Prop where
  log : check false st.log = some st.isOpen
  closed : st.isOpen = false → st.callbacks = []
  order : (∀ f ∈ askedOf st.log, fails f = false) → ranOf st.log ++ st.callbacks = askedOf st.log

theorem runCallbacks_all (fails : F → Bool) (fs : List F) (h : ∀ f ∈ fs, fails f = false) :
    ranOf (runCallbacks fails fs).1 = fs ∧ askedOf (runCallbacks fails fs).1 = [] ∧ (runCallbacks fails fs).2 = true := by
  induction fs with
  | nil => exact ⟨rfl, rfl, rfl⟩
  | cons f fs ih =>
    obtain ⟨a, b, c⟩ := ih fun g hg => h g (List.mem_cons_of_mem _ hg)
    rw [runCallbacks, if_neg (by simp [h f List.mem_cons_self])]
    refine ⟨?_, ?_, c⟩
    · show f :: ranOf _ = _; rw [a]
    · exact b

theorem askedOf_run (fails : F → Bool) (fs : List F) : askedOf (runCallbacks fails fs).1 = [] := by
  induction fs with
  | nil => rfl
  | cons f fs ih =>
    rw [runCallbacks]; split
    · rfl
    · exact ih

theorem askedOf_append (l m : List (Event F)) : askedOf (l ++ m) = askedOf l ++ askedOf m := List.filterMap_append
theorem ranOf_append (l m : List (Event F)) : ranOf (l ++ m) = ranOf l ++ ranOf m := List.filterMap_append

theorem closectx_inv (fails : F → Bool) (st : St F) (ok : Bool) (hl : check false st.log = some false) (ho : st.isOpen = false)
    (hord : (∀ f ∈ askedOf st.log, fails f = false) → ranOf st.log ++ st.callbacks = askedOf st.log) :
    Inv fails (closectx fails st ok).1 ∧ (closectx fails st ok).1.isOpen = false := by
  unfold closectx
  refine ⟨⟨?_, fun _ => rfl, ?_⟩, ho⟩
  · show check false (st.log ++ (runCallbacks fails st.callbacks).1) = some st.isOpen
    rw [check_append, hl, Option.bind_some, check_ran, ho]
  · show (∀ f ∈ askedOf (st.log ++ (runCallbacks fails st.callbacks).1), fails f = false) →
      ranOf (st.log ++ (runCallbacks fails st.callbacks).1) ++ [] = askedOf (st.log ++ (runCallbacks fails st.callbacks).1)
    rw [askedOf_append, ranOf_append, askedOf_run, List.append_nil, List.append_nil]
    intro hf
    have h1 := hord hf
    have h2 : ∀ f ∈ st.callbacks, fails f = false := fun f hfm => hf f (by rw [← h1]; exact List.mem_append_right _ hfm)
    rw [(runCallbacks_all fails st.callbacks h2).1, h1]

/-- The invariant holds after any program, and the file is open after it exactly when it was before. -/
theorem run_inv (fails : F → Bool) (p : Prog F) (st : St F) (h : Inv fails st) :
    Inv fails (run fails p st).1 ∧ (run fails p st).1.isOpen = st.isOpen := by
  induction p generalizing st with
  | skip => exact ⟨h, rfl⟩
  | raise => exact ⟨h, rfl⟩
  | seq a b ia ib =>
    obtain ⟨h1, h2⟩ := ia st h
    simp only [run]
    split
    · obtain ⟨h3, h4⟩ := ib _ h1
      exact ⟨h3, h4.trans h2⟩
    · exact ⟨h1, h2⟩
  | onclose f =>
    simp only [run]
    split
    · rename_i ho
      refine ⟨⟨?_, ?_, ?_⟩, rfl⟩
      · show check false (st.log ++ [.asked f]) = some st.isOpen
        rw [check_append, h.log, Option.bind_some]; cases st.isOpen <;> rfl
      · intro hc; rw [ho] at hc; cases hc
      · show (∀ g ∈ askedOf (st.log ++ [.asked f]), fails g = false) →
          ranOf (st.log ++ [.asked f]) ++ (st.callbacks ++ [f]) = askedOf (st.log ++ [.asked f])
        rw [askedOf_append, ranOf_append]
        intro hf
        have := h.order fun g hg => hf g (List.mem_append_left _ hg)
        show ranOf st.log ++ [] ++ (st.callbacks ++ [f]) = askedOf st.log ++ [f]
        rw [List.append_nil, ← List.append_assoc, this]
    · rename_i ho
      have ho' : st.isOpen = false := by simpa using ho
      have hc := h.closed ho'
      refine ⟨⟨?_, fun _ => hc, ?_⟩, rfl⟩
      · show check false (st.log ++ [.asked f, .ran f]) = some st.isOpen
        rw [check_append, h.log, Option.bind_some, ho']; rfl
      · show (∀ g ∈ askedOf (st.log ++ [.asked f, .ran f]), fails g = false) →
          ranOf (st.log ++ [.asked f, .ran f]) ++ st.callbacks = askedOf (st.log ++ [.asked f, .ran f])
        rw [askedOf_append, ranOf_append]
        intro hf
        have := h.order fun g hg => hf g (List.mem_append_left _ hg)
        rw [hc, List.append_nil] at this ⊢
        rw [this]; rfl
  | withOpen a b body ib =>
    simp only [run]
    split
    · exact ib st h
    · rename_i ho
      have ho' : st.isOpen = false := by simpa using ho
      split
      · obtain ⟨h1, h2⟩ := closectx_inv fails st false (by rw [h.log, ho']) ho' h.order
        exact ⟨h1, by rw [h2, ho']⟩
      · have hI : Inv fails ⟨true, st.callbacks, st.log ++ [.opened]⟩ := by
          refine ⟨?_, fun hc => (by cases hc), ?_⟩
          · show check false (st.log ++ [.opened]) = some true
            rw [check_append, h.log, ho']; rfl
          · show (∀ g ∈ askedOf (st.log ++ [.opened]), fails g = false) →
              ranOf (st.log ++ [.opened]) ++ st.callbacks = askedOf (st.log ++ [.opened])
            rw [askedOf_append, ranOf_append]
            show (∀ g ∈ askedOf st.log ++ [], fails g = false) → ranOf st.log ++ [] ++ st.callbacks = askedOf st.log ++ []
            rw [List.append_nil, List.append_nil]
            exact h.order
        obtain ⟨h1, h2⟩ := ib _ hI
        generalize run fails body ⟨true, st.callbacks, st.log ++ [.opened]⟩ = res at h1 h2 ⊢
        obtain ⟨st1, ok⟩ := res
        obtain ⟨h3, h4⟩ := closectx_inv fails ⟨false, st1.callbacks, st1.log ++ [.closed]⟩ (ok && !b) (by
          show check false (st1.log ++ [.closed]) = some false
          rw [check_append, h1.log]
          simp only at h2
          rw [h2]; rfl) rfl (by
          show (∀ g ∈ askedOf (st1.log ++ [.closed]), fails g = false) →
              ranOf (st1.log ++ [.closed]) ++ st1.callbacks = askedOf (st1.log ++ [.closed])
          rw [askedOf_append, ranOf_append]
          show (∀ g ∈ askedOf st1.log ++ [], fails g = false) → ranOf st1.log ++ [] ++ st1.callbacks = askedOf st1.log ++ []
          rw [List.append_nil, List.append_nil]
          exact h1.order)
        exact ⟨h3, by rw [h4, ho']⟩

/-- A new object. -/
def start : St F := ⟨false, [], []⟩

/-- **C84.**  Whatever a program does and wherever it fails: at the end the file is closed and nothing is waiting, it was
opened and closed alternately, and no function was run while it was open. -/
theorem run_closed (fails : F → Bool) (p : Prog F) :
    (run fails p start).1.isOpen = false ∧ (run fails p start).1.callbacks = [] ∧
    check false (run fails p start).1.log = some false := by
  have h0 : Inv fails (start : St F) := ⟨rfl, fun _ => rfl, fun _ => rfl⟩
  obtain ⟨h1, h2⟩ := run_inv fails p start h0
  have h3 : (run fails p start).1.isOpen = false := h2
  exact ⟨h3, h1.closed h3, by rw [h1.log, h3]⟩

/-- **C84.**  When none of the functions fails, each is run once for each time it was asked for, in the order in which they
were asked for, also when the program fails. -/
theorem run_order (fails : F → Bool) (p : Prog F) (h : ∀ f ∈ askedOf (run fails p start).1.log, fails f = false) :
    ranOf (run fails p start).1.log = askedOf (run fails p start).1.log := by
  have h0 : Inv fails (start : St F) := ⟨rfl, fun _ => rfl, fun _ => rfl⟩
  obtain ⟨h1, h2⟩ := run_inv fails p start h0
  have h3 := h1.order h
  rwa [h1.closed h2, List.append_nil] at h3

/-- Specification: the functions a program asks for when nothing fails. -/
def Prog.asks : Prog F → List F
  | .skip => []
  | .raise => []
  | .seq a b => a.asks ++ b.asks
  | .onclose f => [f]
  | .withOpen _ _ body => body.asks

theorem run_asked (fails : F → Bool) (p : Prog F) (st : St F) (h : (run fails p st).2 = true) :
    askedOf (run fails p st).1.log = askedOf st.log ++ p.asks := by
  induction p generalizing st with
  | skip => simp [run, Prog.asks]
  | raise => simp [run] at h
  | seq a b ia ib =>
    simp only [run] at h ⊢
    split at h
    · rename_i hok
      rw [if_pos hok, ib _ h, ia st hok, Prog.asks, List.append_assoc]
    · cases h
  | onclose f =>
    simp only [run]
    split <;> (rw [askedOf_append]; rfl)
  | withOpen a b body ib =>
    simp only [run] at h ⊢
    split at h
    · rename_i ho
      rw [if_pos ho]; exact ib st h
    · rename_i ho
      rw [if_neg ho]
      split at h
      · simp [closectx] at h
      · rename_i ha
        rw [if_neg ha]
        have hb : (run fails body ⟨true, st.callbacks, st.log ++ [.opened]⟩).2 = true := by
          simp only [closectx, Bool.and_eq_true] at h; exact h.1.1
        have := ib _ hb
        simp only [closectx, askedOf_append, this, askedOf_run]
        show askedOf st.log ++ [] ++ body.asks ++ [] ++ [] = askedOf st.log ++ body.asks
        simp

/-- **C84.**  A program that ends without exception has run all functions of the program, in its order. -/
theorem run_all (fails : F → Bool) (p : Prog F) (hf : ∀ f ∈ p.asks, fails f = false) (h : (run fails p start).2 = true) :
    ranOf (run fails p start).1.log = p.asks := by
  have h1 := run_asked fails p start h
  have h2 : askedOf (run fails p start).1.log = p.asks := by rw [h1]; rfl
  rw [run_order fails p (by rw [h2]; exact hf), h2]

/-- **C84 (deviation).**  A function that fails takes the functions behind it with it: they are never run. -/
theorem callback_lost : ∃ p : Prog Nat, ∃ fails : Nat → Bool, 2 ∈ askedOf (run fails p start).1.log ∧ fails 2 = false ∧
    2 ∉ ranOf (run fails p start).1.log ∧ (run fails p start).1.callbacks = [] :=
  ⟨.withOpen false false (.seq (.onclose 1) (.onclose 2)), fun n => n == 1, by decide, rfl, by decide, rfl⟩

/-! ## Cases -/

/-- A directory with two files and a directory with a file. -/
def dir1 : Entries Nat := .cons 1 .file (.cons 2 (.dir (.cons 3 .file .nil)) (.cons 4 .file .nil))

example : (tree true 0 true 0 [] (.dir dir1)).list = [[], [1], [2], [2, 3], [4]] := by decide
example : Out.listAll (treeList false 0 false 0 [] dir1) = [[2]] := by decide
/-- A recursive search for everything finds three of the four entries. -/
example : find true 0 true (fun _ => true) 0 [] dir1 = [[1], [2], [4]] := by decide
/-- A search for directories with negative depth finds a file. -/
example : find true (-1) false (fun _ => true) 0 [] dir1 = [[2], [2, 3]] := by decide
example : nonexistingName ["a".toList, "a(1)".toList, "a(2)".toList] "a".toList = "a(3)".toList := by decide +kernel
example : nonexistingName ["a(2)".toList, "a(3)".toList] "a(2)".toList = "a(4)".toList := by decide +kernel
example : common () [1, 2, 3] () [1, 2, 4] = some [1, 2] := by decide
/-- Two functions and an exception in a nested block. -/
example : run (fun _ => false) (.withOpen false false (.seq (.onclose 1) (.withOpen false false (.seq (.onclose 2) .raise)))) start =
    ((⟨false, [], [.opened, .asked 1, .asked 2, .closed, .ran 1, .ran 2]⟩ : St Nat), false) := by rfl

end SC.Browse
