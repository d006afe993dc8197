import Verif.H5.Retry
import Mathlib.Tactic.ByContra
/-! # Opening an HDF5 file with retries: properties (C21) -/
namespace SC.H5

variable {H : Type}

/-! ## Specification -/

/-- The error codes of a file that is in use, lines 255-264; another process or thread may close it. -/
def busyCode (mode : Mode) (code : Option Int) : Prop :=
  code = some 11 ∨ code = some (-4) ∨ code = some (-2) ∨
    ((code = some 17 ∨ code = some (-3)) ∧ mode ≠ .x ∧ mode ≠ .wm)

/-- The file is in use in attempt `o`. -/
def InUse (known : Int → Bool) (mode : Mode) : Out H → Prop
  | .ok _ => False
  | .err e => busyCode mode (h5pyErrno known e)

/-- What an attempt that is not retried means. -/
def meaning (known : Int → Bool) : Out H → Res H
  | .ok h => .handle h
  | .err e =>
    if h5pyErrno known e = some 2 then .missing
    else if h5pyErrno known e = some 21 then .notAFile
    else .reraise e

/-! ## Proofs -/

theorem onError_spec (known : Int → Bool) (mode : Mode) (e : IOErr) :
    (onError (H := H) known mode e = none ∧ busyCode mode (h5pyErrno known e)) ∨
    (onError known mode e = some (meaning (H := H) known (.err e)) ∧ ¬ busyCode mode (h5pyErrno known e)) := by
  simp only [onError, meaning]
  generalize h5pyErrno known e = code
  cases code with
  | none => right; simp [busyCode]
  | some c =>
    simp only [ENOENT, EISDIR, EAGAIN, OPENERR, TRUNCERR, EEXIST, H5EEXIST, busyCode, Option.some.injEq]
    by_cases h1 : c = 2
    · subst h1; right; simp
    by_cases h2 : c = 21
    · subst h2; right; simp
    by_cases h3 : c = 11 ∨ c = -4 ∨ c = -2
    · left
      simp only [h1, h2, h3, if_true, if_false, true_and]
      rcases h3 with h | h | h <;> simp [h]
    by_cases h4 : c = 17 ∨ c = -3
    · by_cases h5 : mode = .x ∨ mode = .wm
      · right
        simp only [h1, h2, h3, h4, h5, if_true, if_false, true_and]
        rcases h5 with h5 | h5 <;> subst h5 <;> simp <;> omega
      · left
        simp only [h1, h2, h3, h4, h5, if_true, if_false, true_and]
        simp only [not_or] at h5
        exact .inr (.inr (.inr h5))
    · right
      refine ⟨by simp only [h1, h2, h3, h4, if_false], ?_⟩
      rintro (h | h | h | ⟨h, -⟩)
      · exact h3 (.inl h)
      · exact h3 (.inr (.inl h))
      · exact h3 (.inr (.inr h))
      · exact h4 h

theorem openLoop_spec (known : Int → Bool) (mode : Mode) (outs : Nat → Out H) (n i : Nat) :
    (∃ k < n, (∀ j < k, InUse known mode (outs (i + j))) ∧ ¬ InUse known mode (outs (i + k)) ∧
      openLoop known mode outs n i = ⟨meaning known (outs (i + k)), i + k + 1, i + k⟩) ∨
    ((∀ j < n, InUse known mode (outs (i + j))) ∧ openLoop known mode outs n i = ⟨.locked, i + n, i + n⟩) := by
  induction n generalizing i with
  | zero => right; exact ⟨by simp, rfl⟩
  | succ n ih =>
    cases ho : outs i with
    | ok h =>
      left
      exact ⟨0, by omega, by simp, by simp [ho, InUse], by simp [openLoop, ho, meaning]⟩
    | err e =>
      rcases onError_spec (H := H) known mode e with ⟨h1, h2⟩ | ⟨h1, h2⟩
      · have step : openLoop known mode outs (n + 1) i = openLoop known mode outs n (i + 1) := by
          simp [openLoop, ho, h1]
        have h0 : InUse known mode (outs i) := by rw [ho]; exact h2
        rw [step]
        rcases ih (i + 1) with ⟨k, hk, h3, h4, h5⟩ | ⟨h3, h4⟩
        · left
          refine ⟨k + 1, by omega, ?_, ?_, ?_⟩
          · intro j hj
            cases j with
            | zero => exact h0
            | succ j => have := h3 j (by omega); rwa [show i + (j + 1) = i + 1 + j by omega]
          · rwa [show i + (k + 1) = i + 1 + k by omega]
          · rw [h5, show i + (k + 1) = i + 1 + k by omega]
        · right
          refine ⟨?_, by rw [h4, show i + (n + 1) = i + 1 + n by omega]⟩
          intro j hj
          cases j with
          | zero => exact h0
          | succ j => have := h3 j (by omega); rwa [show i + (j + 1) = i + 1 + j by omega]
      · left
        exact ⟨0, by omega, by simp, by rw [Nat.add_zero, ho]; exact h2,
          by simp [openLoop, ho, h1]⟩

/-- The whole behaviour: the first attempt that does not find the file in use decides; it is attempt
number `k + 1` after `k` pauses. When there is none within the budget, the file is reported as locked. -/
theorem open_spec (known : Int → Bool) (retries : Nat) (mode : Mode) (outs : Nat → Out H) :
    (∃ k < retries, (∀ j < k, InUse known mode (outs j)) ∧ ¬ InUse known mode (outs k) ∧
      openFile known retries mode outs = ⟨meaning known (outs k), k + 1, k⟩) ∨
    ((∀ j < retries, InUse known mode (outs j)) ∧
      openFile known retries mode outs = ⟨.locked, retries, retries⟩) := by
  simpa [openFile] using openLoop_spec known mode outs retries 0

/-- Never more attempts than configured, and at least one if the budget is not zero. -/
theorem open_attempts (known : Int → Bool) (retries : Nat) (mode : Mode) (outs : Nat → Out H) :
    (openFile known retries mode outs).attempts ≤ retries ∧
      (0 < retries → 0 < (openFile known retries mode outs).attempts) := by
  rcases open_spec known retries mode outs with ⟨k, hk, -, -, h⟩ | ⟨-, h⟩ <;> rw [h] <;>
    constructor <;> simp <;> omega

/-- A handle is returned iff an attempt within the budget succeeds before any fatal error, and it is the
handle of that attempt, the first successful one. -/
theorem open_handle_iff (known : Int → Bool) (retries : Nat) (mode : Mode) (outs : Nat → Out H) (h : H) :
    (openFile known retries mode outs).res = .handle h ↔
      ∃ k < retries, outs k = .ok h ∧ ∀ j < k, InUse known mode (outs j) := by
  rcases open_spec known retries mode outs with ⟨k, hk, h1, h2, h3⟩ | ⟨h1, h3⟩
  · rw [h3]
    constructor
    · intro e
      refine ⟨k, hk, ?_, h1⟩
      simp only [meaning] at e
      split at e
      · rename_i h' ho; cases e; exact ho
      · split at e
        · cases e
        · split at e <;> cases e
    · rintro ⟨k', hk', ho, hu⟩
      have : k = k' := by
        rcases Nat.lt_trichotomy k k' with hl | hl | hl
        · exact absurd (hu k hl) h2
        · exact hl
        · have := h1 k' hl
          rw [ho] at this
          exact absurd this (by simp [InUse])
      subst this
      simp [ho, meaning]
  · rw [h3]
    constructor
    · intro e; cases e
    · rintro ⟨k, hk, ho, -⟩
      have := h1 k hk
      rw [ho] at this
      exact absurd this (by simp [InUse])

/-- A failure within a larger budget can only come later: raising the budget never loses a success. -/
theorem open_mono (known : Int → Bool) (n m : Nat) (mode : Mode) (outs : Nat → Out H) (h : H) (hnm : n ≤ m)
    (hn : (openFile known n mode outs).res = .handle h) : (openFile known m mode outs).res = .handle h := by
  rw [open_handle_iff] at hn ⊢
  obtain ⟨k, hk, h1, h2⟩ := hn
  exact ⟨k, by omega, h1, h2⟩

/-- An error is passed on unchanged only if it is the first that does not mean "in use". -/
theorem open_reraise (known : Int → Bool) (retries : Nat) (mode : Mode) (outs : Nat → Out H) (e : IOErr)
    (h : (openFile known retries mode outs).res = .reraise e) :
    ∃ k < retries, outs k = .err e ∧ ∀ j < k, InUse known mode (outs j) := by
  rcases open_spec known retries mode outs with ⟨k, hk, h1, h2, h3⟩ | ⟨h1, h3⟩
  · rw [h3] at h
    refine ⟨k, hk, ?_, h1⟩
    simp only [meaning] at h
    split at h
    · cases h
    · rename_i e' ho
      split at h
      · cases h
      · split at h
        · cases h
        · cases h; exact ho
  · rw [h3] at h; cases h

/-- "Missing" and "not a file" are reported only when the deciding attempt failed with that number. -/
theorem open_missing (known : Int → Bool) (retries : Nat) (mode : Mode) (outs : Nat → Out H) :
    ((openFile known retries mode outs).res = .missing →
      ∃ k < retries, ∃ e, outs k = .err e ∧ h5pyErrno known e = some 2) ∧
    ((openFile known retries mode outs).res = .notAFile →
      ∃ k < retries, ∃ e, outs k = .err e ∧ h5pyErrno known e = some 21) := by
  rcases open_spec known retries mode outs with ⟨k, hk, h1, h2, h3⟩ | ⟨h1, h3⟩
  · rw [h3]
    cases ho : outs k with
    | ok h => simp [meaning]
    | err e =>
      simp only [meaning]
      constructor
      · intro h
        split at h
        · exact ⟨k, hk, e, ho, by assumption⟩
        · split at h <;> cases h
      · intro h
        split at h
        · cases h
        · split at h
          · exact ⟨k, hk, e, ho, by assumption⟩
          · cases h
  · rw [h3]; simp

/-- With an exclusive mode an existing file is reported at the first attempt. -/
theorem open_exclusive (known : Int → Bool) (retries : Nat) (mode : Mode) (outs : Nat → Out H)
    (hm : mode = .x ∨ mode = .wm) (hr : 0 < retries) (e : IOErr) (he : outs 0 = .err e)
    (hc : h5pyErrno known e = some 17 ∨ h5pyErrno known e = some (-3)) :
    openFile known retries mode outs = ⟨.reraise e, 1, 0⟩ := by
  have h0 : ¬ InUse known mode (outs 0) := by
    rw [he]
    rcases hm with rfl | rfl <;> rcases hc with hc | hc <;> simp [InUse, busyCode, hc]
  rcases open_spec known retries mode outs with ⟨k, hk, h1, h2, h3⟩ | ⟨h1, h3⟩
  · cases k with
    | zero =>
      rw [h3, he]
      rcases hc with hc | hc <;> simp [meaning, hc]
    | succ k => exact absurd (h1 0 (by omega)) h0
  · exact absurd (h1 0 hr) h0

/-- A system error number is used as it is, whatever the message says. -/
theorem errno_known (known : Int → Bool) (e : IOErr) (n : Int) (h : e.errno = some n) (hk : known n = true) :
    h5pyErrno known e = some n := by
  simp [h5pyErrno, isKnown, h, hk]

/-- `m` occurs in `s`. -/
def Occurs (m s : List Char) : Prop := ∃ a b, s = a ++ m ++ b

theorem contains_iff (m s : List Char) : contains m s = true ↔ Occurs m s := by
  induction s with
  | nil =>
    simp only [contains, List.isEmpty_iff, Occurs]
    constructor
    · rintro rfl; exact ⟨[], [], rfl⟩
    · rintro ⟨a, b, h⟩
      have := congrArg List.length h
      simp only [List.length_nil, List.length_append] at this
      exact List.eq_nil_of_length_eq_zero (by omega)
  | cons c s ih =>
    simp only [contains, Bool.or_eq_true, ih, List.isPrefixOf_iff_prefix, Occurs]
    constructor
    · rintro (⟨b, h⟩ | ⟨a, b, h⟩)
      · exact ⟨[], b, h.symm⟩
      · exact ⟨c :: a, b, by rw [h]; simp⟩
    · rintro ⟨a, b, h⟩
      cases a with
      | nil => left; exact ⟨b, h.symm⟩
      | cons x a =>
        right
        simp only [List.cons_append, List.cons.injEq] at h
        exact ⟨a, b, h.2⟩

/-- The message has a number: "errno = " followed by a digit, after `a`. -/
def NumberAfter (a : List Char) (s : List Char) : Prop :=
  ∃ d b, d.isDigit = true ∧ s = a ++ "errno = ".toList ++ d :: b

theorem prefix_toList : errnoPrefix = "errno = ".toList := by decide

theorem search_head (s : List Char) :
    (errnoPrefix.isPrefixOf s && !((s.drop 8).takeWhile Char.isDigit).isEmpty) = true ↔ NumberAfter [] s := by
  simp only [Bool.and_eq_true, List.isPrefixOf_iff_prefix, NumberAfter, List.nil_append, ← prefix_toList]
  constructor
  · rintro ⟨⟨t, rfl⟩, h⟩
    have : (errnoPrefix ++ t).drop 8 = t := by
      rw [List.drop_append_of_le_length (by decide)]
      rfl
    rw [this] at h
    cases t with
    | nil => simp at h
    | cons d b =>
      refine ⟨d, b, ?_, rfl⟩
      by_contra hd
      simp [hd] at h
  · rintro ⟨d, b, hd, rfl⟩
    refine ⟨⟨d :: b, rfl⟩, ?_⟩
    have : (errnoPrefix ++ d :: b).drop 8 = d :: b := by
      rw [List.drop_append_of_le_length (by decide)]
      rfl
    rw [this]
    simp [hd]

theorem not_number_nil (a : List Char) : ¬ NumberAfter a [] := by
  rintro ⟨d, b, -, h⟩
  have := congrArg List.length h
  simp at this

theorem number_cons (x c : Char) (a s : List Char) (h : NumberAfter (x :: a) (c :: s)) : NumberAfter a s := by
  obtain ⟨d, b, hd, h⟩ := h
  simp only [List.cons_append, List.cons.injEq] at h
  exact ⟨d, b, hd, h.2⟩

theorem search_none (s : List Char) (h : ∀ a, ¬ NumberAfter a s) : searchErrno s = none := by
  induction s with
  | nil => rfl
  | cons c s ih =>
    have h0 : ¬ (errnoPrefix.isPrefixOf (c :: s) && !(((c :: s).drop 8).takeWhile Char.isDigit).isEmpty) = true := by
      rw [search_head]; exact h []
    rw [searchErrno, if_neg h0]
    refine ih fun a ⟨d, b, hd, e⟩ => h (c :: a) ⟨d, b, hd, by rw [e]; simp⟩

theorem search_some (a ds b : List Char) (hds : ∀ d ∈ ds, d.isDigit = true) (hne : ds ≠ [])
    (hb : ∀ c ∈ b.head?, c.isDigit = false)
    (hfirst : ∀ a', NumberAfter a' (a ++ "errno = ".toList ++ ds ++ b) → a.length ≤ a'.length) :
    searchErrno (a ++ "errno = ".toList ++ ds ++ b) = some ds := by
  induction a with
  | nil =>
    have htw : (ds ++ b).takeWhile Char.isDigit = ds := by
      rw [List.takeWhile_append_of_pos hds]
      cases b with
      | nil => simp
      | cons c b =>
        have hc := hb c (by simp)
        simp [hc]
    rw [← prefix_toList, List.nil_append, List.append_assoc]
    have hdrop : (errnoPrefix ++ (ds ++ b)).drop 8 = ds ++ b := by
      rw [List.drop_append_of_le_length (by decide)]
      rfl
    have hpre : errnoPrefix.isPrefixOf (errnoPrefix ++ (ds ++ b)) = true := by
      rw [List.isPrefixOf_iff_prefix]; exact ⟨_, rfl⟩
    have e : errnoPrefix ++ (ds ++ b) = 'e' :: (errnoPrefix.tail ++ (ds ++ b)) := rfl
    rw [e, searchErrno, ← e, hdrop, htw, hpre]
    cases ds with
    | nil => exact absurd rfl hne
    | cons d ds => rfl
  | cons c a ih =>
    simp only [List.cons_append]
    have h0 : ¬ NumberAfter [] (c :: (a ++ "errno = ".toList ++ ds ++ b)) := by
      intro h
      have := hfirst [] (by simpa using h)
      simp at this
    rw [searchErrno, if_neg (by rw [search_head]; exact h0)]
    refine ih fun a' h' => ?_
    obtain ⟨d, b', hd, e⟩ := h'
    have := hfirst (c :: a') ⟨d, b', hd, by simpa using e⟩
    simpa using this

/-- Without a system error number the first number in the message is used. -/
theorem errno_number (known : Int → Bool) (e : IOErr) (hk : ∀ n, e.errno = some n → known n = false)
    (a ds b : List Char) (hm : e.msg = a ++ "errno = ".toList ++ ds ++ b)
    (hds : ∀ d ∈ ds, d.isDigit = true) (hne : ds ≠ []) (hb : ∀ c ∈ b.head?, c.isDigit = false)
    (hfirst : ∀ a', NumberAfter a' e.msg → a.length ≤ a'.length) :
    h5pyErrno known e = some (Int.ofNat (Nat.ofDigitChars 10 ds 0)) := by
  have h1 : isKnown known e.errno = false := by
    cases h : e.errno with
    | none => rfl
    | some n => exact hk n h
  simp only [h5pyErrno, h1, Bool.false_eq_true, if_false]
  rw [hm] at hfirst ⊢
  rw [search_some a ds b hds hne hb hfirst]
  rfl

/-- … and without any number the text of the message decides. -/
theorem errno_message (known : Int → Bool) (e : IOErr) (hk : ∀ n, e.errno = some n → known n = false)
    (hn : ∀ a, ¬ NumberAfter a e.msg) :
    (Occurs "file signature not found".toList e.msg → h5pyErrno known e = some (-1)) ∧
    (¬ Occurs "file signature not found".toList e.msg →
      Occurs "unable to truncate a file which is already open".toList e.msg → h5pyErrno known e = some (-2)) ∧
    (¬ Occurs "file signature not found".toList e.msg →
      ¬ Occurs "unable to truncate a file which is already open".toList e.msg →
      Occurs "file exists".toList e.msg → h5pyErrno known e = some (-3)) ∧
    (¬ Occurs "file signature not found".toList e.msg →
      ¬ Occurs "unable to truncate a file which is already open".toList e.msg →
      ¬ Occurs "file exists".toList e.msg →
      Occurs "file is already open for read-only".toList e.msg → h5pyErrno known e = some (-4)) ∧
    (¬ Occurs "file signature not found".toList e.msg →
      ¬ Occurs "unable to truncate a file which is already open".toList e.msg →
      ¬ Occurs "file exists".toList e.msg →
      ¬ Occurs "file is already open for read-only".toList e.msg → h5pyErrno known e = e.errno) := by
  have h1 : isKnown known e.errno = false := by
    cases h : e.errno with
    | none => rfl
    | some n => exact hk n h
  simp only [← contains_iff, h5pyErrno, h1, Bool.false_eq_true, if_false, search_none _ hn]
  change (contains sigMsg e.msg = true → _) ∧ (¬ contains sigMsg e.msg = true → contains truncMsg e.msg = true → _) ∧
    (¬ contains sigMsg e.msg = true → ¬ contains truncMsg e.msg = true → contains existsMsg e.msg = true → _) ∧
    (¬ contains sigMsg e.msg = true → ¬ contains truncMsg e.msg = true → ¬ contains existsMsg e.msg = true →
      contains openMsg e.msg = true → _) ∧
    (¬ contains sigMsg e.msg = true → ¬ contains truncMsg e.msg = true → ¬ contains existsMsg e.msg = true →
      ¬ contains openMsg e.msg = true → _)
  refine ⟨?_, ?_, ?_, ?_, ?_⟩
  · intro h; rw [if_pos h]; rfl
  · intro h h2; rw [if_neg h, if_pos h2]; rfl
  · intro h h2 h3; rw [if_neg h, if_neg h2, if_pos h3]; rfl
  · intro h h2 h3 h4; rw [if_neg h, if_neg h2, if_neg h3, if_pos h4]; rfl
  · intro h h2 h3 h4; rw [if_neg h, if_neg h2, if_neg h3, if_neg h4]

/-! ## Examples -/

def kn : Int → Bool := fun e => e = 2 ∨ e = 11 ∨ e = 17 ∨ e = 21

def again : Out Nat := .err ⟨some 11, []⟩

/-- Two times in use, then opened. -/
example : openFile kn 25 .r (fun i => if i < 2 then again else .ok i) = ⟨.handle 2, 3, 2⟩ := by decide

/-- The message of HDF5, when Python has no number. -/
example : h5pyErrno kn ⟨none, "unable to open file (unable to lock file, errno = 11, x)".toList⟩ = some 11 := by
  decide

/-- The hypotheses of `errno_message` are met by such a message. -/
example : searchErrno "unable to open file (file is already open for read-only)".toList = none ∧
    contains "file is already open for read-only".toList
      "unable to open file (file is already open for read-only)".toList = true := by decide

example : h5pyErrno kn ⟨none, "unable to open file (file is already open for read-only)".toList⟩ = some (-4) := by
  decide

/-! ## What does not hold -/

/-- The error of the last attempt is not raised again: all information is replaced by `LockedError`. -/
theorem last_error_lost (known : Int → Bool) (retries : Nat) (mode : Mode) (outs : Nat → Out H)
    (h : ∀ j < retries, InUse known mode (outs j)) : (openFile known retries mode outs).res = .locked := by
  rcases open_spec known retries mode outs with ⟨k, hk, -, h2, -⟩ | ⟨-, h3⟩
  · exact absurd (h k hk) h2
  · rw [h3]

/-- Without retries the file is reported as locked without any attempt. -/
theorem no_retries (known : Int → Bool) (mode : Mode) (outs : Nat → Out H) :
    openFile known 0 mode outs = ⟨.locked, 0, 0⟩ := rfl

/-- The number is searched in the whole message, also in the name of the file. -/
theorem name_confuses :
    h5pyErrno kn ⟨none, "unable to open 'errno = 2.h5' (file is already open for read-only)".toList⟩ = some 2 := by
  decide

end SC.H5
