import Verif.Cache.Model
/-! # C07: `LimitedSizeDict` (utils/cache.py 6-19)

Specification, independent of the model: a FIFO queue of keys with a capacity, and "the last value
written for a key in the history". -/
namespace SC.Cache

set_option linter.unusedSectionVars false
section
variable {κ β : Type} [DecidableEq κ]

/-- The last `n` entries (all of them for `none`). -/
def lastN {α : Type} (n : Option Nat) (l : List α) : List α :=
  match n with
  | none => l
  | some n => l.drop (l.length - n)

/-- Specification queue: a new key joins at the back and the oldest keys leave when the capacity
is exceeded; writing a held key leaves the queue alone; deleting removes the key. -/
def queueStep (cap : Option Nat) (q : List κ) : DOp κ β → List κ
  | .set k _ => if k ∈ q then q else lastN cap (q ++ [k])
  | .del k => q.filter (fun x => !decide (x = k))

def queue (cap : Option Nat) (ops : List (DOp κ β)) : List κ := ops.foldl (queueStep cap) []

/-- Specification: last value written for `k` in the history. -/
def lastSet (ops : List (DOp κ β)) (k : κ) : Option β :=
  ops.foldl (fun acc op => match op with
    | .set k' v => if k' = k then some v else acc
    | .del _ => acc) none

/-- Python view of a `size_limit` given as a natural number or `None`. -/
def toLimit : Option Nat → Option Int
  | none => none
  | some n => some (n : Int)

/-- All operations of a history, from the empty dictionary. -/
def runD (cap : Option Nat) (ops : List (DOp κ β)) : LDict κ β :=
  ops.foldl LDict.step ⟨toLimit cap, []⟩

/-! ### lemmas -/

theorem lastN_of_le {α : Type} (n : Nat) (l : List α) (h : l.length ≤ n) : lastN (some n) l = l := by
  simp [lastN, Nat.sub_eq_zero_of_le h]

theorem checkLimit_ok (cap : Option Nat) (l : Items κ β) :
    checkLimit (toLimit cap) l = .ok (lastN cap l) := by
  cases cap with
  | none => cases l <;> rfl
  | some n =>
    induction l with
    | nil =>
      simp only [toLimit, checkLimit, lastN]
      rw [if_neg (by omega)]; simp
    | cons p l ih =>
      simp only [toLimit] at ih
      simp only [toLimit, checkLimit]
      by_cases h : l.length + 1 > n
      · rw [if_pos (by simp only [List.length_cons]; omega), ih]
        simp only [lastN, List.length_cons]
        rw [show l.length + 1 - n = (l.length - n) + 1 by omega, List.drop_succ_cons]
      · rw [if_neg (by simp only [List.length_cons]; omega), lastN_of_le n (p :: l) (by simp; omega)]

theorem Items.keys_set (l : Items κ β) (k : κ) (v : β) :
    (l.set k v).map Prod.fst = if k ∈ l.map Prod.fst then l.map Prod.fst else l.map Prod.fst ++ [k] := by
  induction l with
  | nil => simp [Items.set]
  | cons p l ih =>
    obtain ⟨k', v'⟩ := p
    by_cases h : k' = k
    · subst h; simp [Items.set]
    · have h' : ¬ k = k' := fun e => h e.symm
      simp only [Items.set, h, if_false, List.map_cons, ih, List.mem_cons, h', false_or]
      split <;> simp

theorem Items.get?_set (l : Items κ β) (k x : κ) (v : β) :
    (l.set k v).get? x = if k = x then some v else l.get? x := by
  induction l with
  | nil => simp [Items.set, Items.get?]
  | cons p l ih =>
    obtain ⟨k', v'⟩ := p
    by_cases h : k' = k
    · subst h; by_cases hx : k' = x <;> simp [Items.set, Items.get?, hx]
    · simp only [Items.set, h, if_false, Items.get?, ih]
      by_cases hx : k = x
      · subst hx; simp [h]
      · simp [hx]

theorem Items.get?_none (l : Items κ β) (k : κ) (h : k ∉ l.map Prod.fst) : l.get? k = none := by
  induction l with
  | nil => rfl
  | cons p l ih =>
    obtain ⟨k', v'⟩ := p
    simp only [List.map_cons, List.mem_cons, not_or] at h
    simp [Items.get?, Ne.symm h.1, ih h.2]

theorem Items.get?_isSome (l : Items κ β) (k : κ) : (l.get? k).isSome ↔ k ∈ l.map Prod.fst := by
  induction l with
  | nil => simp [Items.get?]
  | cons p l ih =>
    obtain ⟨k', v'⟩ := p
    by_cases h : k' = k
    · simp [Items.get?, h]
    · have h' : ¬ k = k' := fun e => h e.symm
      simp only [Items.get?, h, if_false, List.map_cons, List.mem_cons, h', false_or, ih]

theorem Items.get?_drop (l : Items κ β) (hnd : (l.map Prod.fst).Nodup) (n : Nat) (k : κ)
    (hk : k ∈ (l.drop n).map Prod.fst) : (Items.get? (l.drop n) k) = l.get? k := by
  induction l generalizing n with
  | nil => simp at hk
  | cons p l ih =>
    obtain ⟨k', v'⟩ := p
    cases n with
    | zero => rfl
    | succ n =>
      simp only [List.map_cons, List.nodup_cons] at hnd
      simp only [List.drop_succ_cons] at hk ⊢
      have : k ∈ l.map Prod.fst := by
        rw [List.map_drop] at hk
        exact List.mem_of_mem_drop hk
      have hne : ¬ k' = k := fun e => hnd.1 (e ▸ this)
      rw [ih hnd.2 n hk]; simp [Items.get?, hne]

theorem Items.keys_erase (l : Items κ β) (hnd : (l.map Prod.fst).Nodup) (k : κ) :
    (l.erase k).map Prod.fst = (l.map Prod.fst).filter (fun x => !decide (x = k)) := by
  induction l with
  | nil => rfl
  | cons p l ih =>
    obtain ⟨k', v'⟩ := p
    simp only [List.map_cons, List.nodup_cons] at hnd
    by_cases h : k' = k
    · subst h
      simp only [Items.erase, if_true, List.map_cons, List.filter_cons, decide_true, Bool.not_true,
        Bool.false_eq_true, if_false]
      rw [List.filter_eq_self.mpr]
      intro a ha
      have : ¬ a = k' := fun e => hnd.1 (e ▸ ha)
      simp [this]
    · simp only [Items.erase, h, if_false, List.map_cons, ih hnd.2, List.filter_cons, decide_false,
        Bool.not_false, if_true]

theorem Items.get?_erase (l : Items κ β) (k x : κ) (hx : x ≠ k) : (l.erase k).get? x = l.get? x := by
  induction l with
  | nil => rfl
  | cons p l ih =>
    obtain ⟨k', v'⟩ := p
    by_cases h : k' = k
    · subst h; simp [Items.erase, Items.get?, Ne.symm hx]
    · simp only [Items.erase, h, if_false, Items.get?, ih]

theorem queueStep_nodup (cap : Option Nat) (q : List κ) (op : DOp κ β) (h : q.Nodup) :
    (queueStep cap q op).Nodup := by
  cases op with
  | set k v =>
    simp only [queueStep]
    split
    · exact h
    · next hk =>
      have : (q ++ [k]).Nodup := by
        rw [List.nodup_append]
        exact ⟨h, by simp, fun a ha b hb => by simp at hb; subst hb; rintro rfl; exact hk ha⟩
      cases cap with
      | none => exact this
      | some n => exact this.sublist (List.drop_sublist _ _)
  | del k => exact h.sublist List.filter_sublist

/-- One-step refinement. -/
theorem step_refines (cap : Option Nat) (d : LDict κ β) (q : List κ) (last : κ → Option β)
    (op : DOp κ β) (hl : d.limit = toLimit cap) (hq : q.Nodup) (hk : d.items.map Prod.fst = q)
    (hcap : ∀ n, cap = some n → q.length ≤ n)
    (hv : ∀ k ∈ q, d.items.get? k = last k) :
    (d.step op).limit = toLimit cap ∧ (d.step op).items.map Prod.fst = queueStep cap q op ∧
    (∀ n, cap = some n → (queueStep cap q op).length ≤ n) ∧
    ∀ k ∈ queueStep cap q op, (d.step op).items.get? k =
      (match op with | .set k' v => if k' = k then some v else last k | .del _ => last k) := by
  cases op with
  | set k v =>
    have hset : d.step (.set k v) = { d with items := lastN cap (d.items.set k v) } := by
      simp only [LDict.step, LDict.set, hl, checkLimit_ok, Except.map]
    have hkeys := Items.keys_set d.items k v
    rw [hk] at hkeys
    have hlast : (lastN cap (d.items.set k v)).map Prod.fst = lastN cap ((d.items.set k v).map Prod.fst) := by
      cases cap with
      | none => rfl
      | some n => simp [lastN, List.map_drop]
    have hstep : lastN cap (if k ∈ q then q else q ++ [k]) = queueStep cap q (DOp.set k v) := by
      simp only [queueStep]
      split
      · cases cap with
        | none => rfl
        | some n => exact lastN_of_le n q (hcap n rfl)
      · rfl
    rw [hset]
    refine ⟨hl, by rw [hlast, hkeys, hstep], ?_, ?_⟩
    · rintro n rfl
      rw [← hstep]
      simp only [lastN, List.length_drop]; omega
    · intro x hx
      have hnd : ((d.items.set k v).map Prod.fst).Nodup := by
        rw [hkeys]; split
        · exact hq
        · next hkq =>
          rw [List.nodup_append]
          exact ⟨hq, by simp, fun a ha b hb => by simp at hb; subst hb; rintro rfl; exact hkq ha⟩
      have hmem : x ∈ (lastN cap (d.items.set k v)).map Prod.fst := by
        rw [hlast, hkeys, hstep]; exact hx
      have hget : Items.get? (lastN cap (d.items.set k v)) x = (d.items.set k v).get? x := by
        cases cap with
        | none => rfl
        | some n => exact Items.get?_drop _ hnd _ x hmem
      simp only [hget, Items.get?_set]
      by_cases e : k = x
      · simp [e]
      · simp only [e, if_false]
        apply hv
        rw [hlast, hkeys] at hmem
        have hmem' : x ∈ (if k ∈ q then q else q ++ [k]) := by
          cases cap with
          | none => exact hmem
          | some n => exact List.mem_of_mem_drop hmem
        split at hmem'
        · exact hmem'
        · rcases List.mem_append.mp hmem' with h | h
          · exact h
          · simp at h; exact absurd h.symm e
  | del k =>
    simp only [LDict.step, queueStep]
    refine ⟨hl, ?_, ?_, ?_⟩
    · rw [Items.keys_erase _ (by rw [hk]; exact hq), hk]
    · intro n hn; exact Nat.le_trans (List.length_filter_le _ _) (hcap n hn)
    · intro x hx
      obtain ⟨h1, h2⟩ := List.mem_filter.mp hx
      simp at h2
      rw [Items.get?_erase _ _ _ h2]; exact hv x h1

/-- The refinement along a whole history. -/
theorem run_refines (cap : Option Nat) (ops : List (DOp κ β)) :
    (runD cap ops).limit = toLimit cap ∧ (queue cap ops).Nodup ∧
    (runD cap ops).items.map Prod.fst = queue cap ops ∧
    (∀ n, cap = some n → (queue cap ops).length ≤ n) ∧
    ∀ k ∈ queue cap ops, (runD cap ops).items.get? k = lastSet ops k := by
  have gen : ∀ (ops : List (DOp κ β)) (d : LDict κ β) (q : List κ) (last : κ → Option β),
      d.limit = toLimit cap → q.Nodup → d.items.map Prod.fst = q →
      (∀ n, cap = some n → q.length ≤ n) → (∀ k ∈ q, d.items.get? k = last k) →
      (ops.foldl LDict.step d).limit = toLimit cap ∧ (ops.foldl (queueStep cap) q).Nodup ∧
      (ops.foldl LDict.step d).items.map Prod.fst = ops.foldl (queueStep cap) q ∧
      (∀ n, cap = some n → (ops.foldl (queueStep cap) q).length ≤ n) ∧
      ∀ k ∈ ops.foldl (queueStep cap) q, (ops.foldl LDict.step d).items.get? k =
        ops.foldl (fun acc op => match op with
          | .set k' v => if k' = k then some v else acc
          | .del _ => acc) (last k) := by
    intro ops
    induction ops with
    | nil => intro d q last h1 h2 h3 h4 h5; exact ⟨h1, h2, h3, h4, h5⟩
    | cons op ops ih =>
      intro d q last h1 h2 h3 h4 h5
      have hr := step_refines cap d q last op h1 h2 h3 h4 h5
      have := ih (d.step op) (queueStep cap q op)
        (fun k => (fun op => match op with
          | DOp.set k' v => if k' = k then some v else last k
          | .del _ => last k) op)
        hr.1 (queueStep_nodup cap q op h2) hr.2.1 hr.2.2.1 hr.2.2.2
      exact this
  exact gen ops ⟨toLimit cap, []⟩ [] (fun _ => none) rfl List.nodup_nil rfl
    (fun n _ => by simp) (fun k hk => by simp at hk)

/-! ### the properties -/

/-- **C07 (size and uniqueness).** After every history of writes and deletes the dictionary holds at
most `size_limit` entries and no key twice. -/
theorem ldict_bounded (n : Nat) (ops : List (DOp κ β)) :
    (runD (some n) ops).items.length ≤ n ∧ ((runD (some n) ops).items.map Prod.fst).Nodup := by
  obtain ⟨_, h2, h3, h4, _⟩ := run_refines (some n) ops
  refine ⟨?_, by rw [h3]; exact h2⟩
  have := h4 n rfl
  rw [← h3] at this; simpa using this

/-- **C07 (which keys survive).** The held keys, oldest first, are those of a FIFO queue of the
given capacity. -/
theorem ldict_fifo (cap : Option Nat) (ops : List (DOp κ β)) :
    (runD cap ops).items.map Prod.fst = queue cap ops := (run_refines cap ops).2.2.1

/-- **C07 (reads).** A read returns the last value written for the key when the key is held, and
nothing otherwise. -/
theorem ldict_read (cap : Option Nat) (ops : List (DOp κ β)) (k : κ) :
    (runD cap ops).items.get? k = if k ∈ queue cap ops then lastSet ops k else none := by
  obtain ⟨_, _, h3, _, h5⟩ := run_refines cap ops
  split
  · next h => exact h5 k h
  · next h => exact Items.get?_none _ _ (by rw [h3]; exact h)

/-- **C07 (plain insertion histories).** Writing pairwise distinct keys leaves exactly the last
`size_limit` pairs, in order. -/
theorem ldict_window (n : Nat) (l : List (κ × β)) (hnd : (l.map Prod.fst).Nodup) :
    (runD (some n) (l.map (fun p => DOp.set p.1 p.2))).items = l.drop (l.length - n) := by
  have gen : ∀ (l : List (κ × β)) (d : Items κ β), ((d ++ l).map Prod.fst).Nodup → d.length ≤ n →
      ((l.map (fun p => DOp.set p.1 p.2)).foldl LDict.step ⟨some (n : Int), d⟩).items
        = (d ++ l).drop ((d ++ l).length - n) := by
    intro l
    induction l with
    | nil => intro d _ hd; simp [Nat.sub_eq_zero_of_le hd]
    | cons p l ih =>
      intro d hnd hd
      obtain ⟨k, v⟩ := p
      have hk : k ∉ d.map Prod.fst := by
        intro h
        rw [List.map_append, List.nodup_append] at hnd
        exact hnd.2.2 k h k (by simp) rfl
      have hset : ∀ d : Items κ β, k ∉ d.map Prod.fst → d.set k v = d ++ [(k, v)] := by
        intro d
        induction d with
        | nil => intro _; rfl
        | cons q d ihd =>
          obtain ⟨k', v'⟩ := q
          intro h
          simp only [List.map_cons, List.mem_cons, not_or] at h
          simp [Items.set, Ne.symm h.1, ihd h.2]
      have hstep : LDict.step ⟨some (n : Int), d⟩ (DOp.set k v) =
          ⟨some (n : Int), lastN (some n) (d ++ [(k, v)])⟩ := by
        have := checkLimit_ok (some n) (d.set k v)
        simp only [toLimit] at this
        simp only [LDict.step, LDict.set, this, Except.map]
        rw [hset d hk]
      rw [List.map_cons, List.foldl_cons, hstep]
      have hsub : (lastN (some n) (d ++ [(k, v)]) ++ l) =
          (d ++ (k, v) :: l).drop (d.length + 1 - n) := by
        simp only [lastN, List.length_append, List.length_singleton]
        rw [show d ++ (k, v) :: l = (d ++ [(k, v)]) ++ l by simp,
          List.drop_append_of_le_length (l₁ := d ++ [(k, v)]) (by simp)]
      rw [ih]
      · rw [hsub, List.drop_drop, List.length_drop]
        congr 1
        simp only [List.length_append, List.length_cons]; omega
      · rw [hsub, List.map_drop]; exact hnd.sublist (List.drop_sublist _ _)
      · simp only [lastN, List.length_drop, List.length_append, List.length_singleton]; omega
  have := gen l [] (by simpa using hnd) (by simp)
  simpa [runD, toLimit] using this

/-- **C07 (constructor).** Constructing with initial pairs is the same as inserting them one by one. -/
theorem ldict_init (cap : Option Nat) (l : List (κ × β)) :
    LDict.init (toLimit cap) l = .ok (runD cap (l.map (fun p => DOp.set p.1 p.2))) := by
  have gen : ∀ (l : List (κ × β)) (d : LDict κ β), d.limit = toLimit cap →
      l.foldlM (fun (d : LDict κ β) p => d.set p.1 p.2) d =
        (.ok ((l.map (fun p => DOp.set p.1 p.2)).foldl LDict.step d) : Except DErr _) := by
    intro l
    induction l with
    | nil => intro d _; rfl
    | cons p l ih =>
      intro d hd
      have hset : d.set p.1 p.2 = .ok (d.step (.set p.1 p.2)) := by
        simp only [LDict.step, LDict.set, hd, checkLimit_ok, Except.map]
      rw [List.foldlM_cons, hset]
      show l.foldlM _ (d.step (.set p.1 p.2)) = _
      rw [ih _ (by simp only [LDict.step, LDict.set, hd, checkLimit_ok, Except.map])]
      rfl
  obtain ⟨h1, _, h3, h4, _⟩ := run_refines cap (l.map (fun p => DOp.set p.1 p.2))
  unfold LDict.init
  rw [gen l _ rfl]
  show (checkLimit (runD cap _).limit (runD cap _).items).map _ = _
  rw [h1, checkLimit_ok]
  have : lastN cap (runD cap (l.map (fun p => DOp.set p.1 p.2))).items =
      (runD cap (l.map (fun p => DOp.set p.1 p.2))).items := by
    cases cap with
    | none => rfl
    | some n =>
      apply lastN_of_le
      have := h4 n rfl
      rw [← h3] at this; simpa using this
  rw [this]; rfl

/-- **C07 (negative limit).** With a negative limit every write raises `KeyError` (popitem on the
emptied dictionary), whatever the content. -/
theorem ldict_negative_limit (n : Int) (hn : n < 0) (d : Items κ β) (k : κ) (v : β) :
    (LDict.set ⟨some n, d⟩ k v).toOption = none := by
  have : ∀ l : Items κ β, checkLimit (some n) l = .error .keyError := by
    intro l
    induction l with
    | nil => simp [checkLimit]; omega
    | cons p l ih => simp only [checkLimit]; rw [if_pos (by simp only [List.length_cons]; omega), ih]
  simp [LDict.set, this, Except.map, Except.toOption]

end

example : (runD (some 2) [.set 1 "a", .set 2 "b", .set 1 "c", .set 3 "d", .del 3, .set 1 "e"]).items
    = [(2, "b"), (1, "e")] := by decide
example : queue (β := String) (some 2) [.set 1 "a", .set 2 "b", .set 1 "c", .set 3 "d"] = [2, 3] := by decide

end SC.Cache
