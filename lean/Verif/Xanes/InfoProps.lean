import Verif.Xanes.Props
/-! # C75: the list of XANES scans and their columns -/
namespace SC.Xanes

theorem chosen_iff (skip : List Nat) (a b : Option Nat) (k : Key) : chosen skip a b k = true ↔ Wanted skip a b k := by
  unfold chosen Wanted
  cases a <;> cases b <;> simp [and_assoc]

instance (skip : List Nat) (a b : Option Nat) (k : Key) : Decidable (Wanted skip a b k) :=
  decidable_of_iff _ (chosen_iff skip a b k)

/-- The scans that count, in the order of the file. -/
def relevant (skip : List Nat) (a b : Option Nat) (ks : List Key) : List Key :=
  ks.filter fun k => decide (Wanted skip a b k) && (kind k).isSome

/-- What one scan does. -/
theorem infoStep_kind (ret : List Item) (k : Key) : infoStep ret k = match kind k with
    | none => .ok ret
    | some .single => .ok (ret ++ [⟨k.number, 1⟩])
    | some .sum => (repeatsOf k.command).map fun n => ret ++ [⟨k.number, n⟩]
    | some .sum2 => (repeatsOf k.command).bind fun n =>
        if ret.isEmpty then .error .indexError else .ok (ret.dropLast ++ [⟨k.number, n⟩]) := by
  unfold infoStep kind
  simp only [List.isPrefixOf_iff_prefix]
  by_cases h0 : k.lines = 0
  · simp only [h0, if_true]
    split
    · rfl
    · split
      · rfl
      · split <;> rfl
  · simp only [h0, if_false]
    split
    · rfl
    · split
      · cases repeatsOf k.command <;> rfl
      · split
        · cases repeatsOf k.command <;> rfl
        · rfl

theorem infoLoop_relevant (skip : List Nat) (a b : Option Nat) (ks : List Key) (ret : List Item) :
    infoLoop skip a b ks ret = infoLoop skip a b (relevant skip a b ks) ret := by
  induction ks generalizing ret with
  | nil => rfl
  | cons k r ih =>
    unfold relevant
    rw [List.filter_cons]
    by_cases hw : Wanted skip a b k
    · have hc := (chosen_iff skip a b k).2 hw
      cases hk : kind k with
      | none =>
        simp only [Option.isSome_none, Bool.and_false, Bool.false_eq_true, if_false]
        rw [infoLoop, if_pos hc, infoStep_kind, hk]
        exact ih ret
      | some t =>
        simp only [hw, Option.isSome_some, decide_true, Bool.and_self, if_true]
        rw [infoLoop, if_pos hc, infoLoop, if_pos hc]
        cases infoStep ret k with
        | error e => rfl
        | ok ret' => exact ih ret'
    · have hc : ¬ chosen skip a b k = true := fun h => hw ((chosen_iff skip a b k).1 h)
      simp only [hw, decide_false, Bool.false_and, Bool.false_eq_true, if_false]
      rw [infoLoop, if_neg hc]
      exact ih ret

theorem relevant_chosen {skip : List Nat} {a b : Option Nat} {ks : List Key} {k : Key}
    (h : k ∈ relevant skip a b ks) : chosen skip a b k = true ∧ (kind k).isSome := by
  unfold relevant at h
  rw [List.mem_filter] at h
  have := h.2
  rw [Bool.and_eq_true, decide_eq_true_eq] at this
  exact ⟨(chosen_iff skip a b k).2 this.1, this.2⟩

/-- An element of the list and the scan it comes from. -/
def From (k : Key) (x : Item) : Prop := x.number = k.number ∧ Repeats k x.repeats

/-- The loop with a last element: every scan that does not replace pushes the one before to the result. -/
theorem loop_last (skip : List Nat) (a b : Option Nat) (l : List Key)
    (hl : ∀ k ∈ l, chosen skip a b k = true ∧ (kind k).isSome) (ret : List Item) (k : Key) (x : Item) (out : List Item)
    (hx : From k x) :
    infoLoop skip a b l (ret ++ [x]) = .ok out →
    ∃ r : List Item, out = ret ++ r ∧ List.Forall₂ From (unreplaced (k :: l)) r := by
  induction l generalizing ret k x with
  | nil =>
    intro h
    unfold infoLoop at h
    simp only [Except.ok.injEq] at h
    exact ⟨[x], h.symm, List.Forall₂.cons hx List.Forall₂.nil⟩
  | cons k' r ih =>
    intro h
    obtain ⟨hc, hs⟩ := hl k' (by simp)
    have hl' : ∀ k ∈ r, chosen skip a b k = true ∧ (kind k).isSome := fun k hk => hl k (by simp [hk])
    rw [infoLoop, if_pos hc, infoStep_kind] at h
    unfold unreplaced
    cases hk : kind k' with
    | none => rw [hk] at hs; simp at hs
    | some t =>
      rw [hk] at h
      cases t with
      | single =>
        simp only at h
        obtain ⟨r', h1, h2⟩ := ih hl' (ret ++ [x]) k' ⟨k'.number, 1⟩ ⟨rfl, Or.inl ⟨hk, rfl⟩⟩ h
        refine ⟨x :: r', by simp [h1], ?_⟩
        rw [if_neg (by simp)]
        exact List.Forall₂.cons hx h2
      | sum =>
        cases hr : repeatsOf k'.command with
        | error e => simp [hr, Except.map] at h
        | ok n =>
          simp only [hr, Except.map] at h
          obtain ⟨r', h1, h2⟩ := ih hl' (ret ++ [x]) k' ⟨k'.number, n⟩ ⟨rfl, Or.inr ⟨Or.inl hk, hr⟩⟩ h
          refine ⟨x :: r', by simp [h1], ?_⟩
          rw [if_neg (by simp)]
          exact List.Forall₂.cons hx h2
      | sum2 =>
        cases hr : repeatsOf k'.command with
        | error e => simp [hr, Except.bind] at h
        | ok n =>
          simp only [hr, Except.bind] at h
          rw [if_neg (by simp), List.dropLast_concat] at h
          obtain ⟨r', h1, h2⟩ := ih hl' ret k' ⟨k'.number, n⟩ ⟨rfl, Or.inr ⟨Or.inr hk, hr⟩⟩ h
          refine ⟨r', h1, ?_⟩
          rw [if_pos rfl]
          exact h2

/-- The list holds, in the order of the file, the scans with the right numbers, data and commands, each
with its repeats, except those directly followed by an interpolated sum. -/
theorem extractInfo_eq (skip : List Nat) (a b : Option Nat) (ks : List Key) (out : List Item)
    (h : extractInfo skip a b ks = .ok out) :
    List.Forall₂ From (unreplaced (relevant skip a b ks)) out := by
  unfold extractInfo at h
  rw [infoLoop_relevant] at h
  have hl : ∀ k ∈ relevant skip a b ks, chosen skip a b k = true ∧ (kind k).isSome := fun k hk => relevant_chosen hk
  generalize relevant skip a b ks = l at h hl
  cases l with
  | nil =>
    unfold infoLoop at h
    simp only [Except.ok.injEq] at h
    subst h
    exact List.Forall₂.nil
  | cons k r =>
    obtain ⟨hc, hs⟩ := hl k (by simp)
    have hl' : ∀ k ∈ r, chosen skip a b k = true ∧ (kind k).isSome := fun k hk => hl k (by simp [hk])
    rw [infoLoop, if_pos hc, infoStep_kind] at h
    cases hk : kind k with
    | none => rw [hk] at hs; simp at hs
    | some t =>
      rw [hk] at h
      cases t with
      | single =>
        simp only at h
        obtain ⟨r', h1, h2⟩ := loop_last skip a b r hl' [] k ⟨k.number, 1⟩ out ⟨rfl, Or.inl ⟨hk, rfl⟩⟩ h
        rw [h1]; exact h2
      | sum =>
        cases hr : repeatsOf k.command with
        | error e => simp [hr, Except.map] at h
        | ok n =>
          simp only [hr, Except.map] at h
          obtain ⟨r', h1, h2⟩ := loop_last skip a b r hl' [] k ⟨k.number, n⟩ out ⟨rfl, Or.inr ⟨Or.inl hk, hr⟩⟩ h
          rw [h1]; exact h2
      | sum2 =>
        cases hr : repeatsOf k.command with
        | error e => simp [hr, Except.bind] at h
        | ok n => simp [hr, Except.bind] at h

theorem loop_ok (skip : List Nat) (a b : Option Nat) (l : List Key)
    (hl : ∀ k ∈ l, chosen skip a b k = true ∧ (kind k).isSome) (ret : List Item) (hne : ret ≠ []) :
    (∃ out : List Item, infoLoop skip a b l ret = .ok out) ↔ ∀ k ∈ l, ∃ n : Nat, Repeats k n := by
  induction l generalizing ret with
  | nil => simp [infoLoop]
  | cons k r ih =>
    obtain ⟨hc, hs⟩ := hl k (by simp)
    have hl' : ∀ k ∈ r, chosen skip a b k = true ∧ (kind k).isSome := fun k hk => hl k (by simp [hk])
    rw [infoLoop, if_pos hc, infoStep_kind, List.forall_mem_cons]
    cases hk : kind k with
    | none => rw [hk] at hs; simp at hs
    | some t =>
      cases t with
      | single =>
        simp only
        rw [ih hl' _ (by simp)]
        have : ∃ n : Nat, Repeats k n := ⟨1, Or.inl ⟨hk, rfl⟩⟩
        simp [this]
      | sum =>
        cases hr : repeatsOf k.command with
        | error e => simp [Except.map, Repeats, hk, hr]
        | ok n =>
          simp only [Except.map]
          rw [ih hl' _ (by simp)]
          have : ∃ n : Nat, Repeats k n := ⟨n, Or.inr ⟨Or.inl hk, hr⟩⟩
          simp [this]
      | sum2 =>
        cases hr : repeatsOf k.command with
        | error e => simp [Except.bind, Repeats, hk, hr]
        | ok n =>
          simp only [Except.bind]
          rw [if_neg (by simpa using hne)]
          simp only
          rw [ih hl' _ (by simp)]
          have : ∃ n : Nat, Repeats k n := ⟨n, Or.inr ⟨Or.inr hk, hr⟩⟩
          simp [this]

/-- The list is made exactly when each command has its number of repeats and the first scan that counts
does not want to replace an earlier one. -/
theorem extractInfo_ok (skip : List Nat) (a b : Option Nat) (ks : List Key) :
    (∃ out : List Item, extractInfo skip a b ks = .ok out) ↔
      (∀ k ∈ relevant skip a b ks, ∃ n : Nat, Repeats k n) ∧
      ∀ k, (relevant skip a b ks).head? = some k → kind k ≠ some .sum2 := by
  unfold extractInfo
  rw [infoLoop_relevant]
  have hl : ∀ k ∈ relevant skip a b ks, chosen skip a b k = true ∧ (kind k).isSome := fun k hk => relevant_chosen hk
  generalize relevant skip a b ks = l at hl
  cases l with
  | nil => simp [infoLoop]
  | cons k r =>
    obtain ⟨hc, hs⟩ := hl k (by simp)
    have hl' : ∀ k ∈ r, chosen skip a b k = true ∧ (kind k).isSome := fun k hk => hl k (by simp [hk])
    rw [infoLoop, if_pos hc, infoStep_kind, List.forall_mem_cons]
    simp only [List.head?_cons, Option.some.injEq, forall_eq']
    cases hk : kind k with
    | none => rw [hk] at hs; simp at hs
    | some t =>
      cases t with
      | single =>
        simp only
        rw [loop_ok skip a b r hl' _ (by simp)]
        have : ∃ n : Nat, Repeats k n := ⟨1, Or.inl ⟨hk, rfl⟩⟩
        simp [this]
      | sum =>
        cases hr : repeatsOf k.command with
        | error e => simp [Except.map, Repeats, hk, hr]
        | ok n =>
          simp only [Except.map]
          rw [loop_ok skip a b r hl' _ (by simp)]
          have : ∃ n : Nat, Repeats k n := ⟨n, Or.inr ⟨Or.inl hk, hr⟩⟩
          simp [this]
      | sum2 =>
        cases hr : repeatsOf k.command with
        | error e => simp [Except.bind, hk]
        | ok n => simp [Except.bind, hk]

def k1 : Key := ⟨1, tLine ++ ['7'], 5⟩
def k2 : Key := ⟨2, tSum ++ ['1', '2', ' ', '7'], 5⟩
def k3 : Key := ⟨3, tSum2 ++ ['2'], 5⟩
def k4 : Key := ⟨4, tLine ++ ['7'], 0⟩

example : extractInfo [7] (some 1) (some 9) [k1, k2, k4, k3] = .ok [⟨1, 1⟩, ⟨3, 2⟩] := rfl
example : extractInfo [] none none [k1, k2] = .ok [⟨1, 1⟩, ⟨2, 12⟩] := rfl
example : unreplaced (relevant [7] (some 1) (some 9) [k1, k2, k4, k3]) = [k1, k3] := rfl

/-- Not so: an interpolated sum as first scan of the wanted range fails with an IndexError. -/
theorem extractInfo_first_fails : extractInfo [] (some 3) none [k1, k2, k3] = .error .indexError := rfl

/-- Not so: when the sum it belongs to was skipped, an interpolated sum removes another scan. -/
theorem extractInfo_removes : extractInfo [2] none none [k1, k2, k3] = .ok [⟨3, 2⟩] := rfl

/-! ## Columns -/

/-- What a scan number gives. -/
def Stored {β γ : Type} (f : File β γ) (labels : List Str) (n : Nat) (e : Entry β γ) : Prop :=
  ∃ k : Key, f.key n = some k ∧ k.lines ≠ 0 ∧ e.data = f.columns n labels ∧ e.time = (f.parse k.command).2 ∧
    e.labels = labels.map (fun s => f.label s n) ∧
    ((tLine' <+: k.command ∧ (f.parse k.command).1 = tZapline ∧ e.repeats = 1) ∨
     (tSum' <+: k.command ∧ (f.parse k.command).1 = tZapenergy ∧ repeatsOf k.command = .ok e.repeats))

theorem look_put {α : Type} (l : List (Nat × α)) (k n : Nat) (v : α) :
    look (put l k v) n = if k = n then some v else look l n := by
  induction l with
  | nil => simp [put, look]
  | cons x r ih =>
    obtain ⟨k', v'⟩ := x
    unfold put
    by_cases h : k' = k
    · subst h
      simp only [if_true, look]
      by_cases hn : k' = n <;> simp [hn]
    · simp only [h, if_false, look, ih]
      by_cases hn : k' = n
      · subst hn
        have : ¬ k = k' := fun e => h e.symm
        simp [this]
      · simp [hn]

/-- A line and a sum are different commands. -/
theorem not_both (s : Str) (h : tLine' <+: s) : ¬ tSum' <+: s := by
  rintro ⟨b, hb⟩
  obtain ⟨a, ha⟩ := h
  rw [← ha] at hb
  simp [tLine', tSum'] at hb

theorem xanesStep_look {β γ : Type} (f : File β γ) (labels : List Str) (ret out : List (Nat × Entry β γ)) (n : Nat)
    (h : xanesStep f labels ret n = .ok out) (i : Nat) (e : Entry β γ) :
    look out i = some e ↔ (i = n ∧ Stored f labels n e) ∨
      ((i ≠ n ∨ ¬ ∃ e' : Entry β γ, Stored f labels n e') ∧ look ret i = some e) := by
  unfold xanesStep at h
  cases hk : f.key n with
  | none => simp [hk] at h
  | some k =>
    simp only [hk, List.isPrefixOf_iff_prefix] at h
    have hst : ∀ (r : Nat), k.lines ≠ 0 →
        ((tLine' <+: k.command ∧ (f.parse k.command).1 = tZapline ∧ r = 1) ∨
         (tSum' <+: k.command ∧ (f.parse k.command).1 = tZapenergy ∧ repeatsOf k.command = .ok r)) →
        ∀ e' : Entry β γ, Stored f labels n e' ↔ (⟨r, f.columns n labels, (f.parse k.command).2, labels.map fun s => f.label s n⟩ : Entry β γ) = e' := by
      intro r hl hr e'
      constructor
      · rintro ⟨k', hk', _, h1, h2, h3, h4⟩
        rw [hk] at hk'
        simp only [Option.some.injEq] at hk'
        subst hk'
        have : r = e'.repeats := by
          rcases hr with ⟨a1, a2, a3⟩ | ⟨a1, a2, a3⟩
          · rcases h4 with ⟨b1, b2, b3⟩ | ⟨b1, b2, b3⟩
            · omega
            · exact absurd b1 (not_both _ a1)
          · rcases h4 with ⟨b1, b2, b3⟩ | ⟨b1, b2, b3⟩
            · exact absurd a1 (not_both _ b1)
            · rw [a3] at b3
              simpa using b3
        cases e'
        simp_all
      · rintro rfl
        exact ⟨k, hk, hl, rfl, rfl, rfl, hr⟩
    have put_case : ∀ (r : Nat), k.lines ≠ 0 →
        ((tLine' <+: k.command ∧ (f.parse k.command).1 = tZapline ∧ r = 1) ∨
         (tSum' <+: k.command ∧ (f.parse k.command).1 = tZapenergy ∧ repeatsOf k.command = .ok r)) →
        out = put ret n ⟨r, f.columns n labels, (f.parse k.command).2, labels.map fun s => f.label s n⟩ →
        (look out i = some e ↔ (i = n ∧ Stored f labels n e) ∨
          ((i ≠ n ∨ ¬ ∃ e' : Entry β γ, Stored f labels n e') ∧ look ret i = some e)) := by
      intro r hl hr ho
      have hex : ∃ e' : Entry β γ, Stored f labels n e' := ⟨_, (hst r hl hr _).2 rfl⟩
      rw [ho, look_put, hst r hl hr e]
      by_cases hin : n = i
      · subst hin; simp [hex]
      · have : i ≠ n := fun e => hin e.symm
        simp [hin, this]
    have skip_case : (∀ e' : Entry β γ, ¬ Stored f labels n e') → out = ret →
        (look out i = some e ↔ (i = n ∧ Stored f labels n e) ∨
          ((i ≠ n ∨ ¬ ∃ e' : Entry β γ, Stored f labels n e') ∧ look ret i = some e)) := by
      intro hn ho
      subst ho
      have : ¬ ∃ e' : Entry β γ, Stored f labels n e' := fun ⟨e', he⟩ => hn e' he
      simp [this, hn e]
    have inv : ∀ e' : Entry β γ, Stored f labels n e' → k.lines ≠ 0 ∧
        ((tLine' <+: k.command ∧ (f.parse k.command).1 = tZapline) ∨ (tSum' <+: k.command ∧ (f.parse k.command).1 = tZapenergy)) := by
      rintro e' ⟨k', hk', h0, _, _, _, h4⟩
      rw [hk] at hk'
      simp only [Option.some.injEq] at hk'
      subst hk'
      refine ⟨h0, ?_⟩
      rcases h4 with ⟨b1, b2, _⟩ | ⟨b1, b2, _⟩
      · exact Or.inl ⟨b1, b2⟩
      · exact Or.inr ⟨b1, b2⟩
    split at h
    · rename_i hp
      split at h
      · rename_i hn
        simp only [Except.ok.injEq] at h
        refine skip_case ?_ h.symm
        intro e' he
        obtain ⟨h0, h1 | h1⟩ := inv e' he
        · rcases hn with hn | hn
          · exact hn h1.2
          · exact h0 hn
        · exact not_both _ hp h1.1
      · rename_i hn
        rw [not_or, not_not] at hn
        simp only [Except.ok.injEq] at h
        exact put_case 1 hn.2 (Or.inl ⟨hp, hn.1, rfl⟩) h.symm
    · rename_i hp
      split at h
      · rename_i hp2
        split at h
        · rename_i hn
          simp only [Except.ok.injEq] at h
          refine skip_case ?_ h.symm
          intro e' he
          obtain ⟨h0, h1 | h1⟩ := inv e' he
          · exact hp h1.1
          · rcases hn with hn | hn
            · exact hn h1.2
            · exact h0 hn
        · rename_i hn
          rw [not_or, not_not] at hn
          cases hr : repeatsOf k.command with
          | error e => simp [hr] at h
          | ok r =>
            simp only [hr, Except.ok.injEq] at h
            exact put_case r hn.2 (Or.inr ⟨hp2, hn.1, hr⟩) h.symm
      · rename_i hp2
        simp only [Except.ok.injEq] at h
        refine skip_case ?_ h.symm
        intro e' he
        obtain ⟨h0, h1 | h1⟩ := inv e' he
        · exact hp h1.1
        · exact hp2 h1.1

/-- For every list of scan numbers, with repetitions or not: a number is a key of the result exactly when
it was asked for and its scan has data and a fitting command; the value has the columns, time, repeats and
labels of that scan. -/
theorem extractXanes_look {β γ : Type} (f : File β γ) (labels : List Str) (ns : List Nat) (ret out : List (Nat × Entry β γ))
    (h : extractXanes f labels ns ret = .ok out) (i : Nat) (e : Entry β γ) :
    look out i = some e ↔ (i ∈ ns ∧ Stored f labels i e) ∨
      ((i ∉ ns ∨ ¬ ∃ e' : Entry β γ, Stored f labels i e') ∧ look ret i = some e) := by
  induction ns generalizing ret with
  | nil =>
    unfold extractXanes at h
    simp only [Except.ok.injEq] at h
    subst h
    simp
  | cons n r ih =>
    unfold extractXanes at h
    cases hs : xanesStep f labels ret n with
    | error e => simp [hs] at h
    | ok ret' =>
      simp only [hs] at h
      rw [ih ret' h, xanesStep_look f labels ret ret' n hs i e]
      simp only [List.mem_cons]
      by_cases hin : i = n
      · subst hin
        by_cases hr : i ∈ r
        · by_cases hex : ∃ e' : Entry β γ, Stored f labels i e'
          · simp [hr, hex]
          · have : ¬ Stored f labels i e := fun hh => hex ⟨e, hh⟩
            simp [hr, hex, this]
        · simp [hr]
      · by_cases hr : i ∈ r
        · simp [hr, hin]
        · simp [hr, hin]

/-- From an empty dictionary. -/
theorem extractXanes_spec {β γ : Type} (f : File β γ) (labels : List Str) (ns : List Nat) (out : List (Nat × Entry β γ))
    (h : extractXanes f labels ns [] = .ok out) (i : Nat) (e : Entry β γ) :
    look out i = some e ↔ i ∈ ns ∧ Stored f labels i e := by
  rw [extractXanes_look f labels ns [] out h]
  simp [look]

def file1 : File Nat Nat := ⟨fun n => if n = 1 then some k1 else if n = 2 then some k2 else none,
  fun s => (s.takeWhile (· ≠ ' '), 5), fun n l => n + l.length, fun s n => s ++ (if n = 1 then ['1'] else ['2'])⟩

example : ∃ out : List (Nat × Entry Nat Nat), extractXanes file1 [['a']] [1, 2, 1] [] = .ok out ∧ out.map (·.1) = [1, 2] ∧
    out.map (fun x => x.2.repeats) = [1, 12] ∧ out.map (fun x => x.2.labels) = [[['a', '1']], [['a', '2']]] :=
  ⟨_, rfl, rfl, rfl, rfl⟩

end SC.Xanes
