import Verif.Paths.Lemmas2
/-! # Lemmas on splitting off the device -/

namespace SC.Paths

theorem longest_sound {s x r : Str} (h : longest s = some (x, r)) : s = x ++ devsep ++ r ∧ '/' ∉ x := by
  induction s generalizing x r with
  | nil => simp [longest] at h
  | cons c s ih =>
    unfold longest at h
    split at h
    · simp at h
    · rename_i hc
      split at h
      · rename_i y r' hy
        simp only [Option.some.injEq, Prod.mk.injEq] at h
        obtain ⟨rfl, rfl⟩ := h
        obtain ⟨h1, h2⟩ := ih hy
        refine ⟨by rw [h1]; simp, ?_⟩
        simp only [List.mem_cons, not_or]
        exact ⟨fun e => hc e.symm, h2⟩
      · split at h
        · rename_i hp
          simp only [Option.some.injEq, Prod.mk.injEq] at h
          obtain ⟨rfl, rfl⟩ := h
          obtain ⟨t, ht⟩ := List.isPrefixOf_iff_prefix.1 hp
          refine ⟨?_, by simp⟩
          rw [← ht]
          rfl
        · simp at h

theorem longest_complete (x r : Str) (hx : '/' ∉ x) : longest (x ++ devsep ++ r) ≠ none := by
  induction x with
  | nil =>
    show longest (':' :: ':' :: r) ≠ none
    unfold longest
    rw [if_neg (by decide)]
    split
    · simp
    · simp [devsep]
  | cons c x ih =>
    simp only [List.mem_cons, not_or] at hx
    show longest (c :: (x ++ devsep ++ r)) ≠ none
    unfold longest
    rw [if_neg (fun e => hx.1 e.symm)]
    split
    · simp
    · rename_i h
      exact absurd h (ih hx.2)

theorem longest_file (x t : Str) (hx : '/' ∉ x) (hx' : ':' ∉ x) :
    longest (x ++ devsep ++ '/' :: t) = some (x, '/' :: t) := by
  induction x with
  | nil => simp [devsep, longest]
  | cons c x ih =>
    simp only [List.mem_cons, not_or] at hx hx'
    show longest (c :: (x ++ devsep ++ '/' :: t)) = _
    unfold longest
    rw [if_neg (fun e => hx.1 e.symm), ih hx.2 hx'.2]

theorem longest_slash (y z : Str) (h : '/' ∈ y) (h' : ':' ∉ y) : longest (y ++ z) = none := by
  induction y with
  | nil => simp at h
  | cons c y ih =>
    rw [List.cons_append]
    unfold longest
    split
    · rfl
    · rename_i hc
      simp only [List.mem_cons, not_or] at h h'
      rcases h with h | h
      · exact absurd h.symm hc
      · rw [ih h h'.2]
        dsimp only
        rw [if_neg]
        intro hp
        obtain ⟨t, ht⟩ := List.isPrefixOf_iff_prefix.1 hp
        have := (List.cons.inj ht).1
        exact h'.1 this

theorem deviceMatch_dot (c : Char) (s : Str) :
    deviceMatch ('.' :: c :: s) = if c = '/' then none else (longest s).map fun x => ('.' :: c :: x.1, x.2) := rfl

theorem deviceMatch_sound {s x r : Str} (h : deviceMatch s = some (x, r)) :
    s = x ++ devsep ++ r ∧ ∃ y, x = '.' :: y ∧ y ≠ [] ∧ '/' ∉ y := by
  unfold deviceMatch at h
  split at h
  · rename_i c s
    split at h
    · simp at h
    · rename_i hc
      rw [Option.map_eq_some_iff] at h
      obtain ⟨⟨y, r'⟩, hy, he⟩ := h
      simp only [Prod.mk.injEq] at he
      obtain ⟨rfl, rfl⟩ := he
      obtain ⟨h1, h2⟩ := longest_sound hy
      refine ⟨by rw [h1]; simp, c :: y, rfl, by simp, ?_⟩
      simp only [List.mem_cons, not_or]
      exact ⟨fun e => hc e.symm, h2⟩
  · simp at h

theorem deviceMatch_complete (x r : Str) (hx : x ≠ []) (hx' : '/' ∉ x) : deviceMatch ('.' :: x ++ devsep ++ r) ≠ none := by
  rcases x with _ | ⟨c, x⟩
  · exact absurd rfl hx
  · simp only [List.mem_cons, not_or] at hx'
    show deviceMatch ('.' :: c :: (x ++ devsep ++ r)) ≠ none
    rw [deviceMatch_dot, if_neg (fun e => hx'.1 e.symm)]
    have := longest_complete x r hx'.2
    simpa using this

theorem devsplitN_fuel (n m : Nat) (acc s : Str) (hn : s.length ≤ n) (hm : s.length ≤ m) :
    devsplitN n acc s = devsplitN m acc s := by
  induction n generalizing m acc s with
  | zero =>
    have : s = [] := List.length_eq_zero_iff.1 (by omega)
    subst this
    cases m <;> simp [devsplitN]
  | succ n ih =>
    cases s with
    | nil => cases m <;> simp [devsplitN]
    | cons c s =>
      cases m with
      | zero => simp at hm
      | succ m =>
        simp only [List.length_cons] at hn hm
        simp only [devsplitN]
        split
        · rename_i x r h
          have := congrArg List.length (deviceMatch_sound h).1
          simp only [devsep, List.length_append, List.length_cons, List.length_nil] at this
          rw [ih m [] r (by omega) (by omega)]
        · exact ih m _ s (by omega) (by omega)

theorem devsplitN_ne (n : Nat) (acc s : Str) : devsplitN n acc s ≠ [] := by
  induction n generalizing acc s with
  | zero => simp [devsplitN]
  | succ n ih =>
    cases s with
    | nil => simp [devsplitN]
    | cons c s =>
      simp only [devsplitN]
      split
      · simp
      · exact ih _ _

/-- Joining gives back the text. -/
theorem devsplitN_glue (n : Nat) (acc s : Str) : glue devsep (devsplitN n acc s) = acc ++ s := by
  induction n generalizing acc s with
  | zero => rfl
  | succ n ih =>
    cases s with
    | nil => simp [devsplitN, glue]
    | cons c s =>
      simp only [devsplitN]
      split
      · rename_i x r h
        rw [glue_cons (devsplitN_ne _ _ _), ih, (deviceMatch_sound h).1]
        simp
      · rw [ih]; simp

theorem devsplitN_none (n : Nat) (acc s : Str) (h : ¬ HasDev s) : devsplitN n acc s = [acc ++ s] := by
  induction n generalizing acc s with
  | zero => rfl
  | succ n ih =>
    cases s with
    | nil => simp [devsplitN]
    | cons c s =>
      simp only [devsplitN]
      split
      · rename_i x r hm
        obtain ⟨h1, y, rfl, h2, h3⟩ := deviceMatch_sound hm
        exact absurd ⟨[], y, r, by simpa using h1, h2, h3⟩ h
      · rw [ih]
        · simp
        · rintro ⟨a, x, r, e, h1, h2⟩
          exact h ⟨c :: a, x, r, by rw [e]; simp, h1, h2⟩

theorem devsplitN_some (n : Nat) (acc s : Str) (hn : s.length ≤ n) (h : HasDev s) : 2 ≤ (devsplitN n acc s).length := by
  induction n generalizing acc s with
  | zero =>
    have : s = [] := List.length_eq_zero_iff.1 (by omega)
    subst this
    obtain ⟨a, x, r, e, -⟩ := h
    simp at e
  | succ n ih =>
    cases s with
    | nil =>
      obtain ⟨a, x, r, e, -⟩ := h
      simp at e
    | cons c s =>
      simp only [devsplitN]
      split
      · have := List.length_pos_iff.2 (devsplitN_ne n [] ‹Str›)
        simp only [List.length_cons]
        omega
      · rename_i hm
        refine ih _ _ (by simpa using hn) ?_
        obtain ⟨a, x, r, e, h1, h2⟩ := h
        rcases a with _ | ⟨b, a⟩
        · exact absurd hm (by rw [e]; exact deviceMatch_complete x r h1 h2)
        · exact ⟨a, x, r, (List.cons.inj e).2, h1, h2⟩

theorem devsplitN_file (n : Nat) (acc d t : Str) (hd : HasExt d) (hd' : ':' ∉ d)
    (hn : (d ++ devsep ++ '/' :: t).length ≤ n) :
    devsplitN n acc (d ++ devsep ++ '/' :: t) = (acc ++ d) :: devsplit ('/' :: t) := by
  induction d generalizing n acc with
  | nil =>
    obtain ⟨a, e, h, -⟩ := hd
    simp at h
  | cons c d ih =>
    simp only [List.mem_cons, not_or] at hd'
    rcases n with _ | n
    · simp at hn
    · show devsplitN (n + 1) acc (c :: (d ++ devsep ++ '/' :: t)) = _
      have hn' : (d ++ devsep ++ '/' :: t).length ≤ n := by
        simp only [List.cons_append, List.length_cons] at hn
        omega
      by_cases hfull : c = '.' ∧ d ≠ [] ∧ '/' ∉ d
      · obtain ⟨rfl, h1, h2⟩ := hfull
        have hm : deviceMatch ('.' :: (d ++ devsep ++ '/' :: t)) = some ('.' :: d, '/' :: t) := by
          rcases d with _ | ⟨b, d⟩
          · exact absurd rfl h1
          · simp only [List.mem_cons, not_or] at h2 hd'
            show deviceMatch ('.' :: b :: (d ++ devsep ++ '/' :: t)) = _
            rw [deviceMatch_dot, if_neg (fun e => h2.1 e.symm), longest_file d t h2.2 hd'.2.2]
            rfl
        simp only [devsplitN, hm]
        congr 1
        refine devsplitN_fuel _ _ _ _ ?_ (Nat.le_refl _)
        simp only [List.length_append, List.length_cons] at hn' ⊢
        omega
      · have hext : HasExt d := by
          obtain ⟨a, e, h1, h2, h3⟩ := hd
          rcases a with _ | ⟨b, a⟩
          · obtain ⟨rfl, rfl⟩ := List.cons.inj h1
            exact absurd ⟨rfl, h2, h3⟩ hfull
          · exact ⟨a, e, (List.cons.inj h1).2, h2, h3⟩
        have hm : deviceMatch (c :: (d ++ devsep ++ '/' :: t)) = none := by
          by_cases hc : c = '.'
          · subst hc
            have hdne : d ≠ [] := by
              rintro rfl
              obtain ⟨a, e, h, -⟩ := hext
              simp at h
            have hs : '/' ∈ d := by
              by_contra hs
              exact hfull ⟨rfl, hdne, hs⟩
            rcases d with _ | ⟨b, d⟩
            · exact absurd rfl hdne
            · show deviceMatch ('.' :: b :: (d ++ devsep ++ '/' :: t)) = _
              rw [deviceMatch_dot]
              split
              · rfl
              · rename_i hb
                simp only [List.mem_cons, not_or] at hs hd'
                rcases hs with hs | hs
                · exact absurd hs.symm hb
                · rw [List.append_assoc, longest_slash d _ hs hd'.2.2]
                  rfl
          · unfold deviceMatch
            split
            · simp_all
            · rfl
        simp only [devsplitN, hm]
        rw [ih n _ hext hd'.2 hn']
        simp

/-- The path starts with the device and `::`: they are split off, whatever they contain. -/
theorem splitPath_own (d q : Str) : splitPath (d ++ devsep ++ q) (some d) = (d, q) := by
  unfold splitPath
  have hg := devsplitN_glue (d ++ devsep ++ q).length [] (d ++ devsep ++ q)
  change glue devsep (devsplit (d ++ devsep ++ q)) = _ at hg
  have hpre : d.isPrefixOf (d ++ devsep ++ q) = true := by
    rw [List.isPrefixOf_iff_prefix, List.append_assoc]
    exact List.prefix_append _ _
  have hdrop : (d ++ devsep ++ q).drop d.length = devsep ++ q := by rw [List.append_assoc, List.drop_left]
  have hpre2 : devsep.isPrefixOf (devsep ++ q) = true := by
    rw [List.isPrefixOf_iff_prefix]; exact List.prefix_append _ _
  have hdrop2 : (devsep ++ q).drop 2 = q := rfl
  revert hg
  generalize devsplit (d ++ devsep ++ q) = m
  intro hg
  rcases m with _ | ⟨x, _ | ⟨y, m⟩⟩
  · simp [devsep, glue] at hg
  · dsimp only [headRest]
    have hx : x ≠ d := by
      rintro rfl
      have := congrArg List.length hg
      simp [glue, devsep] at this
    rw [if_neg hx, if_pos hpre, hdrop, if_pos hpre2, hdrop2]
  · dsimp only [headRest]
    split
    · rename_i hx
      subst hx
      rw [glue_cons (by simp)] at hg
      have : x ++ devsep ++ glue devsep (y :: m) = x ++ devsep ++ q := by simpa using hg
      rw [List.append_cancel_left this]
    · rw [hdrop, if_pos hpre2, hdrop2]

/-- A path without device. -/
theorem splitPath_local (d q : Str) (h1 : ¬ HasDev q) (h2 : ¬ d <+: q) : splitPath q (some d) = (d, q) := by
  unfold splitPath devsplit
  rw [devsplitN_none _ _ _ h1]
  have hd : q ≠ d := fun e => h2 (e ▸ List.prefix_refl _)
  simp only [List.nil_append, headRest]
  rw [if_neg hd, if_neg (by rw [List.isPrefixOf_iff_prefix]; exact h2), if_pos trivial]

/-- The device of a path is found when it has an extension. -/
theorem splitPath_file (d t : Str) (hd : HasExt d) (hd' : ':' ∉ d) :
    splitPath (d ++ devsep ++ '/' :: t) none = (d, '/' :: t) := by
  unfold splitPath
  rw [show devsplit (d ++ devsep ++ '/' :: t) = d :: devsplit ('/' :: t) from by
    have := devsplitN_file _ [] d t hd hd' (Nat.le_refl _)
    simpa [devsplit] using this]
  have hg := devsplitN_glue ('/' :: t).length [] ('/' :: t)
  change glue devsep (devsplit ('/' :: t)) = _ at hg
  have hne : devsplit ('/' :: t) ≠ [] := devsplitN_ne _ _ _
  revert hg hne
  generalize devsplit ('/' :: t) = m
  intro hg hne
  rcases m with _ | ⟨y, m⟩
  · exact absurd rfl hne
  · dsimp only [headRest]
    rw [hg]
    rfl

end SC.Paths
