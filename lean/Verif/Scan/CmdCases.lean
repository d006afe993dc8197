import Verif.Scan.CmdProps
/-! # C51: concrete cases and findings -/
namespace SC.Scan

/-- Fields joined by blanks, followed by nothing or by white space and anything, are a command of
the right form. -/
theorem layout_joined {ks : List Kind} {ts : List Str} (h : List.Forall₂ Kind.Ok ks ts) (hne : ks ≠ []) (r : Str)
    (hr : r = [] ∨ ∃ gap s, IsGap gap ∧ r = gap ++ s) : Layout ks ts (List.intercalate [' '] ts ++ r) := by
  have hstop : ∀ (k : Kind) (t : Str), k.Stops t r := by
    intro k t
    rcases hr with rfl | ⟨gap, s, hg, rfl⟩
    · cases k <;> simp [Kind.Stops]
    · exact gap_stops k t hg
  induction h with
  | nil => exact absurd rfl hne
  | @cons k t ks ts hok hrest ih =>
    cases hrest with
    | nil => simpa [List.intercalate] using Layout.last hok (hstop k t)
    | @cons k2 t2 ks ts hok2 hrest =>
      have := ih (by simp)
      have h2 := Layout.next (gap := [' ']) hok ⟨by simp, by simp [isBlank]⟩ this
      have e : List.intercalate [' '] (t :: t2 :: ts) ++ r = t ++ [' '] ++ (List.intercalate [' '] (t2 :: ts) ++ r) := by
        simp [List.intercalate, List.intersperse]
      rw [e]
      exact h2

def cmd1 : Str := "zapimage sampy 0 1.5 10 100 sampz -2 +.25 3 0".toList

example : parse cmd1 = some [(.name, .str sZapimage), (.motfast, .str "sampy".toList), (.startfast, .num 0),
    (.endfast, .num (3 / 2)), (.npixelsfast, .int 10), (.time, .ms 100), (.motslow, .str "sampz".toList),
    (.startslow, .num (-2)), (.endslow, .num (1 / 4)), (.nstepsslow, .int 3)] := by decide +kernel

example : IsScan cmd1 [(.name, .str sZapimage), (.motfast, .str "sampy".toList), (.startfast, .num 0),
    (.endfast, .num (3 / 2)), (.npixelsfast, .int 10), (.time, .ms 100), (.motslow, .str "sampz".toList),
    (.startslow, .num (-2)), (.endslow, .num (1 / 4)), (.nstepsslow, .int 3)] :=
  (parse_iff _ _).mp (by decide +kernel)

/-- The time at the end. -/
example : parse "zapimage sampy 0 1.5 10 sampz  -2 +.25\t3 100".toList = some [(.name, .str sZapimage),
    (.motfast, .str "sampy".toList), (.startfast, .num 0), (.endfast, .num (3 / 2)), (.npixelsfast, .int 10),
    (.motslow, .str "sampz".toList), (.startslow, .num (-2)), (.endslow, .num (1 / 4)), (.nstepsslow, .int 3),
    (.time, .ms 100)] := by decide +kernel

example : parse "zapenergy SUM2 3 0.5".toList = some [(.name, .str sZapenergy), (.repeats, .int 3), (.time, .ms (1 / 2))] := by
  decide +kernel

example : parse "ascan samy 0 1 2 0.5".toList = some [(.name, .str sAscan), (.motfast, .str "samy".toList),
    (.startfast, .num 0), (.endfast, .num 1), (.nstepsfast, .int 2), (.time, .sec (1 / 2))] := by decide +kernel

/-- **Finding**: the time of a `zapimage` is cut off at the point. -/
theorem time_cut : ∃ cmd out, parse cmd = some out ∧ cmd = "zapimage sampy 0 1 10 sampz 0 1 3 99.9".toList ∧
    (G.time, Val.ms 99) ∈ out :=
  ⟨_, [(.name, .str sZapimage),
    (.motfast, .str "sampy".toList), (.startfast, .num 0), (.endfast, .num 1), (.npixelsfast, .int 10),
    (.motslow, .str "sampz".toList), (.startslow, .num 0), (.endslow, .num 1), (.nstepsslow, .int 3),
    (.time, .ms 99)], by decide +kernel, rfl, by simp⟩

/-- **Finding**: an exponent behind the time is ignored. -/
theorem time_exponent : parse "ascan samy 0 1 2 1e-2".toList = some [(.name, .str sAscan), (.motfast, .str "samy".toList),
    (.startfast, .num 0), (.endfast, .num 1), (.nstepsfast, .int 2), (.time, .sec 1)] := by decide +kernel

/-- **Finding**: positions with an exponent or a trailing point, motors with digits (except in
`puzzle`) and a tab behind the name make a command unknown. -/
theorem not_understood : parse "ascan samy 1e-5 1 2 1".toList = none ∧ parse "ascan samy 0. 1 2 1".toList = none ∧
    parse "ascan mot1 0 1 2 1".toList = none ∧ parse "ascan\tsamy 0 1 2 1".toList = none := by decide +kernel

/-- Motors with digits of a `puzzle`. -/
example : (parse "puzzle mot1 0 1 10 mot2 0 1 3 99".toList).isSome = true := by decide +kernel

end SC.Scan
