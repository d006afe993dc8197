import Verif.Scan.CmdLemmas3
/-! # C51: scan commands are parsed field by field -/
namespace SC.Scan
open SC.Py.Regex

theorem layout_ok {ks : List Kind} {ts : List Str} {s : Str} (h : Layout ks ts s) : List.Forall₂ Kind.Ok ks ts := by
  induction h with
  | last hok _ => exact .cons hok .nil
  | next hok _ _ ih => exact .cons hok ih

theorem good_zapimage1 : GoodPattern patZapimage[0] := ⟨by simp [patZapimage, Kind.Good, sZapimage, isBlank], by decide, by decide⟩
theorem good_zapimage2 : GoodPattern patZapimage[1] := ⟨by simp [patZapimage, Kind.Good, sZapimage, isBlank], by decide, by decide⟩
theorem good_puzzle : GoodPattern patPuzzle[0] := ⟨by simp [patPuzzle, Kind.Good, sPuzzle, isBlank], by decide, by decide⟩
theorem good_mesh : GoodPattern patMesh[0] := ⟨by simp [patMesh, Kind.Good, sMesh, isBlank], by decide, by decide⟩
theorem good_zapenergy1 : GoodPattern patZapenergy[0] := ⟨by simp [patZapenergy, Kind.Good, sZapenergy, sSum, isBlank], by decide, by decide⟩
theorem good_zapenergy2 : GoodPattern patZapenergy[1] := ⟨by simp [patZapenergy, Kind.Good, sZapenergy, sSum2, isBlank], by decide, by decide⟩
theorem good_zapline : GoodPattern patZapline[0] := ⟨by simp [patZapline, Kind.Good, sZapline, isBlank], by decide, by decide⟩
theorem good_ascan : GoodPattern patAscan[0] := ⟨by simp [patAscan, Kind.Good, sAscan, isBlank], by decide, by decide⟩

theorem parse_scan {name : Str} {pats : List (List Field)} {b : Bool} (hs : scans name = some (pats, b)) {cmd : Str}
    (hf : firstWord cmd = name) : parse cmd = (matchFirst pats cmd).map fun l => l.map (cast b) := by
  unfold parse
  rw [hf, hs]

theorem matchFirst_one (fs : List Field) (cmd : Str) : matchFirst [fs] cmd = matchOne fs cmd := by
  simp only [matchFirst, List.findSome?_cons, List.findSome?_nil]
  split <;> simp_all

theorem matchFirst_two (f1 f2 : List Field) (cmd : Str) (l : List (G × Str)) :
    matchFirst [f1, f2] cmd = some l ↔ matchOne f1 cmd = some l ∨ (matchOne f1 cmd = none ∧ matchOne f2 cmd = some l) := by
  simp only [matchFirst, List.findSome?_cons, List.findSome?_nil]
  cases matchOne f1 cmd with
  | some x => simp
  | none =>
    cases matchOne f2 cmd with
    | some y => simp
    | none => simp

theorem zapimage_exclusive {cmd : Str} {ts1 ts2 : List Str} (h1 : Layout (patZapimage[0].map Prod.fst) ts1 cmd)
    (h2 : Layout (patZapimage[1].map Prod.fst) ts2 cmd) : False := by
  refine layout_conflict [.word sZapimage, .motor, .float, .float, .int] (k1 := .int) (k2 := .motor) ?_ ?_ ?_ ?_ h1 h2
  · simp [Kind.Good, sZapimage, isBlank]
  · simp [Kind.Good]
  · simp [Kind.Good]
  · intro t ht1 ht2
    obtain ⟨hne, hd⟩ := ht1
    obtain ⟨_, ha⟩ := ht2
    cases t with
    | nil => exact hne rfl
    | cons c t =>
      have h3 := hd c (by simp)
      have h4 := ha c (by simp)
      simp only [Char.isDigit, Char.isAlpha, Char.isUpper, Char.isLower, Bool.and_eq_true, Bool.or_eq_true,
        decide_eq_true_eq, UInt32.le_iff_toNat_le] at h3 h4
      simp at h3 h4
      omega

theorem zapenergy_exclusive {cmd : Str} {ts1 ts2 : List Str} (h1 : Layout (patZapenergy[0].map Prod.fst) ts1 cmd)
    (h2 : Layout (patZapenergy[1].map Prod.fst) ts2 cmd) : False := by
  refine layout_conflict [.word sZapenergy] (k1 := .word sSum) (k2 := .word sSum2) ?_ ?_ ?_ ?_ h1 h2
  · simp [Kind.Good, sZapenergy, isBlank]
  · simp [Kind.Good, sSum, isBlank]
  · simp [Kind.Good, sSum2, isBlank]
  · intro t ht1 ht2
    simp only [Kind.Ok] at ht1 ht2
    rw [ht1] at ht2
    exact absurd ht2 (by decide)

/-- C51: a command is understood exactly when it is a scan command, and what is returned is what
the command says; all others are unknown. -/
theorem parse_iff (cmd : Str) (out : List (G × Val)) : parse cmd = some out ↔ IsScan cmd out := by
  constructor
  · intro h
    have hcase : ∀ name pats b, scans name = some (pats, b) → firstWord cmd = name →
        ∃ l, matchFirst pats cmd = some l ∧ l.map (cast b) = out := by
      intro name pats b hs hf
      rw [parse_scan hs hf, Option.map_eq_some_iff] at h
      exact h
    have h' := h
    unfold parse at h'
    by_cases e1 : firstWord cmd = sZapimage
    · obtain ⟨l, hm, rfl⟩ := hcase sZapimage patZapimage false rfl e1
      rcases (matchFirst_two _ _ _ _).mp hm with hm | ⟨_, hm⟩
      · obtain ⟨ts, hl, rfl⟩ := (matchOne_iff good_zapimage1 _ _).mp hm
        rcases layout_ok hl with _ | ⟨k0, _ | ⟨k1, _ | ⟨k2, _ | ⟨k3, _ | ⟨k4, _ | ⟨k5, _ | ⟨k6, _ | ⟨k7, _ | ⟨k8, _ | ⟨k9, _ | _⟩⟩⟩⟩⟩⟩⟩⟩⟩⟩
        simp only [Kind.Ok] at k0
        subst k0
        obtain ⟨qa, ha⟩ := k2
        obtain ⟨qb, hb⟩ := k3
        obtain ⟨qc, hc⟩ := k7
        obtain ⟨qd, hd⟩ := k8
        simp only [named, patZapimage, List.getElem_cons_zero, List.getElem_cons_succ, List.map_cons, List.map_nil, cast, natOf_eq, floatOf_eq ha, floatOf_eq hb,
          floatOf_eq hc, floatOf_eq hd, floatOf_eq (isNat_number k5), Bool.false_eq_true, if_false]
        exact .zapimage hl (firstWord_blank hl e1) ha hb hc hd
      · obtain ⟨ts, hl, rfl⟩ := (matchOne_iff good_zapimage2 _ _).mp hm
        rcases layout_ok hl with _ | ⟨k0, _ | ⟨k1, _ | ⟨k2, _ | ⟨k3, _ | ⟨k4, _ | ⟨k5, _ | ⟨k6, _ | ⟨k7, _ | ⟨k8, _ | ⟨k9, _ | _⟩⟩⟩⟩⟩⟩⟩⟩⟩⟩
        simp only [Kind.Ok] at k0
        subst k0
        obtain ⟨qa, ha⟩ := k2
        obtain ⟨qb, hb⟩ := k3
        obtain ⟨qc, hc⟩ := k6
        obtain ⟨qd, hd⟩ := k7
        simp only [named, patZapimage, List.getElem_cons_zero, List.getElem_cons_succ, List.map_cons, List.map_nil, cast, natOf_eq, floatOf_eq ha, floatOf_eq hb,
          floatOf_eq hc, floatOf_eq hd, floatOf_eq (isNat_number k9), Bool.false_eq_true, if_false]
        exact .zapimage2 hl (firstWord_blank hl e1) ha hb hc hd
    by_cases e2 : firstWord cmd = sAscan
    · obtain ⟨l, hm, rfl⟩ := hcase sAscan patAscan true rfl e2
      rw [patAscan, matchFirst_one] at hm
      obtain ⟨ts, hl, rfl⟩ := (matchOne_iff good_ascan _ _).mp hm
      rcases layout_ok hl with _ | ⟨k0, _ | ⟨k1, _ | ⟨k2, _ | ⟨k3, _ | ⟨k4, _ | ⟨k5, _ | _⟩⟩⟩⟩⟩⟩
      simp only [Kind.Ok] at k0
      subst k0
      obtain ⟨qa, ha⟩ := k2
      obtain ⟨qb, hb⟩ := k3
      obtain ⟨qt, ht⟩ := k5
      simp only [named, patAscan, List.getElem_cons_zero, List.getElem_cons_succ, List.map_cons, List.map_nil, cast, natOf_eq, floatOf_eq ha, floatOf_eq hb,
        floatOf_eq ht, if_true]
      exact .ascan hl (firstWord_blank hl e2) ha hb ht
    by_cases e3 : firstWord cmd = sZapline
    · obtain ⟨l, hm, rfl⟩ := hcase sZapline patZapline false rfl e3
      rw [patZapline, matchFirst_one] at hm
      obtain ⟨ts, hl, rfl⟩ := (matchOne_iff good_zapline _ _).mp hm
      rcases layout_ok hl with _ | ⟨k0, _ | ⟨k1, _ | ⟨k2, _ | ⟨k3, _ | ⟨k4, _ | ⟨k5, _ | _⟩⟩⟩⟩⟩⟩
      simp only [Kind.Ok] at k0
      subst k0
      obtain ⟨qa, ha⟩ := k2
      obtain ⟨qb, hb⟩ := k3
      obtain ⟨qt, ht⟩ := k5
      simp only [named, patZapline, List.getElem_cons_zero, List.getElem_cons_succ, List.map_cons, List.map_nil, cast, natOf_eq, floatOf_eq ha, floatOf_eq hb,
        floatOf_eq ht, Bool.false_eq_true, if_false]
      exact .zapline hl (firstWord_blank hl e3) ha hb ht
    by_cases e4 : firstWord cmd = sZapenergy
    · obtain ⟨l, hm, rfl⟩ := hcase sZapenergy patZapenergy false rfl e4
      rcases (matchFirst_two _ _ _ _).mp hm with hm | ⟨_, hm⟩
      · obtain ⟨ts, hl, rfl⟩ := (matchOne_iff good_zapenergy1 _ _).mp hm
        rcases layout_ok hl with _ | ⟨k0, _ | ⟨k1, _ | ⟨k2, _ | ⟨k3, _ | _⟩⟩⟩⟩
        simp only [Kind.Ok] at k0 k1
        subst k0
        subst k1
        obtain ⟨qt, ht⟩ := k3
        simp only [named, patZapenergy, List.getElem_cons_zero, List.getElem_cons_succ, List.map_cons, List.map_nil, cast, natOf_eq, floatOf_eq ht, Bool.false_eq_true, if_false]
        exact .zapenergy (.inl rfl) hl (firstWord_blank hl e4) ht
      · obtain ⟨ts, hl, rfl⟩ := (matchOne_iff good_zapenergy2 _ _).mp hm
        rcases layout_ok hl with _ | ⟨k0, _ | ⟨k1, _ | ⟨k2, _ | ⟨k3, _ | _⟩⟩⟩⟩
        simp only [Kind.Ok] at k0 k1
        subst k0
        subst k1
        obtain ⟨qt, ht⟩ := k3
        simp only [named, patZapenergy, List.getElem_cons_zero, List.getElem_cons_succ, List.map_cons, List.map_nil, cast, natOf_eq, floatOf_eq ht, Bool.false_eq_true, if_false]
        exact .zapenergy (.inr rfl) hl (firstWord_blank hl e4) ht
    by_cases e5 : firstWord cmd = sMesh
    · obtain ⟨l, hm, rfl⟩ := hcase sMesh patMesh true rfl e5
      rw [patMesh, matchFirst_one] at hm
      obtain ⟨ts, hl, rfl⟩ := (matchOne_iff good_mesh _ _).mp hm
      rcases layout_ok hl with _ | ⟨k0, _ | ⟨k1, _ | ⟨k2, _ | ⟨k3, _ | ⟨k4, _ | ⟨k5, _ | ⟨k6, _ | ⟨k7, _ | ⟨k8, _ | ⟨k9, _ | _⟩⟩⟩⟩⟩⟩⟩⟩⟩⟩
      simp only [Kind.Ok] at k0
      subst k0
      obtain ⟨qa, ha⟩ := k2
      obtain ⟨qb, hb⟩ := k3
      obtain ⟨qc, hc⟩ := k6
      obtain ⟨qd, hd⟩ := k7
      obtain ⟨qt, ht⟩ := k9
      simp only [named, patMesh, List.getElem_cons_zero, List.getElem_cons_succ, List.map_cons, List.map_nil, cast, natOf_eq, floatOf_eq ha, floatOf_eq hb,
        floatOf_eq hc, floatOf_eq hd, floatOf_eq ht, if_true]
      exact .mesh hl (firstWord_blank hl e5) ha hb hc hd ht
    by_cases e6 : firstWord cmd = sPuzzle
    · obtain ⟨l, hm, rfl⟩ := hcase sPuzzle patPuzzle false rfl e6
      rw [patPuzzle, matchFirst_one] at hm
      obtain ⟨ts, hl, rfl⟩ := (matchOne_iff good_puzzle _ _).mp hm
      rcases layout_ok hl with _ | ⟨k0, _ | ⟨k1, _ | ⟨k2, _ | ⟨k3, _ | ⟨k4, _ | ⟨k5, _ | ⟨k6, _ | ⟨k7, _ | ⟨k8, _ | ⟨k9, _ | _⟩⟩⟩⟩⟩⟩⟩⟩⟩⟩
      simp only [Kind.Ok] at k0
      subst k0
      obtain ⟨qa, ha⟩ := k2
      obtain ⟨qb, hb⟩ := k3
      obtain ⟨qc, hc⟩ := k6
      obtain ⟨qd, hd⟩ := k7
      simp only [named, patPuzzle, List.getElem_cons_zero, List.getElem_cons_succ, List.map_cons, List.map_nil, cast, natOf_eq, floatOf_eq ha, floatOf_eq hb,
        floatOf_eq hc, floatOf_eq hd, floatOf_eq (isNat_number k9), Bool.false_eq_true, if_false]
      exact .puzzle hl (firstWord_blank hl e6) ha hb hc hd
    simp only [scans, e1, e2, e3, e4, e5, e6, if_false] at h'
    cases h'
  · have hw : ∀ n : Str, (∀ c ∈ n, isBlank c = false) → (∃ s, cmd = n ++ ' ' :: s) → firstWord cmd = n := by
      rintro n hn ⟨s, rfl⟩
      exact firstWord_eq n s hn
    intro h
    cases h with
    | @zapimage mf a b n t ms c d m qa qb qc qd hl hf ha hb hc hd =>
      have hm : matchFirst patZapimage cmd = some _ := (matchFirst_two _ _ _ _).mpr (.inl (matchOne_layout good_zapimage1 hl))
      rw [parse_scan (name := sZapimage) (pats := patZapimage) (b := false) rfl (hw _ (by decide) hf), hm]
      have k5 : IsNat t := by
        rcases layout_ok hl with _ | ⟨k0, _ | ⟨k1, _ | ⟨k2, _ | ⟨k3, _ | ⟨k4, _ | ⟨k5, _⟩⟩⟩⟩⟩⟩
        exact k5
      simp only [Option.map_some, named, patZapimage, List.getElem_cons_zero, List.map_cons, List.map_nil, cast, natOf_eq,
        floatOf_eq ha, floatOf_eq hb, floatOf_eq hc, floatOf_eq hd, floatOf_eq (isNat_number k5), Bool.false_eq_true, if_false]
    | @zapimage2 mf a b n t ms c d m qa qb qc qd hl hf ha hb hc hd =>
      have hno : matchOne patZapimage[0] cmd = none :=
        (matchOne_none good_zapimage1 cmd).mpr (fun ⟨ts, h1⟩ => zapimage_exclusive h1 hl)
      have hm : matchFirst patZapimage cmd = some _ := (matchFirst_two _ _ _ _).mpr (.inr ⟨hno, matchOne_layout good_zapimage2 hl⟩)
      rw [parse_scan (name := sZapimage) (pats := patZapimage) (b := false) rfl (hw _ (by decide) hf), hm]
      have k9 : IsNat t := by
        rcases layout_ok hl with _ | ⟨k0, _ | ⟨k1, _ | ⟨k2, _ | ⟨k3, _ | ⟨k4, _ | ⟨k5, _ | ⟨k6, _ | ⟨k7, _ | ⟨k8, _ | ⟨k9, _⟩⟩⟩⟩⟩⟩⟩⟩⟩⟩
        exact k9
      simp only [Option.map_some, named, patZapimage, List.getElem_cons_zero, List.getElem_cons_succ, List.map_cons, List.map_nil, cast, natOf_eq,
        floatOf_eq ha, floatOf_eq hb, floatOf_eq hc, floatOf_eq hd, floatOf_eq (isNat_number k9), Bool.false_eq_true, if_false]
    | @puzzle mf a b n t ms c d m qa qb qc qd hl hf ha hb hc hd =>
      have hm : matchFirst patPuzzle cmd = some _ := (matchFirst_one _ _).trans (matchOne_layout good_puzzle hl)
      rw [parse_scan (name := sPuzzle) (pats := patPuzzle) (b := false) rfl (hw _ (by decide) hf), hm]
      have k9 : IsNat t := by
        rcases layout_ok hl with _ | ⟨k0, _ | ⟨k1, _ | ⟨k2, _ | ⟨k3, _ | ⟨k4, _ | ⟨k5, _ | ⟨k6, _ | ⟨k7, _ | ⟨k8, _ | ⟨k9, _⟩⟩⟩⟩⟩⟩⟩⟩⟩⟩
        exact k9
      simp only [Option.map_some, named, patPuzzle, List.getElem_cons_zero, List.map_cons, List.map_nil, cast, natOf_eq,
        floatOf_eq ha, floatOf_eq hb, floatOf_eq hc, floatOf_eq hd, floatOf_eq (isNat_number k9), Bool.false_eq_true, if_false]
    | mesh hl hf ha hb hc hd ht =>
      have hm : matchFirst patMesh cmd = some _ := (matchFirst_one _ _).trans (matchOne_layout good_mesh hl)
      rw [parse_scan (name := sMesh) (pats := patMesh) (b := true) rfl (hw _ (by decide) hf), hm]
      simp only [Option.map_some, named, patMesh, List.getElem_cons_zero, List.map_cons, List.map_nil, cast, natOf_eq,
        floatOf_eq ha, floatOf_eq hb, floatOf_eq hc, floatOf_eq hd, floatOf_eq ht, if_true]
    | @zapenergy w n t qt hsum hl hf ht =>
      rcases hsum with rfl | rfl
      · have hm : matchFirst patZapenergy cmd = some _ := (matchFirst_two _ _ _ _).mpr (.inl (matchOne_layout good_zapenergy1 hl))
        rw [parse_scan (name := sZapenergy) (pats := patZapenergy) (b := false) rfl (hw _ (by decide) hf), hm]
        simp only [Option.map_some, named, patZapenergy, List.getElem_cons_zero, List.map_cons, List.map_nil, cast, natOf_eq,
          floatOf_eq ht, Bool.false_eq_true, if_false]
      · have hno : matchOne patZapenergy[0] cmd = none :=
          (matchOne_none good_zapenergy1 cmd).mpr (fun ⟨ts, h1⟩ => zapenergy_exclusive h1 hl)
        have hm : matchFirst patZapenergy cmd = some _ := (matchFirst_two _ _ _ _).mpr (.inr ⟨hno, matchOne_layout good_zapenergy2 hl⟩)
        rw [parse_scan (name := sZapenergy) (pats := patZapenergy) (b := false) rfl (hw _ (by decide) hf), hm]
        simp only [Option.map_some, named, patZapenergy, List.getElem_cons_zero, List.getElem_cons_succ, List.map_cons, List.map_nil, cast, natOf_eq,
          floatOf_eq ht, Bool.false_eq_true, if_false]
    | zapline hl hf ha hb ht =>
      have hm : matchFirst patZapline cmd = some _ := (matchFirst_one _ _).trans (matchOne_layout good_zapline hl)
      rw [parse_scan (name := sZapline) (pats := patZapline) (b := false) rfl (hw _ (by decide) hf), hm]
      simp only [Option.map_some, named, patZapline, List.getElem_cons_zero, List.map_cons, List.map_nil, cast, natOf_eq,
        floatOf_eq ha, floatOf_eq hb, floatOf_eq ht, Bool.false_eq_true, if_false]
    | ascan hl hf ha hb ht =>
      have hm : matchFirst patAscan cmd = some _ := (matchFirst_one _ _).trans (matchOne_layout good_ascan hl)
      rw [parse_scan (name := sAscan) (pats := patAscan) (b := true) rfl (hw _ (by decide) hf), hm]
      simp only [Option.map_some, named, patAscan, List.getElem_cons_zero, List.map_cons, List.map_nil, cast, natOf_eq,
        floatOf_eq ha, floatOf_eq hb, floatOf_eq ht, if_true]

/-- C51: a command says one thing. -/
theorem scan_unique (cmd : Str) (o1 o2 : List (G × Val)) (h1 : IsScan cmd o1) (h2 : IsScan cmd o2) : o1 = o2 := by
  rw [← parse_iff] at h1 h2
  rw [h1] at h2
  exact Option.some.inj h2

/-- C51: decimal notation written by Python is read back. -/
theorem natVal_repr (n : Nat) : IsNat (Nat.toDigits 10 n) ∧ natVal (Nat.toDigits 10 n) = n := by
  refine ⟨⟨Nat.toDigits_ne_nil, fun c hc => Nat.isDigit_of_mem_toDigits (by decide) (by decide) hc⟩, ?_⟩
  rw [← natOf_eq]
  exact Nat.ofDigitChars_toDigits (b := 10) (by decide) (by decide)

end SC.Scan
