import Verif.Scan.CmdProps
import Verif.Scan.Model
import Verif.Py.Dict
/-! # Model of `spec.getdimensions` (C51) -/
namespace SC.Scan
open SC.Py

/-- A motor stands still or moves over a range. -/
inductive Pos where
  | at (v : Rat)
  | range (a b : Rat)
deriving DecidableEq, Repr

/-- Exceptions. -/
inductive DimErr where
  | valueError
  | keyError
  | zeroDivision
deriving DecidableEq, Repr

/-- `result[key]` of a text. -/
def getStr (r : List (G × Val)) (g : G) : Except DimErr Str := match Dict.get? r g with
  | some (.str s) => .ok s
  | _ => .error .keyError

/-- `result[key]` of a number. -/
def getNum (r : List (G × Val)) (g : G) : Except DimErr Rat := match Dict.get? r g with
  | some (.num q) => .ok q
  | _ => .error .keyError

/-- `result[key]` of an integer. -/
def getInt (r : List (G × Val)) (g : G) : Except DimErr Nat := match Dict.get? r g with
  | some (.int q) => .ok q
  | _ => .error .keyError

/-- `values[names.index(mot)]` -/
def motorValue (names : List Str) (values : List Rat) (mot : Str) : Except DimErr Rat :=
  if mot ∈ names then .ok (values.getD (names.idxOf mot) 0) else .error .valueError

/-- The motor positions, spec.py 860. -/
def positions (names : List Str) (values : List Rat) : List Str → Except DimErr (Dict Str Pos)
  | [] => .ok []
  | m :: ms => do
    let v ← motorValue names values m
    let d ← positions names values ms
    return Dict.set d m (.at v)

/-- The range of the slow motor, spec.py 871-877 and 891-897. -/
def slowRange (r : List (G × Val)) : Except DimErr Pos := do
  let a ← getNum r .startslow
  let b ← getNum r .endslow
  let n ← getInt r .nstepsslow
  return .range (ascanRange a b n).1 (ascanRange a b n).2

/-- Replace the position of a motor when it is asked for. -/
def replaceIf (motors : List Str) (mot : Str) (p : Except DimErr Pos) (d : Dict Str Pos) : Except DimErr (Dict Str Pos) :=
  if mot ∈ motors then do
    let p ← p
    return Dict.set d mot p
  else .ok d

/-- The range of the fast motor of a zapimage, spec.py 865-870. -/
def fastRange (r : List (G × Val)) : Except DimErr Pos := do
  let a ← getNum r .startfast
  let b ← getNum r .endfast
  let n ← getInt r .npixelsfast
  match zaplineRange a b n with
  | some (x, y) => return .range x y
  | none => .error .zeroDivision

/-- getdimensions, spec.py 851-898; `names` are the lower-cased motor names of the scan and
`motors` the lower-cased names asked for.  The numbers of motors and values agree.  The order of
the keys of the result is not modelled. -/
def getdimensions (names : List Str) (values : List Rat) (cmd : Str) (motors : List Str) :
    Except DimErr (Dict Str Pos) := do
  let d ← positions names values motors
  match parse cmd with
  | none => return d
  | some r => do
    let name ← getStr r .name
    if name = sZapimage then
      let mf ← getStr r .motfast
      let d ← replaceIf motors mf (fastRange r) d
      let ms ← getStr r .motslow
      replaceIf motors ms (slowRange r) d
    else if name = sAscan then
      let mf ← getStr r .motfast
      replaceIf motors mf (do
        let _ ← getNum r .startfast
        .error .keyError) d  -- `result["endsfast"]`
    else if name = sMesh then
      let mf ← getStr r .motfast
      let d ← replaceIf motors mf (do
        let a ← getNum r .startfast
        let b ← getNum r .endfast
        let n ← getInt r .npixelsfast
        return .range (ascanRange a b n).1 (ascanRange a b n).2) d
      let ms ← getStr r .motslow
      replaceIf motors ms (slowRange r) d
    else return d

/-! ## Theorems -/

theorem positions_ok {names : List Str} {values : List Rat} {motors : List Str} (h : ∀ m ∈ motors, m ∈ names) :
    ∃ d, positions names values motors = .ok d ∧
      ∀ m, Dict.get? d m = if m ∈ motors then some (Pos.at (values.getD (names.idxOf m) 0)) else none := by
  induction motors with
  | nil => exact ⟨[], rfl, by simp [Dict.get?]⟩
  | cons a ms ih =>
    obtain ⟨d, h1, h2⟩ := ih (fun m hm => h m (by simp [hm]))
    refine ⟨Dict.set d a (.at (values.getD (names.idxOf a) 0)), ?_, ?_⟩
    · simp only [positions, motorValue, h a (by simp), if_true, h1, bind, Except.bind, pure, Except.pure]
    · intro m
      rw [Dict.get?_set, h2]
      by_cases e : m = a
      · subst e; simp
      · simp [e, Ne.symm e]

theorem replaceIf_ok {motors : List Str} {mot : Str} {p : Pos} {d : Dict Str Pos} :
    ∃ d', replaceIf motors mot (.ok p) d = .ok d' ∧
      ∀ m, Dict.get? d' m = if m = mot ∧ m ∈ motors then some p else Dict.get? d m := by
  by_cases h : mot ∈ motors
  · refine ⟨Dict.set d mot p, by simp only [replaceIf, h, if_true, bind, Except.bind, pure, Except.pure], ?_⟩
    intro m
    rw [Dict.get?_set]
    by_cases e : m = mot
    · subst e; simp [h]
    · simp [e, Ne.symm e]
  · refine ⟨d, by simp only [replaceIf, h, if_false], ?_⟩
    intro m
    by_cases e : m = mot
    · subst e; simp [h]
    · simp [e]

/-- C51: the dimensions of a zapimage: the fast motor goes from the centre of the first to that
of the last pixel, the slow motor from start to end, the others stand still. -/
theorem dimensions_zapimage (names : List Str) (values : List Rat) (cmd : Str) (motors : List Str)
    (hm : ∀ m ∈ motors, m ∈ names) (out : List (G × Val)) (h : IsScan cmd out)
    (mf ms : Str) (a b c d : Rat) (n k : Nat) (hn : 0 < n)
    (h0 : (G.name, Val.str sZapimage) ∈ out)
    (h1 : (G.motfast, Val.str mf) ∈ out) (h2 : (G.startfast, Val.num a) ∈ out) (h3 : (G.endfast, Val.num b) ∈ out)
    (h4 : (G.npixelsfast, Val.int n) ∈ out) (h5 : (G.motslow, Val.str ms) ∈ out) (h6 : (G.startslow, Val.num c) ∈ out)
    (h7 : (G.endslow, Val.num d) ∈ out) (h8 : (G.nstepsslow, Val.int k) ∈ out) :
    ∃ r, getdimensions names values cmd motors = .ok r ∧ ∀ m, Dict.get? r m =
      if m ∈ motors then some (if m = ms then .range c d
        else if m = mf then .range (a + (b - a) / n / 2) (b - (b - a) / n / 2)
        else .at (values.getD (names.idxOf m) 0))
      else none := by
  have hp := (parse_iff cmd out).mpr h
  have hwf : Dict.WF out := by
    cases h <;> (simp only [Dict.WF, Dict.keys, List.map_cons, List.map_nil]; decide)
  have g0 := Dict.get?_of_mem hwf h0
  have g1 := Dict.get?_of_mem hwf h1
  have g2 := Dict.get?_of_mem hwf h2
  have g3 := Dict.get?_of_mem hwf h3
  have g4 := Dict.get?_of_mem hwf h4
  have g5 := Dict.get?_of_mem hwf h5
  have g6 := Dict.get?_of_mem hwf h6
  have g7 := Dict.get?_of_mem hwf h7
  have g8 := Dict.get?_of_mem hwf h8
  obtain ⟨p, hpos, hget⟩ := positions_ok (values := values) hm
  have hfast : fastRange out = .ok (.range (a + (b - a) / n / 2) (b - (b - a) / n / 2)) := by
    have : n ≠ 0 := by omega
    simp only [fastRange, getNum, getInt, g2, g3, g4, zaplineRange, this, if_false, bind, Except.bind, pure, Except.pure]
  have hslow : slowRange out = .ok (.range c d) := by
    simp only [slowRange, getNum, getInt, g6, g7, g8, ascanRange, bind, Except.bind, pure, Except.pure]
  obtain ⟨p1, e1, f1⟩ := replaceIf_ok (motors := motors) (mot := mf) (p := .range (a + (b - a) / n / 2) (b - (b - a) / n / 2)) (d := p)
  obtain ⟨p2, e2, f2⟩ := replaceIf_ok (motors := motors) (mot := ms) (p := .range c d) (d := p1)
  refine ⟨p2, ?_, ?_⟩
  · simp only [getdimensions, hpos, hp, getStr, g0, g1, g5, hfast, hslow, e1, e2, if_true, bind, Except.bind]
  · intro m
    rw [f2, f1, hget]
    by_cases k1 : m ∈ motors
    · by_cases k2 : m = ms
      · rw [if_pos ⟨k2, k1⟩, if_pos k1, if_pos k2]
      · rw [if_neg (fun q => k2 q.1), if_neg k2]
        by_cases k3 : m = mf
        · rw [if_pos ⟨k3, k1⟩, if_pos k1, if_pos k3]
        · rw [if_neg (fun q => k3 q.1), if_neg k3]
    · rw [if_neg (fun q => k1 q.2), if_neg (fun q => k1 q.2), if_neg k1, if_neg k1]

/-- C51: a motor that is not there raises `ValueError`. -/
theorem dimensions_unknown (names : List Str) (values : List Rat) (cmd : Str) (motors : List Str) (m : Str)
    (hm : m ∈ motors) (hn : m ∉ names) : getdimensions names values cmd motors = .error .valueError := by
  have : positions names values motors = .error .valueError := by
    induction motors with
    | nil => simp at hm
    | cons a ms ih =>
      by_cases ha : a ∈ names
      · have hm' : m ∈ ms := by
          rcases List.mem_cons.mp hm with rfl | h
          · exact absurd ha hn
          · exact h
        simp only [positions, motorValue, ha, if_true, ih hm', bind, Except.bind]
      · simp only [positions, motorValue, ha, if_false, bind, Except.bind]
  simp only [getdimensions, this, bind, Except.bind]

/-- **Finding**: the dimensions of the scanned motor of an `ascan` or of the fast motor of a
`mesh` always raise `KeyError` (`endsfast`, `npixelsfast`). -/
theorem dimensions_keyError (names : List Str) (values : List Rat) (cmd : Str) (motors : List Str)
    (hm : ∀ m ∈ motors, m ∈ names) (out : List (G × Val)) (h : IsScan cmd out) (mf : Str)
    (h0 : (G.name, Val.str sAscan) ∈ out ∨ (G.name, Val.str sMesh) ∈ out)
    (h1 : (G.motfast, Val.str mf) ∈ out) (hmf : mf ∈ motors) :
    getdimensions names values cmd motors = .error .keyError := by
  have hp := (parse_iff cmd out).mpr h
  obtain ⟨p, hpos, hget⟩ := positions_ok (values := values) hm
  cases h with
  | zapimage => simp [sZapimage, sAscan, sMesh] at h0
  | zapimage2 => simp [sZapimage, sAscan, sMesh] at h0
  | puzzle => simp [sPuzzle, sAscan, sMesh] at h0
  | zapenergy => simp [sZapenergy, sAscan, sMesh] at h0
  | zapline => simp [sZapline, sAscan, sMesh] at h0
  | @ascan mf' _ _ _ _ _ _ _ =>
    have : mf = mf' := by simpa using h1
    subst this
    have e1 : ¬ (sAscan = sZapimage) := by decide
    simp [getdimensions, hpos, hp, getStr, getNum, Dict.get?, e1, replaceIf, hmf, bind, Except.bind]
  | @mesh mf' _ _ _ _ _ _ _ _ _ _ _ _ _ =>
    have : mf = mf' := by simpa using h1
    subst this
    have e1 : ¬ (sMesh = sZapimage) := by decide
    have e2 : ¬ (sMesh = sAscan) := by decide
    simp [getdimensions, hpos, hp, getStr, getNum, getInt, Dict.get?, e1, e2, replaceIf, hmf, bind, Except.bind]

/-- C51: other scans, and commands that are not understood: all motors stand still. -/
theorem dimensions_other (names : List Str) (values : List Rat) (cmd : Str) (motors : List Str)
    (hm : ∀ m ∈ motors, m ∈ names)
    (h : ∀ out, IsScan cmd out → ∃ s, (G.name, Val.str s) ∈ out ∧ s ∉ [sZapimage, sAscan, sMesh]) :
    ∃ r, getdimensions names values cmd motors = .ok r ∧ ∀ m, Dict.get? r m =
      if m ∈ motors then some (.at (values.getD (names.idxOf m) 0)) else none := by
  obtain ⟨p, hpos, hget⟩ := positions_ok (values := values) hm
  refine ⟨p, ?_, hget⟩
  cases hp : parse cmd with
  | none => simp [getdimensions, hpos, hp, bind, Except.bind, pure, Except.pure]
  | some out =>
    have hs := (parse_iff cmd out).mp hp
    obtain ⟨s, h1, h2⟩ := h out hs
    have hwf : Dict.WF out := by
      cases hs <;> (simp only [Dict.WF, Dict.keys, List.map_cons, List.map_nil]; decide)
    have g0 := Dict.get?_of_mem hwf h1
    simp only [List.mem_cons, List.not_mem_nil, or_false, not_or] at h2
    simp [getdimensions, hpos, hp, getStr, g0, h2.1, h2.2.1, h2.2.2, bind, Except.bind, pure, Except.pure]

/-- A zapimage with three motors. -/
example : getdimensions ["sampy".toList, "sampz".toList, "energy".toList] [7, 8, 9]
    "zapimage sampy 0 10 5 100 sampz 0 4 4 0".toList ["energy".toList, "sampy".toList, "sampz".toList] =
    .ok [("sampz".toList, .range 0 4), ("sampy".toList, .range 1 9), ("energy".toList, .at 9)] := by decide +kernel

example : getdimensions ["sampy".toList] [7] "ascan sampy 0 10 5 100".toList ["sampy".toList] = .error .keyError := by
  decide +kernel

end SC.Scan
