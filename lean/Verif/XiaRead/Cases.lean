import Verif.XiaRead.Props2
import Mathlib.Algebra.Field.Rat
/-! # Reading XIA data (C50): cases and deviations -/

namespace SC.XiaRead
open XiaConfig

/-- `icr / ocr` -/
def ratio (icr ocr : ℚ) : ℚ := icr / ocr

/-- Two lines of one spectrum with two channels and two detectors; the input and output count rates
of the first detector differ by a factor 2, of the second by a factor 3. -/
def line1 : Line ℚ := ⟨some [[[10, 20], [30, 40]]], some [[[0, 0], [0, 0], [8, 9], [4, 3], [0, 0], [0, 0]]]⟩
def line2 : Line ℚ := ⟨some [[[1, 2], [3, 4]]], some [[[0, 0], [0, 0], [8, 9], [4, 3], [5, 5], [0, 0]]]⟩
def monitorI0 : Str → Option (List (List ℚ)) := fun s => if s = ['I', '0'] then some [[10], [5]] else none
def image : Obj ℚ 1 := ⟨[line1, line2], some [[[[7]]], [[[8]]]], monitorI0⟩
def stack : Obj ℚ 2 := ⟨[image, image], none, fun _ => none⟩

/-- Dead time correction, sum and normalization. -/
def wanted : List (Action ℚ) := [.set (.dtcor true), .set (.detectorsum true), .set (.norm (some ['I', '0']))]

def settings : Config := wanted.foldl (fun c a => a.run ratio c) (start 1)

/-- Case of `read_spec` and `readData_spec`. -/
example : corrected ratio (paramsOf settings) 1 image = some [[[[8], [18]]], [[[8 / 5], [18 / 5]]]] := by
  decide +kernel

example : rawStats true 1 image = some [[[[8, 9], [4, 3]]], [[[8, 9], [4, 3]]]] ∧
    rawCounters 1 image = some [[[[7]]], [[[8]]]] := by
  decide +kernel

example : ∃ c', readData ratio 1 image (settings, ()) = (.ok ⟨some [[[[8], [18]]], [[[8 / 5], [18 / 5]]]], none, none⟩, c', ()) ∧
    SameSettings settings c' ∧ Valid 1 c' :=
  readData_spec ratio 1 image settings (history_valid ratio 1 wanted (by
    intro a ha
    simp only [wanted, List.mem_cons, List.not_mem_nil, or_false] at ha
    rcases ha with rfl | rfl | rfl <;> trivial)) _ [[[[8, 9], [4, 3]]], [[[8, 9], [4, 3]]]] (by decide +kernel)
    (fun _ => by decide +kernel)

/-- Everything at once, in which case the corrections are done on the image. -/
example : (getitem ratio 1 image ((Setting.dataall).apply settings, ())).1 =
    .ok ⟨some [[[[8], [18]]], [[[8 / 5], [18 / 5]]]], some [[[[8, 9], [4, 3]]], [[[8, 9], [4, 3]]]],
      some [[[[7]]], [[[8]]]]⟩ := by
  decide +kernel

/-- Cases of `readStats_spec`, `readAllStats_spec` and `readCounters_spec`. -/
example : (readStats ratio 1 image (settings, ())).1 =
      .ok ⟨none, some [[[[8, 9], [4, 3]]], [[[8, 9], [4, 3]]]], none⟩ ∧
    (readCounters ratio 1 image (settings, ())).1 = .ok ⟨none, none, some [[[[7]]], [[[8]]]]⟩ ∧
    rawStats false 1 image = some [[[[0, 0], [0, 0], [8, 9], [4, 3], [0, 0], [0, 0]]],
      [[[0, 0], [0, 0], [8, 9], [4, 3], [5, 5], [0, 0]]]] :=
  ⟨by decide +kernel, by decide +kernel, by decide +kernel⟩

/-- A stack of two images. -/
example : (getitem ratio 2 stack (((Action.set (.maxlevel 2) :: wanted) : List (Action ℚ)).foldl (fun c a => Action.run ratio a c) initial, ())).1 =
    .ok ⟨some [[[[[8], [18]]], [[[8 / 5], [18 / 5]]]], [[[[8], [18]]], [[[8 / 5], [18 / 5]]]]], none, none⟩ := by
  decide +kernel

/-- Case of `item_corrected`. -/
example : settings.maxlevel = 1 ∧ settings.levels = ⟨0, 0, 1, 1⟩ ∧ settings.indexing = ⟨true, false, false, true⟩ ∧
    corrected ratio (paramsOf settings) 0 line1 = some [[[80], [180]]] := by
  decide +kernel

/-- The settings after reading the data and the statistics of the image, and asking for the data
only again. -/
def after : Config :=
  ((wanted ++ [Action.set .dataandstats, Action.item 1 image, Action.set .onlydata]) : List (Action ℚ)).foldl (fun c a => a.run ratio c) (start 1)

/-- C50 (deviation, `item_uncorrected`): the user's settings are the same, but the data of a line of
the image are no longer corrected. -/
theorem line_depends_on_history : SameSettings settings after ∧
    (getitem ratio 0 line1 (settings, ())).1 = .ok ⟨some [[[80], [180]]], none, none⟩ ∧
    (getitem ratio 0 line1 (after, ())).1 = .ok ⟨some [[[10, 20], [30, 40]]], none, none⟩ := by
  refine ⟨?_, ?_, ?_⟩
  · constructor <;> decide +kernel
  · decide +kernel
  · decide +kernel

/-- An image of which the statistics are missing. -/
def incomplete : Obj ℚ 1 := ⟨[⟨line1.data, none⟩], none, fun _ => none⟩

/-- C50 (deviation): after failing to read the statistics, `obj[...]` fails on an image of which
the data can be read, and gives the statistics of a complete image. -/
theorem failure_changes_request :
    (getitem ratio 1 incomplete (start 1, ())).1 = .ok ⟨some [[[[10, 20], [30, 40]]]], none, none⟩ ∧
    (readStats ratio 1 incomplete (start 1, ())).1 = .raised ∧
    (getitem ratio 1 incomplete ((readStats ratio 1 incomplete (start 1, ())).2.1, ())).1 = .raised ∧
    (getitem ratio 1 image ((readStats ratio 1 incomplete (start 1, ())).2.1, ())).1 =
      .ok ⟨none, some [[[[8, 9], [4, 3]]], [[[8, 9], [4, 3]]]], none⟩ :=
  ⟨by decide +kernel, by decide +kernel, by decide +kernel, by decide +kernel⟩

/-- C50 (deviation): with dead time correction the counters of an image without statistics cannot be
read after the statistics of another one were, though they could before (`readCounters_spec` needs
the statistics). -/
def countersOnly : Obj ℚ 1 := ⟨[⟨line1.data, none⟩], some [[[[7]]]], fun _ => none⟩

theorem counters_need_stats :
    let c := (Setting.dtcor true).apply (start 1)
    (readCounters ratio 1 countersOnly (c, ())).1 = .ok ⟨none, none, some [[[[7]]]]⟩ ∧
    (readCounters ratio 1 countersOnly
      ((getitem ratio 1 image ((Setting.dataandstats).apply c, ())).2.1, ())).1 = .raised :=
  ⟨by decide +kernel, by decide +kernel⟩

end SC.XiaRead
