import Verif.EdfHead.Props
/-! # C76: cases and deviations -/
namespace SC.EdfHead
open SC.Scan (Str)
open SC.Py (Dict)

def tSamy : Str := ['s', 'a', 'm', 'y']
def tSampy : Str := ['s', 'a', 'm', 'p', 'y']
def tTitle : Str := ['T', 'i', 't', 'l', 'e']
def tZapCmd : Str := ['z', 'a', 'p', 'i', 'm', 'a', 'g', 'e', ' ', 's', 'a', 'm', 'y', ' ', '0', ' ', '4', ' ', '2', ' ', '9', ' ', 's', 'a', 'm', 'z', ' ', '1', ' ', '3', ' ', '2']
def tMeshCmd : Str := ['m', 'e', 's', 'h', ' ', 's', 'a', 'm', 'y', ' ', '0', ' ', '4', ' ', '2', ' ', 's', 'a', 'm', 'z', ' ', '1', ' ', '3', ' ', '2', ' ', '9']

/-- The keys of ID21, with micrometres for the piezo motor. -/
def cfg : Cfg where
  fastlabel := some tFast
  slowlabel := some tSlow
  speclabel := some tTitle
  otherlabels := []
  unit := fun m => if m = some tSamy then 1000 else 1
  compensation := [(tSamy, [tSampy]), (tSampy, [tSamy])]
  namemap := [(tSamy, ['y']), (tSampy, ['y'])]
  float := fun t => if t.all Char.isDigit then some (SC.Scan.floatOf t) else none
  int := fun t => if t.all Char.isDigit then some (SC.Scan.natOf t : Int) else none

/-- A header from pairs. -/
def hdr (l : List (Str × Str)) : Header := fun k => Dict.get? l k

def dims : List (Str × Str) := [(tDim1, ['2']), (tDim2, ['3'])]
def fastKeys : List (Str × Str) := [(tFast ++ tMot, tSamy), (tFast ++ tStart, ['5']), (tFast ++ tEnd, ['9']), (tFast ++ tNbp, ['2'])]
def slowKeys : List (Str × Str) := [(tSlow ++ tMot, ['s', 'a', 'm', 'z']), (tSlow ++ tStart, ['1']), (tSlow ++ tEnd, ['3']), (tSlow ++ tNbp, ['2'])]

/-- What a header gives, in short. -/
def short (h : Header) (d : Option (Option Int × Option Int)) : Option (Str × (Option Str × List Rat) × (Option Str × List Rat)) :=
  match parse cfg h d with
  | .error _ => none
  | .ok r => some (r.name, (r.slow.name, r.slow.ax.values), (r.fast.name, r.fast.ax.values))

example : Separate cfg := by intro k hk; simp [cfg] at hk
example : Described cfg (hdr (fastKeys ++ slowKeys)) cfg.fastlabel tSamy 5 9 2 :=
  ⟨⟨tFast, ['5'], ['9'], ['2'], rfl, rfl, rfl, by decide +kernel, rfl, by decide +kernel, rfl, rfl⟩⟩
example : Undescribed (hdr slowKeys) cfg.fastlabel := by
  intro l hl
  simp only [cfg, Option.some.injEq] at hl
  subst hl; rfl

/-- Header with the piezo motor at 7 micrometres. -/
example : short (hdr (fastKeys ++ slowKeys ++ [(tSampy, ['7'])])) none =
    some (tZapimage, (some ['s', 'a', 'm', 'z'], [1, 2, 3]), (some ['y'], [6007, 8007])) := by decide +kernel
/-- Command only. -/
example : short (hdr [(tTitle, tZapCmd)]) none =
    some (tZapimage, (some ['s', 'a', 'm', 'z'], [1, 2, 3]), (some tSamy, [1000, 3000])) := by decide +kernel
example : cmdFast cfg (hdr [(tTitle, tZapCmd)]) = ⟨some tSamy, some 0, some 4, some 2⟩ := by decide +kernel
/-- Nothing. -/
example : short (hdr dims) none =
    some (tZapimage, (some tSlow, [0, 1, 2]), (some tFast, [1 / 2, 3 / 2])) := by decide +kernel
example : short (hdr []) (some (some 3, some 2)) =
    some (tZapimage, (some tSlow, [0, 1, 2]), (some tFast, [1 / 2, 3 / 2])) := by decide +kernel
example : Pixels cfg (hdr dims) tDim1 none 2 := Or.inr ⟨rfl, ['2'], rfl, rfl⟩
example : Incomplete (cmdFast cfg (hdr dims)) := Or.inl rfl

/-- Not so: a header that misses the end of the range does not give the axis in pixels; its start is
mixed with the end of the command. -/
theorem mixed : short (hdr ([(tTitle, tZapCmd), (tFast ++ tMot, tSamy), (tFast ++ tStart, ['5']), (tFast ++ tNbp, ['7'])])) none =
    some (tZapimage, (some ['s', 'a', 'm', 'z'], [1, 2, 3]), (some tSamy, [4750, 4250])) := by decide +kernel

/-- Not so: the fast motor of a mesh scan is lost, its axis is in pixels. -/
theorem mesh_lost : short (hdr ([(tTitle, tMeshCmd)] ++ dims)) none =
    some (SC.Scan.sMesh, (some ['s', 'a', 'm', 'z'], [1, 2, 3]), (some tFast, [1 / 2, 3 / 2])) := by decide +kernel

/-- Not so: the name of the axis depends on whether the header has the position of a compensating
motor: without it the name of the motor stays. -/
theorem name_depends :
    short (hdr (fastKeys ++ slowKeys ++ [(tSampy, ['0'])])) none =
      some (tZapimage, (some ['s', 'a', 'm', 'z'], [1, 2, 3]), (some ['y'], [6000, 8000])) ∧
    short (hdr (fastKeys ++ slowKeys)) none =
      some (tZapimage, (some ['s', 'a', 'm', 'z'], [1, 2, 3]), (some tSamy, [6000, 8000])) := by
  constructor <;> decide +kernel

/-- Not so: the numbers of pixels of header and image are not compared. -/
theorem size_unchecked : short (hdr (fastKeys ++ slowKeys)) (some (some 50, some 60)) =
    some (tZapimage, (some ['s', 'a', 'm', 'z'], [1, 2, 3]), (some tSamy, [6000, 8000])) := by decide +kernel

/-- Not so: a scan with zero pixels raises ZeroDivisionError. -/
theorem zero_pixels :
    (match parse cfg (hdr ([(tFast ++ tMot, tSamy), (tFast ++ tStart, ['5']), (tFast ++ tEnd, ['9']), (tFast ++ tNbp, ['0'])] ++ dims)) none with
      | .error e => some e
      | .ok _ => none) = some .zeroDivision := by decide +kernel

end SC.EdfHead
