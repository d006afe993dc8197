import Mathlib.Algebra.Order.Ring.Rat
import Mathlib.Algebra.Order.Field.Rat
import Verif.Py.Dict
import Verif.Naming.Lemmas
/-! # Model of `simulation/xmimsim.py` and `io/spe.py` -/
namespace SC.Xmimsim

abbrev Str := List Char

/-- The part of the setup that is calculated, xmimsim.py:50-72. -/
structure Setup where
  sourceSize : Rat
  sourceDistance : Rat
  slitDistance : Rat
  slitWidth : Rat
  layer : Nat

def setup (sourceDistance beamsize : Rat) (atmosphere : Bool) : Setup :=
  { sourceSize := 0, sourceDistance := sourceDistance, slitDistance := sourceDistance / 2, slitWidth := beamsize / 2,
    layer := if atmosphere then 2 else 1 }

/-- `"Layer{}".format(i)`. -/
def layerName (i : Nat) : Str := "Layer".toList ++ Naming.pad 0 i

/-- The loop from the number of layers to ten, xmimsim.py:85-86, with the number of iterations. -/
def padFrom {α : Type} (unused : α) : Nat → Nat → Py.Dict Str α → Py.Dict Str α
  | 0, _, d => d
  | k + 1, i, d => padFrom unused k (i + 1) (Py.Dict.set d (layerName i) unused)

/-- xmimsim.py:82-86: no layers (or none configured) is left as it is. -/
def padLayers {α : Type} (unused : α) (d : Py.Dict Str α) : Py.Dict Str α :=
  if d.isEmpty then d else padFrom unused (10 - d.length) d.length d

/-- xmimsim.py:78-79. -/
def ensure {α : Type} (unused : α) (d : Py.Dict Str α) (n : Str) : Py.Dict Str α :=
  match Py.Dict.get? d n with
  | some _ => d
  | none => Py.Dict.set d n unused

/-- The attenuators that must be there, xmimsim.py:76-79. -/
def padAttenuators {α : Type} (unused : α) (d : Py.Dict Str α) : Py.Dict Str α :=
  ["BeamFilter0".toList, "BeamFilter1".toList, "Absorber".toList].foldl (ensure unused) d

/-- The programs of a simulation. -/
inductive Prog where
  | xmimsimPymca
  | xmso2xmsi
  | xmsi2xrmc
  | xrmc
deriving DecidableEq, Repr

/-- `run`, xmimsim.py:213-231: whether it succeeds and the programs that were started. -/
def run (ok : Prog → Bool) (runxrmc : Bool) : Bool × List Prog :=
  if !ok .xmimsimPymca then (false, [.xmimsimPymca])
  else if !ok .xmso2xmsi then (false, [.xmimsimPymca, .xmso2xmsi])
  else if runxrmc then
    if !ok .xmsi2xrmc then (false, [.xmimsimPymca, .xmso2xmsi, .xmsi2xrmc])
    else if !ok .xrmc then (false, [.xmimsimPymca, .xmso2xmsi, .xmsi2xrmc, .xrmc])
    else (true, [.xmimsimPymca, .xmso2xmsi, .xmsi2xrmc, .xrmc])
  else (true, [.xmimsimPymca, .xmso2xmsi])

/-- The loop that looks for the last result, xmimsim.py:241-243, with a bound on the number of files. -/
def lastResult (ex : Nat → Bool) : Nat → Nat → Nat
  | 0, i => i
  | f + 1, i => if ex (i + 1) then lastResult ex f (i + 1) else i

/-- `list.index` followed by an assignment: the first line with a property. -/
def replaceFirst (p : Str → Bool) (f : Str → Str) : List Str → List Str
  | [] => []
  | l :: ls => if p l then f l :: ls else l :: replaceFirst p f ls

/-- `x.rstrip()` for the ASCII white space. -/
def rstrip (l : Str) : Str := (l.reverse.dropWhile fun c => c = ' ' ∨ c = '\n' ∨ c = '\t' ∨ c = '\r').reverse

/-- `pat in s`. -/
def contains (pat : Str) : Str → Bool
  | [] => pat.isEmpty
  | c :: s => pat.isPrefixOf (c :: s) || contains pat s

/-- `s.replace(pat, new)` for a pattern that is not empty. -/
def replaceAll (pat new : Str) : Nat → Str → Str
  | _, [] => []
  | 0, s => s
  | f + 1, c :: s =>
    if pat.isPrefixOf (c :: s) then new ++ replaceAll pat new f ((c :: s).drop pat.length) else c :: replaceAll pat new f s

def outEmpty : Str := "    <outputfile/>".toList
def widthZero : Str := "    <pulse_width>0</pulse_width>".toList
def widthNew : Str := "    <pulse_width>1e-12</pulse_width>".toList
def widthEnd : Str := "1e-5</pulse_width>".toList
def widthEndNew : Str := "1e-12</pulse_width>".toList

/-- `patch_xmsi`, xmimsim.py:129-149, on the lines. -/
def patch (xmso : Str) (lines : List Str) : List Str :=
  let c := lines.map rstrip
  let c := replaceFirst (· == outEmpty) (fun _ => "    <outputfile>".toList ++ xmso ++ "</outputfile>".toList) c
  let c := replaceFirst (· == widthZero) (fun _ => widthNew) c
  replaceFirst (contains widthEnd) (fun l => replaceAll widthEnd widthEndNew l.length l) c

/-- The detector file of xrmc, xmimsim.py:168-173. -/
def patchDetector (lines : List Str) : List Str :=
  lines.map fun l =>
    if "FanoFactor".toList.isPrefixOf l then "FanoFactor 1e-10\n".toList
    else if "Noise".toList.isPrefixOf l then "Noise 1e-10\n".toList
    else l

/-- `s.split(" ")`. -/
def splitSpace : Str → List Str
  | [] => [[]]
  | c :: s =>
    if c = ' ' then [] :: splitSpace s
    else match splitSpace s with
      | [] => [[c]]
      | w :: ws => (c :: w) :: ws

/-- The calibration in a header, spe.py:15-21: `[0, 1]` without one, none when it can not be read. -/
def calibration (float : Str → Option Rat) (header : List Str) : Option (List Rat) :=
  match header.findIdx? (· == "$MCA_CAL:".toList) with
  | none => some [0, 1]
  | some i =>
    match header[i + 2]? with
    | none => none
    | some l => (splitSpace l).mapM float

/-- The energy of a channel, spe.py:22-23. -/
def energyAt : List Rat → Nat → Nat → Rat
  | [], _, _ => 0
  | c :: cs, i, ch => c * (ch : Rat) ^ i + energyAt cs (i + 1) ch

/-- `loadxmimsimresult` after reading, xmimsim.py:245-247: zero, gain and the energy of a channel. -/
def result (coeff : List Rat) (ch : Nat) : Option (Rat × Rat × Rat) :=
  match coeff with
  | [zero, gain] => some (zero, gain, energyAt coeff 0 ch)
  | _ => none

end SC.Xmimsim
