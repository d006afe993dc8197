import Verif.Slicing.Spec
import Verif.Slicing.Model
import Verif.Py.Dict
import Mathlib.Algebra.Order.Ring.Rat
/-! # Model of the tasks on Bliss scans before they are merged

`process/nxblissmcapre.py` (spectra corrected for dead time and added) and `process/nxblisspymca.py`
(results of the detectors fitted and added).

Values are rational numbers; `none` is a number that is not finite.  Exceptions are `none` too.

Parameters of the model: regular expressions (predicates on names), the spectra and live times that are
read, the results of the fit.

Not modelled: HDF5 files and links, rounding of floating point numbers, broadcasting of arrays with
different shapes, the attributes of the results. -/
namespace SC.Bliss
open SC.Py SC.Numpy SC.Slicing

/-- Names of groups and data sets. -/
abbrev Name := List Char

/-- A value in an array; `none`: infinite or NaN. -/
abbrev Val := Option Rat

/-! ## nxblissmcapre.py -/

/-- `_matching_names`, nxblissmcapre.py 60-68. -/
def matchingNames (names : List Name) (patterns : List (Name → Bool)) : List Name :=
  patterns.flatMap fun p => names.filter p

/-- A detector of a scan: its spectra, per pixel and channel, and its counters, per pixel. -/
structure Det where
  data : List Nat → Rat
  live : Option (List Nat → Rat)
  outputLive : Option (List Nat → Rat)
  events : Option (List Nat → Rat)
  triggerRate : Option (List Nat → Rat)

/-- Division of arrays. -/
def div (a : Val) (b : Val) : Val :=
  match a, b with
  | some x, some y => if y = 0 then none else some (x / y)
  | _, _ => none

/-- Addition of arrays. -/
def add (a b : Val) : Val :=
  match a, b with
  | some x, some y => some (x + y)
  | _, _ => none

/-- `_open_livetime`, nxblissmcapre.py 134-153.  Both counters of lines 144-145 are "events". -/
def liveTime (d : Det) : Option (List Nat → Val) :=
  match d.live with
  | some f => some fun p => some (f p)
  | none =>
    match d.outputLive with
    | some f => some fun p => some (f p)
    | none =>
      match d.events, d.events with
      | some ev, some icr => some fun p => div (some (ev p)) (some (icr p))
      | _, _ => none

/-- Writing a number in a data set; a data set of integers drops the decimals. -/
def store (isint : Bool) (v : Val) : Val :=
  if isint then v.map fun q => ((q.num.tdiv q.den : Int) : Rat) else v

/-- The pixel of an element of the spectra: the last index is the channel (`idx[:-1]`). -/
def pixel (p : List Nat) : List Nat := p.dropLast

/-- A corrected element, nxblissmcapre.py 92-96, 101, 127: counts * preset_time / live time. -/
def corrected (preset : Rat) (d : Det) (lt : List Nat → Val) (p : List Nat) : Val :=
  div (some (d.data p * preset)) (lt (pixel p))

/-- The elements of an assignment `result[idx] = …`. -/
def assign (shape : List Nat) (idx : List Item) (f : List Nat → Val) (a : List Nat → Val) : List Nat → Val :=
  fun p => if Selects idx shape p then f p else a p

/-- The slices of an array: `slice_generator(shape[::-1], dtype)`, reversed (lines 85, 90-91). -/
def slices (shape : List Nat) (nbytes : Nat) (mb : Rat) : List (List Item) :=
  (sliceGenerator shape.reverse nbytes mb).map List.reverse

/-- The loop over the slices. -/
def fill (shape : List Nat) (nbytes : Nat) (mb : Rat) (f : List Nat → Val) : List Nat → Val :=
  (slices shape nbytes mb).foldl (fun a idx => assign shape idx f a) fun _ => some 0

/-- `mapM` for exceptions. -/
def allSome {α β : Type} (f : α → Option β) : List α → Option (List β)
  | [] => some []
  | x :: l =>
    match f x, allSome f l with
    | some y, some r => some (y :: r)
    | _, _ => none

/-- The element of a slice in `_mca_add` after its loop over the detectors, lines 92-103. -/
def addElement (isint : Bool) (preset : Rat) : List (Det × (List Nat → Val)) → List Nat → Val
  | [], _ => none
  | d :: ds, p => ds.foldl (fun v e => store isint (add v (corrected preset e.1 e.2 p))) (store isint (corrected preset d.1 d.2 p))

/-- `_mca_add`, nxblissmcapre.py 70-104: the data set of the summed detector. -/
def mcaAdd (isint : Bool) (preset : Rat) (shape : List Nat) (nbytes : Nat) (mb : Rat) (dets : List Det) : Option (List Nat → Val) :=
  match dets with
  | [] => none
  | _ :: _ =>
    match allSome (fun d => (liveTime d).map fun lt => (d, lt)) dets with
    | none => none
    | some l => some (fill shape nbytes mb (addElement isint preset l))

/-- One detector of `_mca_dtcor`, lines 108-129. -/
def mcaDtcor (isint : Bool) (preset : Rat) (shape : List Nat) (nbytes : Nat) (mb : Rat) (d : Det) : Option (List Nat → Val) :=
  (liveTime d).map fun lt => fill shape nbytes mb fun p => store isint (corrected preset d lt p)

/-- The names under which results are linked; a name that exists cannot be linked again
(`_mca_nxdetector`, lines 164-168; `copy`, lines 183, 191). -/
def addNew {β : Type} (d : Dict Name β) (n : Name) (v : β) : Option (Dict Name β) :=
  match d.get? n with
  | some _ => none
  | none => some (d.set n v)

/-- Results of the task: detectors to be fitted and counters. -/
inductive Result where
  | mca (data : List Nat → Val)
  | counter (c : Name)

/-- `_mca_dtcor` for all detectors. -/
def dtcorAll (isint : Bool) (preset : Rat) (shape : List Nat) (nbytes : Nat) (mb : Rat) (suffix : Name) (instr : Name → Det) :
    List Name → Dict Name Result → Option (Dict Name Result)
  | [], r => some r
  | n :: l, r =>
    match mcaDtcor isint preset shape nbytes mb (instr n) with
    | none => none
    | some a =>
      match addNew r (n ++ suffix) (.mca a) with
      | none => none
      | some r' => dtcorAll isint preset shape nbytes mb suffix instr l r'

/-- `_mca_link` for all detectors, lines 155-162: the name does not depend on the detector. -/
def linkAll (suffix : Name) (instr : Name → Det) : List Name → Dict Name Result → Option (Dict Name Result)
  | [], r => some r
  | n :: l, r =>
    match addNew r (['m', 'c', 'a'] ++ suffix) (.mca fun p => some ((instr n).data p)) with
    | none => none
    | some r' => linkAll suffix instr l r'

/-- Splitting at "/". -/
def splitSlash : Name → List Name
  | [] => [[]]
  | c :: l =>
    match splitSlash l with
    | [] => [[c]]
    | w :: ws => if c = '/' then [] :: w :: ws else (c :: w) :: ws

/-- The name of a counter in the results, `_add_counters`, lines 170-193: more than one "/" raises. -/
def counterName (n : Name) : Option Name :=
  match splitSlash n with
  | [_] => some n
  | [_, b] => some b
  | _ => none

/-- `_add_counters`. -/
def addCounters : List Name → Dict Name Result → Option (Dict Name Result)
  | [], r => some r
  | n :: l, r =>
    match counterName n with
    | none => none
    | some k =>
      match addNew r k (.counter n) with
      | none => none
      | some r' => addCounters l r'

/-- The parameters of the task. -/
structure Pre where
  patterns : List (Name → Bool)
  preset : Rat
  add : Bool
  dtcor : Bool
  suffix : Name
  counters : List Name
  /-- The corrected data are saved as integers: live times (when adding) or counts, and the preset time. -/
  isint : Bool

/-- `_execute`, nxblissmcapre.py 26-58: the results for a scan with detectors `names`. -/
def pre (x : Pre) (names : List Name) (instr : Name → Det) (shape : List Nat) (nbytes : Nat) (mb : Rat) : Option (Dict Name Result) :=
  let dets := matchingNames names x.patterns
  if dets = [] then none
  else if x.add then
    if x.dtcor then
      match mcaAdd x.isint x.preset shape nbytes mb (dets.map instr) with
      | none => none
      | some a => addCounters x.counters [(['m', 'c', 'a'] ++ x.suffix, .mca a)]
    else none
  else
    match (if x.dtcor then dtcorAll x.isint x.preset shape nbytes mb x.suffix instr dets [] else linkAll x.suffix instr dets []) with
    | none => none
    | some r => addCounters x.counters r

/-! ## nxblisspymca.py -/

/-- The configurations of the detectors, nxblisspymca.py 55-71. -/
def pairConfigs {κ : Type} (cfgs : List κ) (dets : List Name) : Option (List (Option κ × Name)) :=
  if dets = [] then none
  else
    match cfgs with
    | [] => some (dets.map fun d => (none, d))
    | [c] => some (dets.map fun d => (some c, d))
    | _ => if cfgs.length = dets.length then some (List.zip (cfgs.map some) dets) else none

/-- Data of the results: arrays with the same shape, as a list of values. -/
abbrev Signals := Dict Name (List Val)

/-- The results of a detector: signals per NXdata. -/
abbrev Fitted := Dict Name Signals

/-- `dsetout[()] += dsetin[()]` for two data sets of the same shape; other shapes raise and are ignored
(lines 131-136). -/
def addSignal (out : Signals) (s : Name × List Val) : Signals :=
  match out.get? s.1 with
  | none => out
  | some v => if v.length = s.2.length then out.set s.1 (List.zipWith add v s.2) else out

/-- The other detectors, lines 122-136: their signals are added to those of the first. -/
def addDetector (nxdatas : List Name) (out : Fitted) (det : Fitted) : Fitted :=
  nxdatas.foldl (fun o k =>
    match det.get? k, o.get? k with
    | some sig, some cur => o.set k (sig.foldl addSignal cur)
    | _, _ => o) out

/-- The results copied from the first detector, lines 112-120. -/
def copyFirst (nxdatas : List Name) (det : Fitted) : Fitted :=
  nxdatas.filterMap fun k => (det.get? k).map fun s => (k, s)

def kParameters : Name := ['p','a','r','a','m','e','t','e','r','s']
def kMassfractions : Name := ['m','a','s','s','f','r','a','c','t','i','o','n','s']
def kCounters : Name := ['c','o','u','n','t','e','r','s']

/-- The counters are added to the results of every detector, lines 97-103.  Counters with different
shapes raise (nxfs.py 823-843). -/
def withCounters (counters : Signals) (det : Fitted) : Fitted :=
  if counters = [] then det else det.set kCounters counters

/-- Saved results, lines 73-136, from the results of the fit of every detector (`none`: no
configuration, no results). -/
def saved (counters : Signals) (fits : List Fitted) : Fitted :=
  let nxdatas := [kParameters, kMassfractions] ++ (if counters = [] then [] else [kCounters])
  match fits.map (withCounters counters) with
  | [] => []
  | d :: ds => ds.foldl (addDetector nxdatas) (copyFirst nxdatas d)

end SC.Bliss
