import Verif.Py.Dict
import Verif.Expression.Model
import Verif.XasPipe.Xia
import Mathlib.Algebra.Order.Ring.Rat
import Mathlib.Algebra.Order.Field.Rat
/-! # Model of the XAS pipelines of `pipelines/id21_xas.py`

`processEnergySynchronized` and `processNotSynchronized`, for Python 3.

Numbers are rational and a column is a function of the index of the energy.  Simplified: a division by zero gives zero
here (infinite or nan in numpy; the theorems exclude it); the median, the logarithm, the fits, the splines and the reading
of spec and XIA files are parameters.  Not modelled: plots, progress, logging, names and contents of the files that are
saved, negative limits of regions. -/
namespace SC.XasPipe
open SC.Py

/-- A column of numbers. -/
abbrev Col := Nat → Rat

/-- The argument `timelabel`: a label of its own, empty, or the label of the I0 counts. -/
inductive Label where
  | own | empty | iodet
deriving DecidableEq

/-- XRF spectra: number of channels and counts (energy, channel). -/
structure Xrf where
  nchan : Nat
  counts : Nat → Nat → Rat

/-- A spec scan: number of energies, columns (those of the counters by name), exposure time of the scan command (its magnitude in the unit of the command), spectra (none
without detector files), whether there is a file with statistics. -/
structure Scan where
  n : Nat
  energy : Col
  iodet : Col
  mtime : Col
  ctr : Str → Col
  realtime : Rat
  xrf : Option Xrf
  stat : Bool

/-- A counter: key in the dictionary (name in the result), "name", "bkg", "minlog", id21_xas.py:331-335. -/
structure Counter where
  out : Str
  name : Str
  bkg : Rat
  minlog : Bool

/-- Regions: label, first channel, channel after the last. -/
abbrev Rois := List (Str × Nat × Nat)

/-- Arguments of both functions. -/
structure Params where
  energyshift : Rat
  bkgxas : Rat
  bkgflux : Rat
  normmedian : Bool
  counters : List Counter
  /-- None (default of `processNotSynchronized`) or a tuple -/
  replacebasedir : Option (List Str)

/-- What is taken from elsewhere: `numpy.median`, `numpy.log`, and the fitter with the name of a configuration, spectra,
number of energies, energies. -/
structure Ext where
  median : List Rat → Rat
  log : Rat → Rat
  fit : Str → Xrf → Nat → Col → Except Err (Dict Str Col)

/-- The label after reading a scan and the exposure times, id21_xas.py:111-119 and 349-357. -/
def times (l : Label) (s : Scan) : Label × Col :=
  match l with
  | .own => (.own, s.mtime)
  | .empty => (.iodet, fun _ => s.realtime)
  | .iodet => (.iodet, s.iodet)

/-- The loop over repeats, with the label that is left. -/
def withTimes : Label → List Scan → Label × List (Scan × Col)
  | l, [] => (l, [])
  | l, s :: r => ((withTimes (times l s).1 r).1, (s, (times l s).2) :: (withTimes (times l s).1 r).2)

/-- Counts in the exposure time without background, id21_xas.py:123, 392, 396-398. -/
def corrected (bkg realtime : Rat) (counts time : Col) : Col := fun e => (counts e / realtime - bkg) * time e

/-- The time of the scan command is a quantity with a unit (spec.py:296, 449, 491, 533), from whose quotients pint subtracts no
other number than zero; assigning the result to an array drops the unit (id21_xas.py:123, 128, 392, 396-398). -/
def unitsOk (p : Params) : Bool := decide (p.bkgflux = 0) && p.counters.all fun c => decide (c.bkg = 0)

/-- Energies after the shift, id21_xas.py:121, 359. -/
def energies (p : Params) (s : Scan) : Col := fun e => s.energy e + p.energyshift

/-- The check of the energies, id21_xas.py:362-376. -/
def synchronized (p : Params) (a b : Scan) : Bool :=
  decide (a.n = b.n) && (List.range a.n).all fun e => decide (|energies p a e - energies p b e| ≤ 1 / 1000000)

/-- The I0 signal of all repeats, id21_xas.py:392, 400-401. -/
def norms (x : Ext) (p : Params) (n : Nat) (l : List (Scan × Col)) : List Col :=
  let raw := l.map fun s => corrected p.bkgflux s.1.realtime s.1.iodet s.2
  if p.normmedian then
    raw.map fun c => fun e => c e / x.median ((List.range n).flatMap fun i => raw.map fun d => d i)
  else raw

/-- Adding the normalised spectra of one repeat, id21_xas.py:432-442, with the shapes that numpy adds in place. -/
def addXrf (acc : Option Xrf) (s : Scan) (norm : Col) : Except Err Xrf :=
  match s.xrf with
  | none => match acc with
    | none => .ok ⟨1, fun e _ => norm e * 0⟩
    | some a => .ok a
  | some d =>
    if s.stat then
      match acc with
      | none => .ok ⟨d.nchan, fun e c => d.counts e c / norm e⟩
      | some a =>
        if d.nchan = a.nchan then .ok ⟨a.nchan, fun e c => a.counts e c + d.counts e c / norm e⟩
        else if d.nchan = 1 then .ok ⟨a.nchan, fun e c => a.counts e c + d.counts e 0 / norm e⟩
        else .error .valueError
    else .error .indexError

/-- The loop over the repeats, id21_xas.py:404-442; without repeats "data" is missing (448). -/
def sumXrf : List (Scan × Col) → Option Xrf → Except Err Xrf
  | [], none => .error .keyError
  | [], some a => .ok a
  | (s, norm) :: r, acc =>
    match addXrf acc s norm with
    | .error e => .error e
    | .ok a => sumXrf r (some a)

/-- Mean, background and cut, id21_xas.py:448-452. -/
def finish (bkgxas : Rat) (nrepeats : Nat) (x : Xrf) : Xrf :=
  ⟨x.nchan, fun e c => if x.counts e c / nrepeats - bkgxas < 0 then 0 else x.counts e c / nrepeats - bkgxas⟩

/-- Sum over `[a:b]`, id21_xas.py:500-502. -/
def roiSum (x : Xrf) (a b : Nat) : Col := fun e => ((((List.range x.nchan).take b).drop a).map (x.counts e)).sum

/-- Replacing the base directory once, id21_xas.py:135-139, 411-414. -/
def replaceOnce (r : List Str) (s : Str) : Str :=
  match r with
  | [a, b] => Expression.replace s a b
  | _ => s

/-- Replacing it at each repeat. -/
def replaceTimes (r : List Str) : Nat → Str → Str
  | 0, s => s
  | n + 1, s => replaceTimes r n (replaceOnce r s)

def kEnergy : Str := ['e', 'n', 'e', 'r', 'g', 'y']
def kNorm : Str := ['n', 'o', 'r', 'm']

/-- The background with which "counter_" + name is left: counters with the same name share an array,
id21_xas.py:383-387, 394-398. -/
def lastBkg (cs : List Counter) (name : Str) : Rat :=
  cs.foldl (fun b c => if c.name = name then c.bkg else b) 0

/-- Mean of a normalised counter, id21_xas.py:517-527. -/
def counterCol (x : Ext) (cs : List Counter) (l : List ((Scan × Col) × Col)) (c : Counter) : Col := fun e =>
  let m := (l.map fun q => corrected (lastBkg cs c.name) q.1.1.realtime (q.1.1.ctr c.name) q.1.2 e / q.2 e).sum / l.length
  if c.minlog then - x.log m else m

/-- Fit or regions, id21_xas.py:463-502: `last` tells whether the last repeat has detector files. -/
def xrfResults (x : Ext) (rois : Option Rois) (cfg : Str) (data : Xrf) (last : Bool) (n : Nat) (energy : Col) :
    Except Err (Dict Str (List Col)) :=
  match rois with
  | some rois => .ok (Dict.update [] (rois.map fun r => (r.1, [roiSum data r.2.1 r.2.2])))
  | none =>
    if last then
      match x.fit cfg data n energy with
      | .error e => .error e
      | .ok d => .ok (d.map fun q => (q.1, [q.2]))
    else .ok []

/-- Energy, counters and I0 are added to the results, id21_xas.py:513-530. -/
def addRest (x : Ext) (p : Params) (energy : Col) (l : List (Scan × Col)) (ns : List Col) (d : Dict Str (List Col)) :
    Dict Str (List Col) :=
  Dict.set (Dict.update (Dict.set d kEnergy [energy]) (p.counters.map fun c => (c.out, [counterCol x p.counters (l.zip ns) c])))
    kNorm ns

/-- One spectrum of `processEnergySynchronized`, id21_xas.py:340-530. -/
def spectrum (x : Ext) (p : Params) (rois : Option Rois) (cfg : Str) (l : List (Scan × Col)) : Except Err (Dict Str (List Col)) :=
  match l with
  | [] => .error .keyError
  | s0 :: r =>
    if !unitsOk p then .error .dimensionality
    else if r.all fun s => synchronized p s0.1 s.1 then
      match p.replacebasedir with
      | none => .error .typeError
      | some rep =>
        match sumXrf (((s0 :: r).map Prod.fst).zip (norms x p s0.1.n (s0 :: r))) none with
        | .error e => .error e
        | .ok d =>
          match xrfResults x rois (replaceTimes rep (s0 :: r).length cfg) (finish p.bkgxas (s0 :: r).length d)
              (((s0 :: r).getLast?.bind fun s => s.1.xrf).isSome) s0.1.n (energies p s0.1) with
          | .error e => .error e
          | .ok res => .ok (addRest x p (energies p s0.1) (s0 :: r) (norms x p s0.1.n (s0 :: r)) res)
    else .error .valueError

/-- `processEnergySynchronized`, id21_xas.py:340-542: the label and the name of the configuration are kept for the next
spectrum. -/
def processSync (x : Ext) (p : Params) (rois : Option Rois) : Label → Str → List (List Scan) → Except Err (List (Dict Str (List Col)))
  | _, _, [] => .ok []
  | lbl, cfg, ss :: r =>
    match spectrum x p rois cfg (withTimes lbl ss).2 with
    | .error e => .error e
    | .ok d =>
      match processSync x p rois (withTimes lbl ss).1 (replaceTimes (p.replacebasedir.getD []) ss.length cfg) r with
      | .error e => .error e
      | .ok l => .ok (d :: l)

/-! ## Without synchronization -/

/-- `acc[group] += g(res[group])` for all groups, id21_xas.py:207-208, 222-226. -/
def addGroups (g : Col → Col) : Dict Str Col → Dict Str Col → Except Err (Dict Str Col)
  | acc, [] => .ok acc
  | acc, (k, c) :: r =>
    match Dict.get? acc k with
    | none => .error .keyError
    | some a => addGroups g (Dict.set acc k fun e => a e + g c e) r

/-- The only element of a list or the one of detector `k`, id21_xas.py:178-181, 195-198. -/
def pick {α : Type} (l : List α) (k : Nat) : Except Err α :=
  match (if l.length = 1 then l[0]? else l[k]?) with
  | none => .error .indexError
  | some a => .ok a

/-- `PerformFit` and `PerformRoi` on files: I0 and energies are arguments. -/
structure FileExt where
  median : List Rat → Rat
  fit : List Str → Str → Col → Col → Except Err (Dict Str Col)
  roi : List Str → Rois → Col → Except Err (Dict Str Col)
  /-- spline through (number, energies, values) -/
  spline : Nat → Col → Col → Rat → Rat

/-- The result of one detector, id21_xas.py:177-201. -/
def detResult (x : FileExt) (cfgs : List Str) (rois : Option (List Rois)) (norm energy : Col) (k : Nat) (files : List Str) :
    Except Err (Dict Str Col) :=
  match rois with
  | none => match pick cfgs k with
    | .error e => .error e
    | .ok c => x.fit files c norm energy
  | some rs => match pick rs k with
    | .error e => .error e
    | .ok r => x.roi files r norm

/-- The loop over the detectors from number `k`, id21_xas.py:171-208; `detnums[k]` raises (173). -/
def addDets (f : Nat → List Str → Except Err (Dict Str Col)) (ndetnums : Nat) : Nat → List (List Str) → Dict Str Col →
    Except Err (Dict Str Col)
  | _, [], acc => .ok acc
  | k, files :: r, acc =>
    if ndetnums ≤ k then .error .indexError
    else if files.isEmpty then addDets f ndetnums (k + 1) r acc
    else match f k files with
      | .error e => .error e
      | .ok d =>
        if acc.isEmpty then addDets f ndetnums (k + 1) r d
        else match addGroups id acc d with
          | .error e => .error e
          | .ok a => addDets f ndetnums (k + 1) r a

/-- I0 of one repeat, id21_xas.py:123, 130-131. -/
def normNoSync (median : List Rat → Rat) (p : Params) (s : Scan × Col) : Col :=
  let c := corrected p.bkgflux s.1.realtime s.1.iodet s.2
  if p.normmedian then fun e => c e / median ((List.range s.1.n).map c) else c

/-- One repeat, id21_xas.py:110-215: `len(None)` raises (135); with counters the index in `counters.keys()` raises (215). -/
def repeatNoSync (x : FileExt) (p : Params) (rep : Option (List Str)) (cfgs : List Str) (rois : Option (List Rois)) (s : Scan × Col)
    (parsed : Except Err (List (List Str) × List Nat)) : Except Err (Dict Str Col) :=
  if !unitsOk p then .error .dimensionality
  else match rep with
  | none => .error .typeError
  | some _ =>
    match parsed with
    | .error e => .error e
    | .ok (files, dets) =>
      match addDets (detResult x cfgs rois (normNoSync x.median p s) (energies p s.1)) dets.length 0 files [] with
      | .error e => .error e
      | .ok d => if p.counters.isEmpty then .ok d else .error .typeError

/-- The loop over the repeats, id21_xas.py:109-226: sum so far, its energies, names of configurations. -/
def repeatsNoSync (x : FileExt) (p : Params) (rois : Option (List Rois)) :
    List ((Scan × Col) × Except Err (List (List Str) × List Nat)) → List Str → Dict Str Col → Col → Except Err (Dict Str Col × Col)
  | [], _, acc, energy => .ok (acc, energy)
  | (s, parsed) :: r, cfgs, acc, energy =>
    match repeatNoSync x p p.replacebasedir (cfgs.map (replaceOnce (p.replacebasedir.getD []))) rois s parsed with
    | .error e => .error e
    | .ok d =>
      if acc.isEmpty then
        repeatsNoSync x p rois r (cfgs.map (replaceOnce (p.replacebasedir.getD []))) d (energies p s.1)
      else match addGroups (fun c => fun e => x.spline s.1.n (energies p s.1) c (energy e)) acc d with
        | .error e => .error e
        | .ok a => repeatsNoSync x p rois r (cfgs.map (replaceOnce (p.replacebasedir.getD []))) a energy

/-- One spectrum of `processNotSynchronized` with repeats, id21_xas.py:103-261. -/
def spectrumNoSync (x : FileExt) (p : Params) (rois : Option (List Rois)) (cfgs : List Str)
    (l : List ((Scan × Col) × Except Err (List (List Str) × List Nat))) : Except Err (Dict Str Col) :=
  match repeatsNoSync x p rois l cfgs [] (fun _ => 0) with
  | .error e => .error e
  | .ok (d, energy) => .ok (Dict.set (d.map fun q => (q.1, fun e => q.2 e / l.length)) kEnergy energy)

end SC.XasPipe
