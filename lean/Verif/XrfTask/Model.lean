import Verif.Grid.Model
import Verif.Common.Sort
/-! # Model of the XRF fitting task and of lazy image slices

`process/nxpymca.py` (class `Task`) and `process/nxlazy.py`.

Images hold rational numbers or NaN.  Exceptions are `none`.

Parameters of the model: the files that are read (`World.files`), the counts of incoming and outgoing
events per image and detector (`World.stats`), transmission and absorbance of pixels, the fit itself
(`fit`), the header of the scans.

Not modelled: HDF5, types and rounding of pixels, infinities, broadcasting, the summed and corrected
spectra themselves (C30, C50), quantification parameters of a fit, NaN on the stack axis. -/
namespace SC.XrfTask
open SC.Py SC.Naming SC.Grid
open SC.Xia (pyInt strInt)

/-- A pixel; `none`: NaN. -/
abbrev Px := Option Rat

structure Img where
  rows : Nat
  cols : Nat
  px : Nat → Nat → Px

/-! ## lazy slices (nxlazy.py) -/

/-- The functions of slices; `counter` is the function made in `_stack_add_counters`, `linear` an
operator of a diode. -/
inductive Fun where
  | counter
  | readedf
  | linear (m b : Rat)
  | transmission
  | absorbance
  | xrfnorm
  | nanmean
  | nansum
  | nanmax
  | sum
deriving DecidableEq, Repr

/-- Arguments of a slice; `none` is the object None. -/
inductive Arg where
  | file (name : Str)
  | dset (group signal : Str)
  | none
  | ref (q : Px)
  | xia (image : Nat)
  | num (n : Int)
  | slice (f : Fun) (unpack : Bool) (args : List Arg)

/-- `LazyFunction` or another callable. -/
def Fun.lazy : Fun → Bool
  | .counter => false
  | .linear _ _ => false
  | _ => true

/-- `samemerge`, nxlazy.py 73-144. -/
def Fun.samemerge : Fun → Bool
  | .nanmean => true
  | .nansum => true
  | .nanmax => true
  | .sum => true
  | .readedf => true
  | _ => false

/-- `LazyFunction.merge`, nxlazy.py 20-24. -/
def merge (f g : Fun) : Bool := if f = g then f.samemerge else false

/-- `LazyStackSlice.appendarg`, nxlazy.py 216-221; `none`: an exception (not a slice, or a function
without `merge`). -/
def appendArg : Arg → Arg → Option Arg
  | .slice f u args, .slice g v as =>
    if f.lazy then some (if merge f g then .slice f u (args ++ as) else .slice f u (args ++ [.slice g v as])) else none
  | .slice f u args, a => some (.slice f u (args ++ [a]))
  | _, _ => none

/-- What a slice is evaluated in.  `shape` holds the variables `n0` and `n1` of `_stack_add_counters`,
`h5` the signals saved so far. -/
structure World where
  files : Str → Option Img
  stats : Nat → Int → Option (Nat → Nat → Rat × Rat)
  transmission : Px → Px → Px
  absorbance : Px → Px
  shape : Nat × Nat
  h5 : Dict (Str × Str) (List Img)

inductive Val where
  | img (i : Img)
  | none
  | ref (q : Px)
  | xia (image : Nat)
  | num (n : Int)

def Val.img? : Val → Option Img
  | .img i => some i
  | _ => Option.none

/-- `img2[:m0, :m1] = img[:m0, :m1]`, nxpymca.py 503-512. -/
def fitShape (n0 n1 : Nat) (i : Img) : Img :=
  if i.rows = n0 ∧ i.cols = n1 then i
  else ⟨n0, n1, fun a b => if a < min i.rows n0 ∧ b < min i.cols n1 then i.px a b else some 0⟩

/-- A function of every pixel. -/
def Img.map (f : Px → Px) (i : Img) : Img := ⟨i.rows, i.cols, fun a b => f (i.px a b)⟩

/-- `x + y` of pixels -/
def addPx (x y : Px) : Px := match x, y with
  | some a, some b => some (a + b)
  | _, _ => none

/-- `x * y` of pixels -/
def mulPx (x y : Px) : Px := match x, y with
  | some a, some b => some (a * b)
  | _, _ => none

/-- `sum(list)`: `0 + x + …`. -/
def sumPx (l : List Px) : Px := l.foldl addPx (some 0)

/-- The values that are not NaN. -/
def valid (l : List Px) : List Rat := l.filterMap id

/-- `np.nansum(list, axis=0)` -/
def nansumPx (l : List Px) : Px := some (valid l).sum

/-- `np.nanmean(list, axis=0)` -/
def nanmeanPx (l : List Px) : Px := if valid l = [] then none else some ((valid l).sum / (valid l).length)

/-- `np.nanmax(list, axis=0)` -/
def nanmaxPx (l : List Px) : Px := match valid l with
  | [] => none
  | x :: r => some (r.foldl max x)

/-- `deadtimecorrector` of a pixel, xiaedf.py 755-762 (see C30). -/
def dtcorPx (s : Rat × Rat) : Rat := if s.2 = 0 ∨ s.1 < 1000 ∨ s.1 / s.2 < 1 then 1 else s.1 / s.2

/-- `fluxref / normalizer(flux)` of a pixel, xiaedf.py 765-768. -/
def fluxPx (ref flux : Px) : Px := match ref, flux with
  | some r, some f => some (r / if f = 0 then 1 else f)
  | _, _ => none

/-- A reduction of images of one shape. -/
def reduce (f : List Px → Px) : List Img → Option Img
  | [] => none
  | i :: is =>
    if is.all fun j => decide (j.rows = i.rows ∧ j.cols = i.cols) then
      some ⟨i.rows, i.cols, fun a b => f ((i :: is).map fun j => j.px a b)⟩
    else none

/-- The normalization of `lazy_xrfnorm`, nxlazy.py 53-56; `some none`: 1. -/
def normOf (x : Img) (flux ref : Val) : Option (Option Img) :=
  match ref with
  | .ref q =>
    if q = some 0 then some none
    else match flux with
      | .img f => if f.rows = x.rows ∧ f.cols = x.cols then some (some (f.map (fluxPx q))) else none
      | _ => none
  | _ => some none

/-- The dead time correction of `lazy_xrfnorm`, nxlazy.py 57-65; `some none`: 1. -/
def dtOf (w : World) (xia det : Val) : Option (Option (Nat → Nat → Rat × Rat)) :=
  match xia with
  | .xia k => match det with
    | .num n => (w.stats k n).map some
    | _ => none
  | _ => some none

/-- `lazy_xrfnorm`, nxlazy.py 51-67. -/
def xrfnorm (w : World) : List Val → Option Img
  | [.img x, flux, ref, xia, det] =>
    match normOf x flux ref, dtOf w xia det with
    | some norm, some dt =>
      some ⟨x.rows, x.cols, fun a b =>
        let v := match norm with
          | none => x.px a b
          | some n => mulPx (x.px a b) (n.px a b)
        match dt with
        | none => v
        | some s => mulPx v (some (dtcorPx (s a b)))⟩
    | _, _ => none
  | _ => none

/-- A function of a slice on its arguments, nxlazy.py 203-207; reductions take one list
(`unpackargs=False`), the others their arguments. -/
def apply (w : World) (f : Fun) (unpack : Bool) (vals : List Val) : Option Img :=
  match f, unpack with
  | .counter, true => match vals with
    | [.img i] => some (fitShape w.shape.1 w.shape.2 i)
    | _ => none
  | .readedf, true => match vals with
    | [.img i] => some i
    | _ => none
  | .linear m b, true => match vals with
    | [.img i] => some (i.map fun x => addPx (mulPx (some m) x) (some b))
    | _ => none
  | .transmission, true => match vals with
    | [.img i, .img j] => if i.rows = j.rows ∧ i.cols = j.cols then some ⟨i.rows, i.cols, fun a b => w.transmission (i.px a b) (j.px a b)⟩ else none
    | _ => none
  | .absorbance, true => match vals with
    | [.img i] => some (i.map w.absorbance)
    | _ => none
  | .xrfnorm, true => xrfnorm w vals
  | .nanmean, false => (vals.mapM Val.img?).bind (reduce nanmeanPx)
  | .nansum, false => (vals.mapM Val.img?).bind (reduce nansumPx)
  | .nanmax, false => (vals.mapM Val.img?).bind (reduce nanmaxPx)
  | .sum, false => (vals.mapM Val.img?).bind (reduce sumPx)
  | _, _ => none

mutual
/-- `LazyArgument.data`, nxlazy.py 147-214, for the image at `i` of the stack. -/
def eval (w : World) (i : Nat) : Arg → Option Val
  | .file n => (w.files n).map .img
  | .dset g s => (Dict.get? w.h5 (g, s)).bind fun l => l[i]?.map .img
  | .none => some .none
  | .ref q => some (.ref q)
  | .xia k => some (.xia k)
  | .num n => some (.num n)
  | .slice f u args => (evalList w i args).bind fun vals => (apply w f u vals).map .img
/-- `_arggen`, nxlazy.py 209-214. -/
def evalList (w : World) (i : Nat) : List Arg → Option (List Val)
  | [] => some []
  | a :: as => (eval w i a).bind fun v => (evalList w i as).map fun vs => v :: vs
end

/-! ## detectors (nxpymca.py 180-254) -/

/-- A detector as given by the user or found in file names. -/
inductive DName where
  | num (n : Int)
  | str (s : Str)
deriving DecidableEq, Repr

def DName.group : DName → Option Grp
  | .num n => grpOf (.num n)
  | .str s => grpOf (.str s)

/-- An element of `include_detectors`. -/
inductive Inc where
  | one (d : DName)
  | many (ds : List DName)
deriving DecidableEq, Repr

/-- `listtools.aslist`, listtools.py 177-181: a text becomes its characters. -/
def Inc.aslist : Inc → List DName
  | .one (.num n) => [.num n]
  | .one (.str s) => s.map fun c => .str [c]
  | .many ds => ds

/-- `listtools.flatten(include_detectors)` -/
def Inc.flat : Inc → List DName
  | .one d => [d]
  | .many ds => ds

structure Params where
  incl : List Inc
  adddetectors : Bool
  addbeforefit : Bool
  dtcor : Bool
  correctspectra : Bool
  /-- there is a geometry, nxpymca.py 266 -/
  fluxnorm : Bool

/-- The group of a sum. -/
def sumGroup (n : Int) : Option Grp := grpOf (.str ('S' :: strInt n))

/-- `max(numbers)`; `none`: ValueError. -/
def maxInt : List Int → Option Int
  | [] => none
  | x :: r => some (r.foldl max x)

structure Detectors where
  groups : Dict Grp (List DName)
  addspectra : Bool
  tofit : List Grp
  sumto : Dict Grp Grp
deriving DecidableEq, Repr

/-- The used detectors, nxpymca.py 184-196; `found`: `detectors_used` of the stack. -/
def usedDetectors (p : Params) (found : List Str) : List DName :=
  let used := p.incl.flatMap Inc.flat
  if used ≠ [] then
    let tmp := found.map fun s => if isdigit s then DName.num (pyInt s) else .str s
    used.filter fun d => d ∈ tmp
  else (SC.Common.stableSort id found).map .str

/-- The groups of several detectors, nxpymca.py 203-206. -/
def groupsFrom : Nat → List Inc → Dict Grp (List DName) → Option (Dict Grp (List DName))
  | _, [], d => some d
  | i, x :: xs, d => match sumGroup i with
    | none => none
    | some g => groupsFrom (i + 1) xs (Dict.set d g x.aslist)

/-- The groups of detectors, nxpymca.py 198-216. -/
def detectorGroups (p : Params) (used : List DName) : Option (Dict Grp (List DName)) :=
  if p.incl.any fun x => decide (1 < x.aslist.length) then groupsFrom 1 p.incl []
  else
    match used.mapM DName.group with
    | none => none
    | some gs =>
      let nums := (gs.filter fun g => g.category = 1).map Grp.number
      match sumGroup (match maxInt nums with
        | some m => m + 1
        | none => 1) with
      | none => none
      | some g => some [(g, used)]

/-- `self._detectors_sumto` for the detectors of one group, nxpymca.py 247-248. -/
def sumtoSingles (dest : Grp) : List DName → Dict Grp Grp → Option (Dict Grp Grp)
  | [], d => some d
  | x :: xs, d => match x.group with
    | none => none
    | some g => sumtoSingles dest xs (Dict.set d g dest)

/-- nxpymca.py 246-248 -/
def sumtoGroups : List (Grp × List DName) → Dict Grp Grp → Option (Dict Grp Grp)
  | [], d => some d
  | (dest, ds) :: r, d => match sumtoSingles dest ds d with
    | none => none
    | some d => sumtoGroups r d

/-- nxpymca.py 249-254 -/
def sumtoTotal (groups : List Grp) (d : Dict Grp Grp) : Option (Dict Grp Grp) :=
  match maxInt (d.keys.map Grp.number) with
  | none => none
  | some m => match sumGroup (m + 1) with
    | none => none
    | some dest => some (groups.foldl (fun d g => Dict.set d g dest) d)

/-- `_prepare_adddetector`, nxpymca.py 180-254. -/
def prepareDetectors (p : Params) (found : List Str) : Option Detectors :=
  let used := usedDetectors p found
  match detectorGroups p used with
  | none => none
  | some groups =>
    let adddetectors := decide (1 < used.length) && p.adddetectors
    let addgroups := decide (1 < groups.length)
    let addspectra := (adddetectors || addgroups) && p.addbeforefit
    match (if addspectra then some groups.keys else used.mapM DName.group) with
    | none => none
    | some tofit =>
      match (if addgroups || adddetectors then sumtoGroups groups [] else some []) with
      | none => none
      | some sumto =>
        match (if addgroups && adddetectors then sumtoTotal groups.keys sumto else some sumto) with
        | none => none
        | some sumto => some ⟨groups, addspectra, tofit, sumto⟩

/-! ## corrections (nxpymca.py 256-269, 366) -/

structure Flags where
  dtbefore : Bool
  dtafter : Bool
  fluxbefore : Bool
  fluxafter : Bool
  /-- the fitted spectra are new files -/
  newspectra : Bool
deriving DecidableEq, Repr

/-- `_prepare_fluxnorm`, `_prepare_dtcor` and the test in `_process_xiastackraw`. -/
def flags (p : Params) (addspectra : Bool) : Flags :=
  let dtbefore := p.dtcor && (p.correctspectra || addspectra)
  let fluxbefore := p.fluxnorm && p.correctspectra
  ⟨dtbefore, p.dtcor && !dtbefore, fluxbefore, p.fluxnorm && !fluxbefore, dtbefore || addspectra || fluxbefore⟩

/-! ## stacks -/

/-- `self.stacks` -/
abbrev Stacks := Dict Grp (Dict Str (List Arg))

/-- One image: the shape of its spectra, and its counter files per detector and counter. -/
structure Image where
  shape : Nat × Nat
  counters : List (Str × List (Str × Str))

/-- `self.stacks[name][ctr][imageindex] = o`; `none`: KeyError or IndexError. -/
def setSlice (st : Stacks) (g : Grp) (k : Str) (i : Nat) (a : Arg) : Option Stacks :=
  match Dict.get? st g with
  | none => none
  | some d => match Dict.get? d k with
    | none => none
    | some l => if i < l.length then some (Dict.set st g (Dict.set d k (l.set i a))) else none

/-- The counters of one detector in image `i`, nxpymca.py 524-529. -/
def addCounterFiles (g : Grp) (i : Nat) : List (Str × Str) → Stacks → Option Stacks
  | [], st => some st
  | (ctr, f) :: r, st => match setSlice st g ctr i (.slice .counter true [.file f]) with
    | none => none
    | some st => addCounterFiles g i r st

/-- The counters of image `i`, nxpymca.py 515-529. -/
def addCounterDets (nstack i : Nat) : List (Str × List (Str × Str)) → Stacks → Option Stacks
  | [], st => some st
  | (det, v1) :: r, st => match grpOf (.str det) with
    | none => none
    | some g =>
      let st := if i = 0 then Dict.set st g (Dict.update [] (v1.map fun x => (x.1, List.replicate nstack .none))) else st
      match addCounterFiles g i v1 st with
      | none => none
      | some st => addCounterDets nstack i r st

/-- The loop of `_stack_add_counters`, nxpymca.py 445-529. -/
def addCounters (nstack : Nat) : Nat → List Image → Stacks → Option Stacks
  | _, [], st => some st
  | i, im :: r, st => match addCounterDets nstack i im.counters st with
    | none => none
    | some st => addCounters nstack (i + 1) r st

/-- `self.counters` -/
def counterNames (images : List Image) : List Str := images.flatMap fun im => im.counters.flatMap fun x => x.2.map Prod.fst

/-- `n0, n1` when the slices are evaluated: those of the last image, nxpymca.py 501. -/
def lastShape (images : List Image) : Nat × Nat := (images.getLast?.map Image.shape).getD (0, 0)

/-- The names of the groups of counters. -/
def countersName : Str := counters.name

/-- "calc_flux0" -/
def flux0Name : Str := ['c', 'a', 'l', 'c', '_', 'f', 'l', 'u', 'x', '0']
/-- "calc_fluxt" -/
def fluxtName : Str := ['c', 'a', 'l', 'c', '_', 'f', 'l', 'u', 'x', 't']
/-- "calc_transmission" -/
def transName : Str := ['c', 'a', 'l', 'c', '_', 't', 'r', 'a', 'n', 's', 'm', 'i', 's', 's', 'i', 'o', 'n']
/-- "calc_absorbance" -/
def absName : Str := ['c', 'a', 'l', 'c', '_', 'a', 'b', 's', 'o', 'r', 'b', 'a', 'n', 'c', 'e']

/-- `_stack_add_flux`, nxpymca.py 561-620; `op0 i`, `opt i`: slope and offset of the diodes for image
`i`.  Simplified: data sets of these names are not counters. -/
def addFlux (nstack : Nat) (flux trans : Option Str) (op0 opt : Nat → Rat × Rat) (st : Stacks) : Option Stacks :=
  if flux = none ∧ trans = none then some st
  else match Dict.get? st counters with
    | none => none
    | some d =>
      let is := List.range nstack
      let d := match flux with
        | none => d
        | some c => Dict.set d flux0Name (is.map fun i => .slice (.linear (op0 i).1 (op0 i).2) true [.dset countersName c])
      let d := match trans with
        | none => d
        | some c =>
          let d := Dict.set d fluxtName (is.map fun i => .slice (.linear (opt i).1 (opt i).2) true [.dset countersName c])
          let d := Dict.set d transName (is.map fun _ => .slice .transmission true [.dset countersName fluxtName, .dset countersName flux0Name])
          Dict.set d absName (is.map fun _ => .slice .absorbance true [.dset countersName transName])
      some (Dict.set st counters d)

/-- The labels of image 0, nxpymca.py 703-707. -/
def newLabels (nstack : Nat) (st : Stacks) (g : Grp) (labels : List Str) : Stacks :=
  Dict.set st g (Dict.update ((Dict.get? st g).getD []) ((SC.Common.stableSort id labels).map fun l => (l, List.replicate nstack .none)))

/-- The files of one fit, nxpymca.py 710-713. -/
def addFitFiles (g : Grp) (i : Nat) : List (Str × Str) → Stacks → Option Stacks
  | [], st => some st
  | (label, f) :: r, st => match setSlice st g label i (.slice .readedf true [.file f]) with
    | none => none
    | some st => addFitFiles g i r st

/-- The fits of image `i`, nxpymca.py 674-713; `fit i detector cfg`: labels and files; `none`: an
exception (also when there are no files for the detector). -/
def addFitDets {C : Type} (fit : Nat → Grp → C → Option (List (Str × Str))) (nstack i : Nat) : List (Grp × C) → Stacks → Option Stacks
  | [], st => some st
  | (g, cfg) :: r, st => match fit i g cfg with
    | none => none
    | some files =>
      let st := if i = 0 then newLabels nstack st g (files.map Prod.fst) else st
      match addFitFiles g i files st with
      | none => none
      | some st => addFitDets fit nstack i r st

/-- The loop over the images, nxpymca.py 645-713. -/
def addFitImages {C : Type} (fit : Nat → Grp → C → Option (List (Str × Str))) (nstack : Nat) (dets : List (Grp × C)) : List Nat → Stacks → Option Stacks
  | [], st => some st
  | i :: r, st => match addFitDets fit nstack i dets st with
    | none => none
    | some st => addFitImages fit nstack dets r st

/-- The configurations of the detectors, nxpymca.py 634-643; `none`: RuntimeError. -/
def pairConfigs {C : Type} (tofit : List Grp) (cfgs : List C) : Option (List (Grp × C)) :=
  match cfgs with
  | [c] => some (tofit.map fun g => (g, c))
  | _ => if cfgs.length ≠ tofit.length then none else some (tofit.zip cfgs)

/-- `_stack_add_xrffit`, nxpymca.py 622-713. -/
def addFits {C : Type} (fit : Nat → Grp → C → Option (List (Str × Str))) (nstack : Nat) (tofit : List Grp) (cfgs : List C) (st : Stacks) :
    Option Stacks :=
  if cfgs.isEmpty then some st
  else match pairConfigs tofit cfgs with
    | none => none
    | some dets => addFitImages fit nstack dets (List.range nstack) st

/-- The corrections of one image of a fit result, nxpymca.py 798-818. -/
def postSlice (refs : List Px) (fluxnorm dtcor : Bool) (g : Grp) (i : Nat) (a : Arg) : Arg :=
  .slice .xrfnorm true
    ([a] ++ (if fluxnorm then [.dset countersName flux0Name, .ref (refs.getD i none)] else [.none, .none]) ++
      (if dtcor && !decide (g.category = 1) then [.xia i, .num g.number] else [.none, .none]))

/-- `_apply_postcorrect_xrf`, nxpymca.py 773-818. -/
def applyPost (refs : List Px) (fluxnorm dtcor : Bool) (ctrs : List Str) (st : Stacks) : Stacks :=
  st.map fun gd =>
    if 0 ≤ gd.1.category then
      (gd.1, gd.2.map fun kl => if kl.1 ∈ ctrs then kl else (kl.1, kl.2.mapIdx fun i a => postSlice refs fluxnorm dtcor gd.1 i a))
    else gd

/-- `_group_add_detectors`, nxpymca.py 759-771. -/
def addFun (ctrs : List Str) (k : Str) : Fun :=
  if k ∈ ctrs then .sum
  else if ['w'].isPrefixOf k then .nanmean
  else if hasSub ['c', 'h', 'i', 's', 'q'] k then .nanmax
  else .sum

/-- Appending every image of a detector, nxpymca.py 754-755. -/
def appendAll : List Arg → List Arg → Option (List Arg)
  | l, [] => some l
  | [], _ :: _ => none
  | s :: l, a :: as => match appendArg s a, appendAll l as with
    | some x, some r => some (x :: r)
    | _, _ => none

/-- The loop over the data sets of a detector, nxpymca.py 744-755. -/
def addLabels (nstack : Nat) (ctrs fixed : List Str) : List (Str × List Arg) → Dict Str (List Arg) → Option (Dict Str (List Arg))
  | [], d => some d
  | (k, l) :: r, d =>
    if k ∈ fixed then addLabels nstack ctrs fixed r d
    else match appendAll ((Dict.get? d k).getD (List.replicate nstack (.slice (addFun ctrs k) false []))) l with
      | none => none
      | some new => addLabels nstack ctrs fixed r (Dict.set d k new)

/-- One detector, nxpymca.py 732-757.  Not modelled: a group that is added to itself. -/
def addOne (nstack : Nat) (ctrs : List Str) (k1 dest : Grp) (st : Stacks) (fixed : Dict Grp (List Str)) : Option (Stacks × Dict Grp (List Str)) :=
  match Dict.get? st k1 with
  | none => some (st, fixed)
  | some d1 =>
    if k1 = dest then none
    else
      let d2 := (Dict.get? st dest).getD []
      let fx := (Dict.get? fixed dest).getD (Dict.keys d2)
      match addLabels nstack ctrs fx d1 d2 with
      | none => none
      | some d2 => some (Dict.del (Dict.set st dest d2) k1, Dict.set fixed dest fx)

/-- The loop of `_add_detectors`, nxpymca.py 733-757. -/
def addLoop (nstack : Nat) (ctrs : List Str) : List (Grp × Grp) → Stacks → Dict Grp (List Str) → Option (Stacks × Dict Grp (List Str))
  | [], st, fixed => some (st, fixed)
  | (k1, dest) :: r, st, fixed => match addOne nstack ctrs k1 dest st fixed with
    | none => none
    | some (st, fixed) => addLoop nstack ctrs r st fixed

/-- `_add_detectors`, nxpymca.py 728-757. -/
def addDetectors (nstack : Nat) (ctrs : List Str) (sumto : Dict Grp Grp) (st : Stacks) : Option Stacks :=
  (addLoop nstack ctrs sumto st []).map Prod.fst

/-- `np.argsort(values, kind="mergesort")` -/
def argsort (v : List Rat) : List Nat := SC.Common.stableSort (fun i => v.getD i 0) (List.range v.length)

/-- `[l[i] for i in ind]`; `none`: IndexError. -/
def permute {α : Type} (ind : List Nat) (l : List α) : Option (List α) := ind.mapM fun i => l[i]?

/-- A function of every value of a dictionary. -/
def mapVals {K V W : Type} (f : V → Option W) (d : Dict K V) : Option (Dict K W) := d.mapM fun kv => (f kv.2).map fun w => (kv.1, w)

/-- `_sort_stacks`, nxpymca.py 820-833: the stack axis, the info axes and the stacks. -/
def sortStacks {I : Type} (axis : List Rat) (info : List (List I)) (st : Stacks) : Option (List Rat × List (List I) × Stacks) :=
  let ind := argsort axis
  match permute ind axis, info.mapM (permute ind), mapVals (mapVals (permute ind)) st with
  | some a, some b, some c => some (a, b, c)
  | _, _, _ => none

/-! ## saving (nxpymca.py 834-889) -/

/-- Rows are added or removed, nxpymca.py 866-874. -/
def fitRows (n : Nat) (d : Img) : Img :=
  if d.rows < n then ⟨n, d.cols, fun a b => if a < d.rows then d.px a b else some 0⟩
  else if n < d.rows then ⟨n, d.cols, d.px⟩
  else d

/-- The images of one signal; `out`: the shape of images, decided by the very first one. -/
def exportSlices (w : World) : Nat → List Arg → Option (Nat × Nat) → Option (List Img × Option (Nat × Nat))
  | _, [], out => some ([], out)
  | i, a :: r, out => match eval w i a with
    | some (.img d) =>
      let shape := out.getD (d.rows, d.cols)
      if d.cols = shape.2 then
        match exportSlices w (i + 1) r (some shape) with
        | none => none
        | some (l, out) => some (fitRows shape.1 d :: l, out)
      else none
    | _ => none

/-- The signals of a group. -/
def exportSignals (g : Str) : List (Str × List Arg) → World → Option (Nat × Nat) → Option (World × Option (Nat × Nat))
  | [], w, out => some (w, out)
  | (k, l) :: r, w, out => match exportSlices w 0 l out with
    | none => none
    | some (imgs, out) => exportSignals g r { w with h5 := Dict.set w.h5 (g, k) imgs } out

/-- `_exportgroups` -/
def exportGroups : Stacks → World → Option (Nat × Nat) → Option (World × Option (Nat × Nat))
  | [], w, out => some (w, out)
  | (g, d) :: r, w, out => match exportSignals g.name d w out with
    | none => none
    | some (w, out) => exportGroups r w out

/-! ## the task (nxpymca.py 93-128) -/

/-- What the task works on. -/
structure Input (C I : Type) where
  params : Params
  /-- the detectors found in file names -/
  found : List Str
  images : List Image
  /-- energies of the images -/
  axis : List Rat
  info : List (List I)
  flux : Option Str
  trans : Option Str
  op0 : Nat → Rat × Rat
  opt : Nat → Rat × Rat
  /-- reference fluxes of the images -/
  refs : List Px
  fit : Nat → Grp → C → Option (List (Str × Str))
  cfgs : List C
  files : Str → Option Img
  stats : Nat → Int → Option (Nat → Nat → Rat × Rat)
  transmission : Px → Px → Px
  absorbance : Px → Px

/-- `_preparestacks`, nxpymca.py 97-109, with `_postcorrect` (715-726) and before `_sort_stacks`. -/
def prepareStacks {C I : Type} (x : Input C I) : Option Stacks :=
  let n := x.images.length
  match prepareDetectors x.params x.found with
  | none => none
  | some dets =>
    let fl := flags x.params dets.addspectra
    match addCounters n 0 x.images [] with
    | none => none
    | some st =>
      match (if x.params.fluxnorm then addFlux n x.flux x.trans x.op0 x.opt st else some st) with
      | none => none
      | some st =>
        match addFits x.fit n dets.tofit x.cfgs st with
        | none => none
        | some st =>
          let ctrs := counterNames x.images
          let st := applyPost x.refs fl.fluxafter fl.dtafter ctrs st
          if dets.sumto = [] then some st else addDetectors n ctrs dets.sumto st

/-- `_execute`: the stack axis, the info axes and the saved signals. -/
def execute {C I : Type} (x : Input C I) : Option (List Rat × List (List I) × Dict (Str × Str) (List Img)) :=
  match prepareStacks x with
  | none => none
  | some st =>
    match sortStacks x.axis x.info st with
    | none => none
    | some (axis, info, st) =>
      match exportGroups st ⟨x.files, x.stats, x.transmission, x.absorbance, lastShape x.images, []⟩ none with
      | none => none
      | some (w, _) => some (axis, info, w.h5)

end SC.XrfTask
