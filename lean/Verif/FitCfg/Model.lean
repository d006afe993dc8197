import Verif.Py.Dict
import Mathlib.Algebra.Order.Ring.Rat
import Mathlib.Algebra.Order.Field.Rat
/-! # Model of the adaptation of fit configurations and of fits at several energies

`xrf/fit.py`: `AdaptPyMcaConfig` and its parts, `PerformRoi`, `PerformFit`.

Numbers are rational; `none` is a number that is not finite (NaN, infinite, None, a text that is no
number).  Exceptions are `none` too.

The fit itself is a parameter; configuring it is taken not to change the configuration.  Not modelled: reading configurations and EDF files, plots, progress,
the text of the log message, PyMca without M subgroups (raises). -/
namespace SC.FitCfg
open SC.Py

/-- Names of elements, line groups and results. -/
abbrev Name := List Char

/-- A number that may be missing. -/
abbrev Val := Option Rat

/-- Division of numpy arrays. -/
def div (a b : Val) : Val :=
  match a, b with
  | some x, some y => if y = 0 then none else some (x / y)
  | _, _ => none

/-- The source lines: lists in `cfg["fit"]`. -/
structure Lines where
  energy : List Val
  weight : List Val
  flag : List Rat
  scatter : List Rat
deriving DecidableEq

/-- The elements of a list of which the flag is set: `arr[ind]`. -/
def select {α : Type} (ind : List Bool) (l : List α) : List α := (l.zip ind).filterMap fun x => if x.2 then some x.1 else none

/-- Appending default values up to a length. -/
def padTo {α : Type} (n : Nat) (default : α) (l : List α) : List α := l ++ List.replicate (n - l.length) default

/-- `extract`, fit.py 60-76. -/
def extract {α : Type} (ind : List Bool) (nen : Nat) (default : α) (l : List α) : List α :=
  padTo nen default (select ind ((padTo ind.length default l).take ind.length))

/-- A number of `addhigh` other than zero. -/
def isHigh (addhigh : Rat) : Bool := decide (addhigh ≠ 0)

/-- Missing energies, fit.py 87-93. -/
def fillEnergy (energy addhigh : Rat) (l : List Val) : List Rat :=
  l.zipIdx.map fun x => match x.1 with
    | some q => q
    | none => if x.2 = 0 then energy else addhigh * energy

/-- Missing weights, fit.py 94-98. -/
def fillWeight (l : List Val) : List Rat :=
  l.zipIdx.map fun x => match x.1 with
    | some q => q
    | none => if x.2 = 0 then 1 else 1 / 10000000000

/-- The high energy is there already, fit.py 100-110; `l[-2]` raises when there is a single line. -/
def alreadyHigh (energy : Rat) (es ws : List Rat) : Option Bool :=
  match es.reverse, ws.reverse, ws with
  | _ :: e :: _, _ :: w :: _, w0 :: _ => some (decide (w / w0 < 1 / 100000 ∧ energy < e))
  | _, _, _ => none

/-- `AdaptPyMcaConfig_energy`, fit.py 51-122, the source lines; the number is `nenergies`. -/
def adaptEnergy (energy addhigh : Rat) (c : Lines) : Option (Lines × Nat) :=
  let ind := c.flag.map fun f => decide (f ≠ 0)
  let norg := ind.length
  let nen := ind.count true + if isHigh addhigh then 1 else 0
  let es := extract ind nen none c.energy
  let ws := extract ind nen none c.weight
  let fs := extract ind nen 1 c.flag
  let ss := extract ind nen 0 c.scatter
  match es.head?, ws.head? with
  | some e0, some w0 =>
    let es := fillEnergy energy addhigh (es.map fun e => (div e e0).map (· * energy))
    let ws := fillWeight (ws.map fun w => div w w0)
    let out (es ws : List Rat) (fs ss : List Rat) : Lines :=
      ⟨padTo norg none (es.map some), padTo norg (some 0) (ws.map some), padTo norg 0 fs, padTo norg 0 ss⟩
    if isHigh addhigh then
      match alreadyHigh energy es ws with
      | none => none
      | some true => some (out es.dropLast ws.dropLast fs.dropLast ss.dropLast, nen - 1)
      | some false => some (out es ws fs ss, nen)
    else some (out es ws fs ss, nen)
  | _, _ => none

/-- `cfg["attenuators"]["Matrix"]`: in use, material, density, thickness, angles. -/
structure Matrix where
  on : Rat
  material : Name
  density : Rat
  thickness : Rat
  anglein : Rat
  angleout : Rat
  total : Rat
deriving DecidableEq

/-- `cfg["concentrations"]`. -/
structure Conc where
  flux : Rat
  time : Rat
  area : Rat
  distance : Rat
deriving DecidableEq

/-- The parts of a configuration that are adapted. -/
structure Config where
  lines : Lines
  peaks : Dict Name (List Name)
  matrix : Matrix
  conc : Conc
  linear : Rat
  strategy : Option Rat
  weight : Rat
  /-- the material Dummy is defined -/
  dummy : Bool
deriving DecidableEq

def kDummy : Name := ['D', 'u', 'm', 'm', 'y']
def kM : Name := ['M']

/-- `AdaptPyMcaConfig_energy`, fit.py 51-136; an energy that is not finite changes nothing. -/
def adaptSource (energy : Val) (addhigh : Rat) (c : Config) : Option Config :=
  match energy with
  | none => some c
  | some e =>
    match adaptEnergy e addhigh c.lines with
    | none => none
    | some (l, n) =>
      some (if c.matrix.on = 0 ∧ 1 < n then
        { c with lines := l, dummy := true, matrix := { c.matrix with on := 1, material := kDummy, density := 1, thickness := 0 } }
      else { c with lines := l })

/-- `AdaptPyMcaConfig_mlines`, fit.py 177-182. -/
def adaptMlines (mlines : List (Name × List Name)) (peaks : Dict Name (List Name)) : Dict Name (List Name) :=
  mlines.foldl (fun p x =>
    match p.get? x.1 with
    | none => p
    | some g => if kM ∈ g then p.set x.1 (g.filter (fun y => y ≠ kM) ++ x.2) else p) peaks

/-- The parameters of a quantification: missing ones are not changed. -/
structure Quant where
  flux : Option Rat
  time : Option Rat
  area : Option Rat
  distance : Option Rat
  anglein : Option Rat
  angleout : Option Rat

/-- `AdaptPyMcaConfig_quant`, fit.py 185-201. -/
def adaptQuant (q : Quant) (c : Config) : Config :=
  let conc : Conc := ⟨q.flux.getD c.conc.flux, q.time.getD c.conc.time, q.area.getD c.conc.area, q.distance.getD c.conc.distance⟩
  let m := { c.matrix with anglein := q.anglein.getD c.matrix.anglein, angleout := q.angleout.getD c.matrix.angleout }
  let m := if q.anglein.isSome || q.angleout.isSome then { m with total := m.anglein + m.angleout } else m
  { c with conc := conc, matrix := m }

/-- `AdaptPyMcaConfig_fast`, fit.py 204-213. -/
def adaptFast (c : Config) : Config :=
  { c with linear := if c.linear = 0 then 1 else c.linear, strategy := some 0, weight := 0 }

/-- The lists of the lines can be indexed with the flags, fit.py 222-226. -/
def sameLength (l : Lines) : Bool :=
  l.energy.length == l.flag.length && l.weight.length == l.flag.length && l.scatter.length == l.flag.length

/-- `AdaptPyMcaConfig` after the lines, fit.py 270-276. -/
def adaptRest (mlines : List (Name × List Name)) (quant : Option Quant) (fast : Bool) (c : Config) : Config :=
  let c := { c with peaks := adaptMlines mlines c.peaks }
  let c := match quant with
    | some q => adaptQuant q c
    | none => c
  let c := if fast then adaptFast c else c
  { c with weight := 0 }

/-- `AdaptPyMcaConfig`, fit.py 260-277.  The message of `AdaptPyMcaConfig_modinfo` (221-257) needs lists of the
same length (IndexError) and the flag of the strategy (KeyError). -/
def adapt (energy : Val) (addhigh : Rat) (mlines : List (Name × List Name)) (quant : Option Quant) (fast : Bool) (c : Config) : Option Config :=
  match adaptSource energy addhigh c with
  | none => none
  | some c =>
    if (adaptRest mlines quant fast c).strategy.isSome && sameLength (adaptRest mlines quant fast c).lines then some (adaptRest mlines quant fast c)
    else none

/-! ## Arguments with one value per energy -/

/-- A number or a list of numbers. -/
inductive Arg (α : Type) where
  | scalar (x : α)
  | list (l : List α)

/-- fit.py 298-312 and 367-392: one value for all energies or one each. -/
def expand {α : Type} (n : Nat) : Arg α → Option (List α)
  | .scalar x => some (List.replicate n x)
  | .list [x] => some (List.replicate n x)
  | .list l => if l.length = n then some l else none

/-- The normalization; 1 by default. -/
def expandNorm (n : Nat) : Option (Arg Rat) → Option (List Rat)
  | none => some (List.replicate n 1)
  | some a => expand n a

/-- Spectra: file, energy, channel. -/
structure Stack where
  nfiles : Nat
  nenergies : Nat
  nchannels : Nat
  data : Nat → Nat → Nat → Rat

/-- Start and stop of a Python slice of `n` elements. -/
def bound (n : Nat) (i : Int) : Nat := if i < 0 then (n + i).toNat else min i.toNat n

/-- `dataStack[i, j, a:b]` -/
def channels (s : Stack) (i j : Nat) (roi : Int × Int) : List Rat :=
  ((List.range s.nchannels).map (s.data i j)).take (bound s.nchannels roi.2) |>.drop (bound s.nchannels roi.1)

/-- `PerformRoi`, fit.py 280-323: per region an array of energies and files. -/
def performRoi (s : Stack) (rois : List (Name × Int × Int)) (norm : Option (Arg Rat)) : Option (List (Name × (Nat → Nat → Val))) :=
  match expandNorm s.nenergies norm with
  | none => none
  | some ns => some (rois.map fun r => (r.1, fun j i => div (some ((channels s i j r.2).sum)) ns[j]?))

/-- The result of a fit: areas of the groups of lines, and chi squared. -/
structure Fit where
  areas : List (Name × Rat)
  chisq : Rat

def kChisq : Name := ['c', 'h', 'i', 's', 'q']

/-- `ret[k][j, i] = v`, an array of zeros at first. -/
def put (ret : Dict Name (Nat → Nat → Val)) (k : Name) (j i : Nat) (v : Val) : Dict Name (Nat → Nat → Val) :=
  let a := (ret.get? k).getD fun _ _ => some 0
  ret.set k fun j' i' => if j' = j ∧ i' = i then v else a j' i'

/-- The results of one spectrum, fit.py 462-472. -/
def store (norm : Val) (j i : Nat) (r : Fit) (ret : Dict Name (Nat → Nat → Val)) : Dict Name (Nat → Nat → Val) :=
  put (r.areas.foldl (fun ret x => put ret x.1 j i (div (some x.2) norm)) ret) kChisq j i (some r.chisq)

/-- The spectra of one energy, fit.py 421-472. -/
def fitFiles (fit : Config → (Nat → Rat) → Fit) (s : Stack) (cfg : Config) (norm : Val) (j : Nat) (ret : Dict Name (Nat → Nat → Val)) :
    Dict Name (Nat → Nat → Val) :=
  (List.range s.nfiles).foldl (fun ret i => store norm j i (fit cfg (s.data i j)) ret) ret

/-- The loop over the energies, fit.py 415-477: the configuration is adapted again and again. -/
def fitEnergies (fit : Config → (Nat → Rat) → Fit) (s : Stack) (addhigh : Rat) (mlines : List (Name × List Name)) (fast : Bool)
    (es : List Val) (ns : List Rat) : List Nat → Config → Dict Name (Nat → Nat → Val) → Option (Dict Name (Nat → Nat → Val))
  | [], _, ret => some ret
  | j :: l, cfg, ret =>
    match adapt (es[j]?).join addhigh mlines none fast cfg with
    | none => none
    | some cfg' => fitEnergies fit s addhigh mlines fast es ns l cfg' (fitFiles fit s cfg' ns[j]? j ret)

/-- `PerformFit`, fit.py 326-479. -/
def performFit (fit : Config → (Nat → Rat) → Fit) (s : Stack) (cfg : Config) (energies : Arg Val) (mlines : List (Name × List Name))
    (norm : Option (Arg Rat)) (fast : Bool) (addhigh : Rat) : Option (Dict Name (Nat → Nat → Val)) :=
  match expand s.nenergies energies, expandNorm s.nenergies norm with
  | some es, some ns => fitEnergies fit s addhigh mlines fast es ns (List.range s.nenergies) cfg []
  | _, _ => none

end SC.FitCfg
