import Verif.Py.Dict
import Mathlib.Algebra.Order.Floor.Ring
import Mathlib.Data.Rat.Floor
/-! # Model of the other settings of `PymcaHandle`

Beam, background and fit options, materials/pymca.py:467-499,520-685,727-759.  Numbers are rationals.  The
configuration is a dictionary of sections and keys; flux and time are in Hz and s (the units the setters
convert to, pymca.py:538-552).  Arrays are lists; a configuration read from a file where a list of one
number became a number is left out. -/
namespace SC.Pymca
open SC.Py

/-- A value in the configuration. -/
inductive Val where
  | num (q : ℚ)
  | nums (l : List ℚ)
  deriving DecidableEq

/-- cfg[section][key] -/
abbrev Config := Dict (String × String) Val

/-- The attributes of a PymcaHandle that are saved here, pymca.py:467-499. -/
structure Handle where
  energy : List ℚ
  weights : List ℚ
  scatter : List ℚ
  flux : ℚ
  time : ℚ
  snip : Bool
  continuum : Int
  escape : Bool
  pileup : Bool
  linear : Bool
  ninteractions : Int
  noisepropagation : Bool
  deriving DecidableEq

/-- The argument `scatter` of set_source, pymca.py:528-536. -/
inductive Scatter where
  | default
  | all (b : Bool)
  | each (l : List ℚ)

/-- set_source, pymca.py:520-536. -/
def Handle.setSource (h : Handle) (energy : Option (List ℚ)) (weights : Option (List ℚ)) (scatter : Scatter) : Handle :=
  match energy with
  | none => h
  | some e =>
    { h with
      energy := e
      weights := weights.getD (e.map fun _ => 1)
      scatter := match scatter with
        | .default => e.map fun _ => 1
        | .all b => e.map fun _ => if b then 1 else 0
        | .each l => l }

/-- `.astype(int)`: towards zero -/
def trunc (q : ℚ) : ℚ := if q < 0 then (⌈q⌉ : ℚ) else (⌊q⌋ : ℚ)
/-- `int(b)` -/
def ofBool (b : Bool) : ℚ := if b then 1 else 0
/-- `bool(x)` -/
def toBool (q : ℚ) : Bool := decide (q ≠ 0)

/-- addtopymca_beam, pymca.py:599-613. -/
def addBeam (h : Handle) (c : Config) : Config :=
  let s := h.scatter.map trunc
  let c := Dict.set c ("fit", "energy") (.nums h.energy)
  let c := Dict.set c ("fit", "energyweight") (.nums h.weights)
  let c := Dict.set c ("fit", "energyscatter") (.nums s)
  let c := Dict.set c ("fit", "energyflag") (.nums (h.energy.map fun _ => 1))
  let c := Dict.set c ("fit", "scatterflag") (.num (ofBool (s.any toBool)))
  let c := Dict.set c ("concentrations", "flux") (.num h.flux)
  Dict.set c ("concentrations", "time") (.num h.time)

/-- addtopymca_background, pymca.py:627-634. -/
def addBackground (h : Handle) (c : Config) : Config :=
  let c := Dict.set c ("fit", "stripflag") (.num (ofBool h.snip))
  let c := Dict.set c ("fit", "stripalgorithm") (.num 1)
  let c := Dict.set c ("fit", "snipwidth") (.num 100)
  Dict.set c ("fit", "continuum") (.num h.continuum)

/-- addtopymca_lstsq, pymca.py:596-597. -/
def addLstsq (c : Config) : Config := Dict.set c ("fit", "maxiter") (.num 500)

/-- addtopymca_other, pymca.py:640-645. -/
def addOther (h : Handle) (c : Config) : Config :=
  let c := Dict.set c ("fit", "escapeflag") (.num (ofBool h.escape))
  let c := Dict.set c ("fit", "sumflag") (.num (ofBool h.pileup))
  let c := Dict.set c ("fit", "linearfitflag") (.num (ofBool h.linear))
  let c := Dict.set c ("concentrations", "usemultilayersecondary") (.num ((h.ninteractions - 1 : Int) : ℚ))
  Dict.set c ("fit", "fitweight") (.num (ofBool h.noisepropagation))

/-- addtopymca, pymca.py:736-759, without the sample, the strategy and custom changes. -/
def saveSettings (h : Handle) (c : Config) : Config := addOther h (addLstsq (addBackground h (addBeam h c)))

/-- A number of the configuration (`none`: KeyError or TypeError). -/
def getNum (c : Config) (s k : String) : Option ℚ :=
  match Dict.get? c (s, k) with
  | some (.num q) => some q
  | _ => none

/-- An array of the configuration. -/
def getNums (c : Config) (s k : String) : Option (List ℚ) :=
  match Dict.get? c (s, k) with
  | some (.nums l) => some l
  | _ => none

/-- `array[mask]` (`none`: IndexError, the lengths differ) -/
def masked (l : List ℚ) (mask : List Bool) : Option (List ℚ) :=
  if l.length = mask.length then some (((l.zip mask).filter Prod.snd).map Prod.fst) else none

/-- loadfrompymca_beam, pymca.py:615-625. -/
def loadBeam (c : Config) (h : Handle) : Option Handle := do
  let flags ← getNums c "fit" "energyflag"
  let ind := flags.map toBool
  let energy ← masked (← getNums c "fit" "energy") ind
  let weights ← masked (← getNums c "fit" "energyweight") ind
  let scatter ← masked ((← getNums c "fit" "energyscatter").map trunc) ind
  let flux ← getNum c "concentrations" "flux"
  let time ← getNum c "concentrations" "time"
  some { h with energy := energy, weights := weights, scatter := scatter, flux := flux, time := time }

/-- `int(x)` of a number in the configuration -/
def toInt (q : ℚ) : Int := if q < 0 then ⌈q⌉ else ⌊q⌋

/-- loadfrompymca_background, pymca.py:636-638. -/
def loadBackground (c : Config) (h : Handle) : Option Handle := do
  let snip ← getNum c "fit" "stripflag"
  let continuum ← getNum c "fit" "continuum"
  some { h with snip := toBool snip, continuum := toInt continuum }

/-- loadfrompymca_other, pymca.py:680-685.  The number of interactions is whatever is in the configuration
plus one; it is an integer there. -/
def loadOther (c : Config) (h : Handle) : Option Handle := do
  let escape ← getNum c "fit" "escapeflag"
  let pileup ← getNum c "fit" "sumflag"
  let linear ← getNum c "fit" "linearfitflag"
  let n ← getNum c "concentrations" "usemultilayersecondary"
  let noise ← getNum c "fit" "fitweight"
  some { h with
    escape := toBool escape, pileup := toBool pileup, linear := toBool linear, ninteractions := toInt n + 1,
    noisepropagation := toBool noise }

/-- loadfrompymca, pymca.py:727-734, without the sample. -/
def loadSettings (c : Config) (h : Handle) : Option Handle := do
  loadOther c (← loadBackground c (← loadBeam c h))

end SC.Pymca
