import Verif.Fit.Model
import Mathlib.Data.Matrix.Mul
import Mathlib.LinearAlgebra.Matrix.Notation
/-! # Model of the line shape of a detector

`detectors/xrf.py:28-417, 534-672`.  A line consists of a peak, a short tail, a long tail and a step.
The shape is given either by the fractions of the area and the broadenings of the tails, or as in
PyMca by ratios with the peak and the slopes of the tails; the other set is kept as derived values.

Numbers are elements of an ordered field without rounding; a quotient by zero (numpy: not finite) is
excluded by the hypotheses of the theorems.  The noise, the Fano factor and the energy of an
electron-hole pair only enter through the three functions of `Norms`, which are arbitrary. -/
namespace SC.LineShape
open SC.Fit (cramer Res)

variable {K : Type} [Field K] [LinearOrder K] [IsStrictOrderedRing K]

/-- The functions of the energy: `sigma` is the root of gaussianVAR (xrf.py:489-494), `gnorm` and
`snorm` the norms of peak and step (xrf.py:508-522), `tnorm` the norm of a tail with a given slope
(xrf.py:524-532). -/
structure Norms (K : Type) where
  sigma : K → K
  gnorm : K → K
  snorm : K → K
  tnorm : K → K → K

/-- The exceptions. -/
inductive Err where
  | runtime
  | attribute
deriving DecidableEq, Repr

/-- Short tail, long tail, step. -/
structure Three (K : Type) where
  s : K
  l : K
  p : K
deriving DecidableEq, Repr

/-- The attributes of XRFDetector that describe the shape (`none`: not set). -/
structure Shape (K : Type) where
  fixed : Bool
  energy : Option K
  bpeak : Bool
  bstail : Bool
  bltail : Bool
  bstep : Bool
  sbroad : Option K
  lbroad : Option K
  sslope : Option K
  lslope : Option K
  fractions : Option (Three K)
  ratios : Option (Three K)
deriving DecidableEq, Repr

/-- Reading an attribute: AttributeError when it is not set. -/
def attr {α : Type} : Option α → Except Err α
  | some a => .ok a
  | none => .error .attribute

/-- wpeak, xrf.py:256-263. -/
def wpeak (w : Three K) : Except Err K :=
  let sum := w.s + w.l + w.p
  if sum < -(1 / 10000) ∨ 1 + 1 / 10000 < sum then .error .runtime
  else .ok (min (max (1 - sum) 0) 1)

/-- _fcalc_ratios_single, xrf.py:350-357. -/
def ratiosSingle (wp : K) (w c : Three K) : Three K :=
  let wp := if wp = 0 then 1 else wp
  ⟨w.s / wp * c.s, w.l / wp * c.l, w.p / wp * c.p⟩

/-- _fcalc_fractions_single, xrf.py:378-398. -/
def fractionsSingle (bpeak : Bool) (r c : Three K) : Except Err (Three K) :=
  if bpeak then
    match cramer (m := 3) (n := 3) id !![r.s + c.s, r.s, r.s; r.l, r.l + c.l, r.l; r.p, r.p, r.p + c.p]
        ![r.s, r.l, r.p] with
    | .ok x => .ok ⟨x 0, x 1, x 2⟩
    | _ => .error .runtime
  else .ok ⟨r.s / c.s, r.l / c.l, r.p / c.p⟩

/-- The constants of both: slope over norm for the tails, norm of the peak over norm of the step. -/
def consts (N : Norms K) (u st lt : K) : Three K := ⟨st / N.tnorm u st, lt / N.tnorm u lt, N.gnorm u / N.snorm u⟩

/-- _calc_ratios at the conversion energy, xrf.py:299-323. -/
def calcRatios (N : Norms K) (d : Shape K) (u : K) : Except Err (Three K) := do
  let st := (← attr d.sbroad) * N.sigma u
  let lt := (← attr d.lbroad) * N.sigma u
  let w ← attr d.fractions
  let wp ← wpeak w
  return ratiosSingle wp w (consts N u st lt)

/-- _calc_fractions at the conversion energy, xrf.py:325-348. -/
def calcFractions (N : Norms K) (d : Shape K) (u : K) : Except Err (Three K) := do
  let st ← attr d.sslope
  let lt ← attr d.lslope
  let r ← attr d.ratios
  fractionsSingle d.bpeak r (consts N u st lt)

/-- The setters of the broadenings, xrf.py:204-208, 214-218.  The slope that is set then computes
nothing, as the fractions are the given values. -/
def setSbroad (N : Norms K) (d : Shape K) (v : K) : Shape K :=
  let d := { d with sbroad := some v }
  match d.fixed, d.energy with
  | true, some u => { d with sslope := some (v * N.sigma u) }
  | _, _ => d

/-- The setter of ltailbroadening, xrf.py 214-218. -/
def setLbroad (N : Norms K) (d : Shape K) (v : K) : Shape K :=
  let d := { d with lbroad := some v }
  match d.fixed, d.energy with
  | true, some u => { d with lslope := some (v * N.sigma u) }
  | _, _ => d

/-- The setters of the slopes, xrf.py:224-228, 234-238. -/
def setSslope (N : Norms K) (d : Shape K) (v : K) : Shape K :=
  let d := { d with sslope := some v }
  match d.fixed, d.energy with
  | false, some u => { d with sbroad := some (v / N.sigma u) }
  | _, _ => d

/-- The setter of ltailslope_ratio, xrf.py 234-238. -/
def setLslope (N : Norms K) (d : Shape K) (v : K) : Shape K :=
  let d := { d with lslope := some v }
  match d.fixed, d.energy with
  | false, some u => { d with lbroad := some (v / N.sigma u) }
  | _, _ => d

/-- The setter of the fractions, xrf.py:280-287. -/
def setFractions (N : Norms K) (d : Shape K) (w : Three K) : Except Err (Shape K) :=
  let d := { d with fractions := some w }
  match d.fixed, d.energy with
  | true, some u => (calcRatios N d u).map fun r => { d with ratios := some r }
  | _, _ => .ok d

/-- The setter of the ratios, xrf.py:293-297. -/
def setRatios (N : Norms K) (d : Shape K) (r : Three K) : Except Err (Shape K) :=
  let d := { d with ratios := some r }
  match d.fixed, d.energy with
  | false, some u => (calcFractions N d u).map fun w => { d with fractions := some w }
  | _, _ => .ok d

/-- What is given: which parts, the two tail parameters and the three area parameters. -/
structure Given (K : Type) where
  bpeak : Bool
  bstail : Bool
  bltail : Bool
  bstep : Bool
  s : K
  l : K
  three : Three K
deriving DecidableEq, Repr

/-- A new object before its fractions or ratios are set, xrf.py 55-82. -/
def blank (fixed : Bool) (energy : Option K) (g : Given K) : Shape K :=
  ⟨fixed, energy, g.bpeak, g.bstail, g.bltail, g.bstep, none, none, none, none, none, none⟩

/-- __init__ with shape_fixedarearatios (`fixed`) or with shape_pymca, xrf.py:55-82. -/
def new (N : Norms K) (fixed : Bool) (energy : Option K) (g : Given K) : Except Err (Shape K) :=
  if fixed then setFractions N (setLbroad N (setSbroad N (blank true energy g) g.s) g.l) g.three
  else setRatios N (setLslope N (setSslope N (blank false energy g) g.s) g.l) g.three

/-- convert, xrf.py:84-108 (a new object, or the object itself). -/
def convert (N : Norms K) (d : Shape K) (energy : Option K) : Except Err (Shape K) :=
  let d := match energy with
    | some u => { d with energy := some u }
    | none => d
  match d.energy with
  | none => .error .runtime
  | some _ =>
      if d.fixed then do
        let d := setSbroad N d (← attr d.sbroad)
        let d := setLbroad N d (← attr d.lbroad)
        let d ← setFractions N d (← attr d.fractions)
        return { d with fixed := false }
      else do
        let d := setSslope N d (← attr d.sslope)
        let d := setLslope N d (← attr d.lslope)
        let d ← setRatios N d (← attr d.ratios)
        return { d with fixed := true }

/-- __getstate__, xrf.py:110-130: the given values only. -/
def getstate (d : Shape K) : Except Err (Bool × Option K × Given K) :=
  if d.fixed then do
    return (true, d.energy, ⟨d.bpeak, d.bstail, d.bltail, d.bstep, ← attr d.sbroad, ← attr d.lbroad,
      ← attr d.fractions⟩)
  else do
    return (false, d.energy, ⟨d.bpeak, d.bstail, d.bltail, d.bstep, ← attr d.sslope, ← attr d.lslope,
      ← attr d.ratios⟩)

/-- __setstate__ of a new object, xrf.py:132-151. -/
def setstate (N : Norms K) (s : Bool × Option K × Given K) : Except Err (Shape K) := new N s.1 s.2.1 s.2.2

/-- The part of __eq__ about the shape, xrf.py:157-183 (the noise, the zero, the gain and the Fano
factor are equal). -/
def eq (d e : Shape K) : Bool :=
  if d.fixed != e.fixed then false
  else if d.fixed && (d.sbroad != e.sbroad || d.lbroad != e.lbroad || d.fractions != e.fractions) then false
  else if !d.fixed && (d.sslope != e.sslope || d.lslope != e.lslope || d.ratios != e.ratios) then false
  else d.energy == e.energy && d.bpeak == e.bpeak && d.bstail == e.bstail && d.bltail == e.bltail
    && d.bstep == e.bstep

/-- The heights of peak, short tail, long tail and step in lineprofile (0: the part is absent), and
the slopes of the tails, xrf.py:555-672, for one energy `u`. -/
structure Heights (K : Type) where
  peak : K
  stail : K
  ltail : K
  step : K
  sslope : K
  lslope : K
deriving DecidableEq, Repr

/-- The heights of the parts of the profile, xrf.py 555-672. -/
def heights (N : Norms K) (d : Shape K) (u : K) (normalized : Option Bool) : Except Err (Heights K) :=
  if d.fixed then do
    let w ← attr d.fractions
    let wp ← wpeak w
    let sb ← attr d.sbroad
    let lb ← attr d.lbroad
    let bstail := 0 < sb ∧ 0 < w.s ∧ d.bstail
    let bltail := 0 < lb ∧ 0 < w.l ∧ d.bltail
    let bstep := 0 < w.p ∧ d.bstep
    let st := sb * N.sigma u
    let lt := lb * N.sigma u
    if normalized.getD true then
      return ⟨if 0 < wp ∧ d.bpeak then wp / N.gnorm u else 0,
        if bstail then w.s / N.tnorm u st else 0,
        if bltail then w.l / N.tnorm u lt else 0,
        if bstep then w.p / N.snorm u else 0,
        if bstail then st else 0,
        if bltail then lt else 0⟩
    else
      let r := ratiosSingle wp w (consts N u st lt)
      return ⟨if d.bpeak then 1 / N.gnorm u else 0,
        if bstail then r.s / st else 0,
        if bltail then r.l / lt else 0,
        if bstep then r.p / N.gnorm u else 0,
        if bstail ∨ bltail ∨ bstep then st else 0,
        if bstail ∨ bltail ∨ bstep then lt else 0⟩
  else do
    let r ← attr d.ratios
    let st ← attr d.sslope
    let lt ← attr d.lslope
    let bstail := 0 < st ∧ 0 < r.s ∧ d.bstail
    let bltail := 0 < lt ∧ 0 < r.l ∧ d.bltail
    let bstep := 0 < r.p ∧ d.bstep
    if normalized.getD false then
      let w ← fractionsSingle d.bpeak r (consts N u st lt)
      let wp ← wpeak w
      return ⟨if d.bpeak then wp / N.gnorm u else 0,
        if bstail then w.s / N.tnorm u st else 0,
        if bltail then w.l / N.tnorm u lt else 0,
        if bstep then w.p / N.snorm u else 0, st, lt⟩
    else
      return ⟨if d.bpeak then 1 / N.gnorm u else 0,
        if bstail then r.s / st else 0,
        if bltail then r.l / lt else 0,
        if bstep then r.p / N.gnorm u else 0, st, lt⟩

end SC.LineShape
