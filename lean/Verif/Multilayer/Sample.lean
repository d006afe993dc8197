import Verif.Compound.Model
import Mathlib.Analysis.SpecialFunctions.Exp
/-! # Composition, refinement and PyMca configuration of a multilayer

Model of materials/multilayer.py:32-433, 933-1023 and 1403-1425 over the real numbers.  Materials are the parts of
`Verif/Compound`; solvers of numpy and scipy are parameters. -/
namespace SC.Multilayer
open SC.Compound

inductive SErr where
  | valueError | attributeError | keyError
deriving DecidableEq

section
variable {E : Type} [DecidableEq E]

/-- `Layer`, multilayer.py:32-49, for its composition. -/
structure Lyr (E : Type) where
  mat : Part E ℝ
  /-- `thickness` -/
  t : ℝ
  /-- an attribute `density` of the layer itself; only the refinement sets it (382, 417) -/
  own : Option ℝ := none

/-- `layer.density`: an own attribute, otherwise that of the material (`__getattr__`, multilayer.py:76-77). -/
def Lyr.density (l : Lyr E) : ℝ := l.own.getD l.mat.density

/-! ## Composition -/

/-- Layer.arealdensity, multilayer.py:113-116. -/
noncomputable def Lyr.areal (l : Lyr E) : Items E ℝ := l.mat.mass.map fun p => (p.1, p.2 * (l.density * l.t))

/-- `collections.Counter.update` with a dictionary: into an empty counter it is a copy. -/
noncomputable def counterUpdate (d c : Items E ℝ) : Items E ℝ :=
  if d.isEmpty then c else c.foldl (fun d p => addTo id d p.1 p.2) d

/-- Multilayer.arealdensity, multilayer.py:222-226. -/
noncomputable def areal (ls : List (Lyr E)) : Items E ℝ := ls.foldl (fun d l => counterUpdate d l.areal) []

/-- elemental_massfractions, multilayer.py:228-231. -/
noncomputable def massfractions (ls : List (Lyr E)) : Items E ℝ :=
  (areal ls).map fun p => (p.1, p.2 / (vals (areal ls)).sum)

/-- The elemental mass fractions of `mixlayers()`, multilayer.py:262-274 (for one layer it is the material). -/
noncomputable def mixMass (name : String) (ls : List (Lyr E)) : Option (Items E ℝ) :=
  match ls with
  | [] => none
  | [l] => some l.mat.mass
  | _ => (Mixt.new name (ls.map (·.mat)) (ls.map fun l => l.t / (ls.map (·.t)).sum) .volume).map Mixt.elementalMass
end

/-! ## Absorbance and refinement -/

/-- `Layer`, multilayer.py:32-49, for its absorbance: the parts of the material with their mass fractions and
mass attenuation coefficients. -/
structure RLyr where
  parts : List (ℝ × (ℝ → ℝ))
  /-- the density of the material with the given mass fractions: a number for a compound, computed for a mixture
  (mixture.py:202-208) -/
  rho : List ℝ → ℝ
  t : ℝ
  fixed : Bool := false
  /-- as in `Lyr` -/
  own : Option ℝ := none

/-- `layer.material.density` -/
def RLyr.matDensity (l : RLyr) : ℝ := l.rho (l.parts.map Prod.fst)

/-- `layer.density` -/
def RLyr.density (l : RLyr) : ℝ := l.own.getD l.matDensity

/-- `mass_att_coeff`, compound.py:284-287, mixture.py:288-307 -/
noncomputable def RLyr.mac (l : RLyr) (e : ℝ) : ℝ := (l.parts.map fun p => p.1 * p.2 e).sum

/-- `xraythicknessin`, multilayer.py:82-84. -/
noncomputable def RLyr.xin (cosin : ℝ) (l : RLyr) : ℝ := l.t / cosin

/-- Layer.absorbance of the incoming beam, multilayer.py:98-104, and elementbase.py:124-130: the density is that of the
material. -/
noncomputable def RLyr.absorbance (cosin : ℝ) (l : RLyr) (e : ℝ) : ℝ := l.mac e * (l.xin cosin * l.matDensity)

/-- Multilayer.absorbance, multilayer.py:300-313. -/
noncomputable def absorbance (cosin : ℝ) (ls : List RLyr) (e : ℝ) : ℝ := (ls.map fun l => l.absorbance cosin e).sum

/-- Multilayer.transmission, multilayer.py:315-324 (not decomposed). -/
noncomputable def sampleTransmission (cosin : ℝ) (ls : List RLyr) (e : ℝ) : ℝ := Real.exp (-absorbance cosin ls e)

/-- The solvers: `fit1d.lstsq`, `fit1d.lstsq_nonnegative` and `fit1d.lstsq_bound` with the lower bounds of the code.  The
arguments are the columns of the matrix and the data. -/
structure Solvers where
  lstsq : List (List ℝ) → List ℝ → List ℝ
  nonneg : List (List ℝ) → List ℝ → List ℝ
  bound : List (List ℝ) → List ℝ → List ℝ

/-- _refine_linear, multilayer.py:342-367.  With a constant and a constraint the list of lower bounds has the length of
the data instead of that of the parameters, which scipy refuses when they differ.  No columns: `np.vstack([])`. -/
noncomputable def refineLinear (s : Solvers) (cols : List (List ℝ)) (y : List ℝ) (constant constraint : Bool) :
    Except SErr (List ℝ) :=
  match y, cols with
  | [v], [[a]] => .ok [v / a]
  | _, _ =>
    if constant then
      let cols := cols ++ [y.map fun _ => 1]
      if constraint then
        if y.length = cols.length then .ok (s.bound cols y).dropLast else .error .valueError
      else .ok (s.lstsq cols y).dropLast
    else if cols = [] then .error .valueError
    else if constraint then .ok (s.nonneg cols y)
    else .ok (s.lstsq cols y)

/-- The free layers, multilayer.py:187-190. -/
def free (ls : List RLyr) : List RLyr := ls.filter fun l => !l.fixed

/-- The fixed layers, multilayer.py:182-185. -/
def fixedOnes (ls : List RLyr) : List RLyr := ls.filter fun l => l.fixed

/-- The data without the absorbance of the fixed layers, multilayer.py:372-374 and 392-394. -/
noncomputable def remaining (cosin : ℝ) (ls : List RLyr) (es y : List ℝ) : List ℝ :=
  List.zipWith (fun e v => v - ((fixedOnes ls).map fun l => l.absorbance cosin e).sum) es y

/-- `for param, layer in zip(params, self.freeiter())`, multilayer.py:381-382. -/
def assign (f : RLyr → ℝ → RLyr) : List RLyr → List ℝ → List RLyr
  | [], _ => []
  | l :: ls, ps =>
    if l.fixed then l :: assign f ls ps
    else match ps with
      | [] => l :: assign f ls []
      | p :: ps => f l p :: assign f ls ps

/-- `setattr(layer, "xraythicknessin", param / layer.density)`, multilayer.py:86-88, 382, 429-430 -/
noncomputable def setThickness (cosin : ℝ) (l : RLyr) (p : ℝ) : RLyr := { l with t := p / l.density * cosin }

/-- `setattr(layer, "density", param / layer.xraythicknessin)`, multilayer.py:382, 432-433: an attribute of the layer. -/
noncomputable def setDensity (cosin : ℝ) (l : RLyr) (p : ℝ) : RLyr := { l with own := some (p / l.xin cosin) }

/-- _refinerhod without weights, multilayer.py:369-382; `set` is `setThickness` or `setDensity`. -/
noncomputable def refine (s : Solvers) (set : RLyr → ℝ → RLyr) (cosin : ℝ) (ls : List RLyr) (es y : List ℝ)
    (constant constraint : Bool) : Except SErr (List RLyr) := do
  let ps ← refineLinear s ((free ls).map fun l => es.map l.mac) (remaining cosin ls es y) constant constraint
  return assign set ls ps

/-- `change_fractions(w, "mass")` of a layer, multilayer.py:411-414: the mass fractions become `w` (C41). -/
def RLyr.weighted (l : RLyr) (w : List ℝ) : RLyr := { l with parts := List.zipWith (fun x p => (x, p.2)) w l.parts }

/-- The body of the loop of refinecomposition, multilayer.py:406-427. -/
noncomputable def setComposition (cosin : ℝ) (fixthickness : Bool) (l : RLyr) (w : List ℝ) : RLyr :=
  let l := l.weighted (w.map (· / w.sum))
  if fixthickness then { l with own := some (w.sum / l.xin cosin) }
  else { l with t := w.sum / l.density * cosin }

/-- The loop of refinecomposition, multilayer.py:406-409: every free layer takes a parameter for each of its parts. -/
def assignParts (f : RLyr → List ℝ → RLyr) : List RLyr → List ℝ → List RLyr
  | [], _ => []
  | l :: ls, ps =>
    if l.fixed then l :: assignParts f ls ps
    else f l (ps.take l.parts.length) :: assignParts f ls (ps.drop l.parts.length)

/-- refinecomposition without weights, multilayer.py:389-427. -/
noncomputable def refineComposition (s : Solvers) (fixthickness : Bool) (cosin : ℝ) (ls : List RLyr) (es y : List ℝ)
    (constant constraint : Bool) : Except SErr (List RLyr) := do
  let cols := (free ls).flatMap fun l => l.parts.map fun p => es.map p.2
  let ps ← refineLinear s cols (remaining cosin ls es y) constant constraint
  return assignParts (setComposition cosin fixthickness) ls ps

/-! ## Flux -/

/-- _sourceflux, multilayer.py:1403-1425; `trans` are the transmissions of the atmosphere, when there is one, and of
the beam filters. -/
noncomputable def sourceflux (trans : List (ℝ → ℝ)) (es : List ℝ) (flux : ℝ) : List ℝ :=
  es.map fun e => trans.foldl (fun f t => f / t e) (flux / es.length)

/-! ## PyMca -/

/-- The part of the configuration of PyMca about the sample: `attenuators.Matrix` (name, density, thickness, angles) and
`multilayer` (by number: enabled, name, density, thickness). -/
structure Cfg where
  matrix : Option (List Char × ℝ × ℝ × ℝ × ℝ)
  multilayer : List (Nat × (Bool × List Char × ℝ × ℝ))

/-- A layer of the sample for PyMca: a material, a thickness and whether it is fixed. -/
structure PLayer (M : Type) where
  mat : M
  t : ℝ
  fixed : Bool

section
variable {M : Type} (toName : M → List Char) (density : M → ℝ) (fromName : List Char → ℝ → M)

/-- The name of a sample with several layers. -/
def multiName : List Char := "MULTILAYER".toList

/-- addtopymca, multilayer.py:933-951, 961-964 and 989-1000.  addtopymca_layer overwrites its argument by a text and
asks that for a density. -/
noncomputable def savePymca (anglein angleout : ℝ) (ls : List (PLayer M)) (c : Cfg) : Except SErr Cfg :=
  match ls with
  | [l] => .ok { c with matrix := some (toName l.mat, if toName l.mat = multiName then 0 else density l.mat, l.t, anglein, angleout) }
  | [] => .ok { c with matrix := some (multiName, 0, 0, anglein, angleout) }
  | _ => .error .attributeError

/-- `cfg["multilayer"]["Layer{i}"]` -/
def Cfg.layer (c : Cfg) (i : Nat) : Option (Bool × List Char × ℝ × ℝ) :=
  (c.multilayer.find? fun p => decide (p.1 = i)).map Prod.snd

/-- The loop of loadfrompymca, multilayer.py:966-976 and 1007-1014: until a number is missing. -/
def loadLayers (c : Cfg) : Nat → Nat → List (PLayer M)
  | 0, _ => []
  | fuel + 1, i =>
    match c.layer i with
    | none => []
    | some (enabled, name, d, t) =>
      if enabled then ⟨fromName name d, t, false⟩ :: loadLayers c fuel (i + 1) else loadLayers c fuel (i + 1)

/-- loadfrompymca, multilayer.py:953-959 and 1003-1023: the angles and the layers.  The number of layers in the
configuration bounds the loop; `zip(*[])` cannot be unpacked. -/
def loadPymca (c : Cfg) : Except SErr (ℝ × ℝ × List (PLayer M)) :=
  match c.matrix with
  | none => .error .keyError
  | some (name, d, t, anglein, angleout) =>
    if name = multiName then
      match loadLayers fromName c (c.multilayer.length + 1) 0 with
      | [] => .error .valueError
      | ls => .ok (anglein, angleout, ls)
    else .ok (anglein, angleout, [⟨fromName name d, t, false⟩])
end

end SC.Multilayer
