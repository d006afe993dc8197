import Verif.Stoich.Model
/-! # Model of `materials/compound.py` and `materials/mixture.py`

Numbers live in an ordered field (exact arithmetic instead of floats).  An element is an abstract
`e : E` with a molar mass `MM e` and a density `rho e` (both come from xraylib).  A Python `dict`
whose keys are elements, compounds or mixtures is the list of its items in insertion order; keys
are equal when their `_repr` is equal, which is the name (multielementbase.py:11-13,
element.py:123-125, comparable.py:10-11,51-52).  Division by zero is `nan`/`inf` in numpy and zero
here; the theorems exclude it. -/
namespace SC.Compound
open SC.Stoich

variable {K : Type} [Field K] [LinearOrder K] [IsStrictOrderedRing K]
variable {E α β : Type} [DecidableEq E] [DecidableEq β]

/-- A dictionary of parts, `_elements` (compound.py 67-75) or `_compounds` (mixture.py 40-46). -/
abbrev Items (α K : Type) := List (α × K)

/-- `d[a] += n` when a key equal to `a` exists (the existing key object stays), otherwise
`d[a] = n`; compound.py:72-75, mixture.py:43-46. -/
def addTo (key : α → β) : Items α K → α → K → Items α K
  | [], a, n => [(a, n)]
  | (b, m) :: d, a, n => if key b = key a then (b, m + n) :: d else (b, m) :: addTo key d a n

/-- _compose_elements, compound.py:67-75, and _compose_compounds, mixture.py:40-46, on the pairs
produced by `zip`. -/
def compose (key : α → β) (l : Items α K) : Items α K := l.foldl (fun d p => addTo key d p.1 p.2) []

/-- `dict.values()` as an array -/
def vals (d : Items α K) : List K := d.map Prod.snd
/-- `dict.keys()` -/
def keys (d : Items α K) : List α := d.map Prod.fst

/-- numpy broadcasting of two one-dimensional arrays (`none`: ValueError) -/
def bcast {γ δ : Type} (a : List γ) (b : List δ) : Option (List (γ × δ)) :=
  if a.length = b.length then some (a.zip b)
  else match a, b with
    | [x], _ => some (b.map fun y => (x, y))
    | _, [y] => some (a.map fun x => (x, y))
    | _, _ => none

/-- frac_weight_to_mole, stoichiometry.py:51-57, on arrays of any length. -/
def weightToMole (w MM : List K) : Option (List K) :=
  (bcast w MM).map fun l =>
    let s := (l.map fun p => p.1 / p.2).sum
    l.map fun p => p.1 / (p.2 * s)

/-- frac_volume_to_mole, stoichiometry.py:87-94; `rho` and `MM` always have the same length here
(both have one entry per compound). -/
def volumeToMole (v rho MM : List K) : Option (List K) :=
  (bcast v (rho.zip MM)).map fun l =>
    let s := (l.map fun p => p.1 * p.2.1 / p.2.2).sum
    l.map fun p => p.1 * p.2.1 / (p.2.2 * s)

/-- frac_mole_to_weight, stoichiometry.py:42-48; the arrays always have the same length here. -/
def moleToWeight (d : Items α K) (MM : α → K) : Items α K :=
  let s := (d.map fun p => p.2 * MM p.1).sum
  d.map fun p => (p.1, p.2 * MM p.1 / s)

/-- frac_mole_to_volume, stoichiometry.py:97-104; same length. -/
def moleToVolume (d : Items α K) (rho MM : α → K) : Items α K :=
  let s := (d.map fun p => p.2 * MM p.1 / rho p.1).sum
  d.map fun p => (p.1, p.2 * MM p.1 / (rho p.1 * s))

/-- density_from_molefrac, stoichiometry.py:125-132. -/
def densityFromMole (d : Items α K) (rho MM : α → K) : K :=
  (d.map fun p => p.2 * MM p.1).sum / (d.map fun p => p.2 * MM p.1 / rho p.1).sum

/-- molefractions, compound.py:178-181 and mixture.py:167-170. -/
def normalize (d : Items α K) : Items α K := d.map fun p => (p.1, p.2 / (vals d).sum)

/-- types.fraction, materials/types.py:3; every other value takes the branch of `mass`. -/
inductive Frac | mole | mass | volume
  deriving DecidableEq

/-! ## compounds -/

/-- A compound, compound.py 14-65. -/
structure Cmpd (E K : Type) where
  name : String
  elements : Items E K
  density : K

/-- The density of a new compound, compound.py:52-63. -/
def newDensity (rho : E → K) (els : Items E K) : Option K → K
  | some d => if d = 0 then dflt else d
  | none => dflt
where dflt : K :=
  match els with
  | [] => 0
  | [(e, _)] => rho e
  | _ => 1

/-- The mole fractions of a list of elements, compound.py:35-46 and 136-144 (`none`: ValueError).
`zip` drops the end of the longer list. -/
def elementMoles (MM : E → K) (els : List E) (frac : List K) : Frac → Option (Items E K)
  | .mole => some (els.zip frac)
  | .volume => none
  | .mass => (weightToMole frac (els.map MM)).map fun n => els.zip n

/-- Compound.__init__, compound.py:14-65. -/
def Cmpd.new (MM rho : E → K) (name : String) (els : List E) (frac : List K) (t : Frac)
    (density : Option K) : Option (Cmpd E K) :=
  (elementMoles MM els frac t).map fun l =>
    let d := compose id l
    ⟨name, d, newDensity rho d density⟩

/-- equivalents, compound.py:183-184. -/
def Cmpd.equivalents (c : Cmpd E K) : Items E K := c.elements
/-- molefractions, compound.py:178-181. -/
def Cmpd.molefractions (c : Cmpd E K) : Items E K := normalize c.elements
/-- massfractions, compound.py:186-190. -/
def Cmpd.massfractions (MM : E → K) (c : Cmpd E K) : Items E K := moleToWeight c.equivalents MM
/-- molarmass, compound.py:159-163. -/
def Cmpd.molarmass (MM : E → K) (c : Cmpd E K) : K := (c.equivalents.map fun p => MM p.1 * p.2).sum

/-- fractions, compound.py:201-207. -/
def Cmpd.fractions (MM : E → K) (c : Cmpd E K) : Frac → Option (Items E K)
  | .mole => some c.molefractions
  | .volume => none
  | .mass => some (c.massfractions MM)

/-- `if density: self.density = density`, compound.py:123-124. -/
def changeDensity (old : K) : Option K → K
  | some d => if d = 0 then old else d
  | none => old

/-- addelements, compound.py:94-124.  A scalar element or fraction is a list of one. -/
def Cmpd.addelements (MM : E → K) (c : Cmpd E K) (els : List E) (frac : List K) (t : Frac)
    (density : Option K) : Option (Cmpd E K) :=
  let new : Option (Items E K) :=
    match t with
    | .volume => none
    | .mole => (addFrac (vals c.equivalents) frac).map fun n => (keys c.equivalents ++ els).zip n
    | .mass => do
        let all := keys (c.massfractions MM) ++ els
        let w ← addFrac (vals (c.massfractions MM)) frac
        let n ← weightToMole w (all.map MM)
        pure (all.zip n)
  new.map fun l =>
    { c with
      elements := compose id l
      density := changeDensity c.density density }

/-- change_fractions, compound.py:126-146. -/
def Cmpd.changeFractions (MM : E → K) (c : Cmpd E K) (d : Items E K) (t : Frac) : Option (Cmpd E K) :=
  (elementMoles MM (keys d) (vals d) t).map fun l => { c with elements := compose id l }

/-! ## mixtures -/

/-- What a mixture needs to know about a part: its name and what its methods return. -/
structure Part (E K : Type) where
  name : String
  /-- `c.molarmass()` -/
  molarmass : K
  /-- `c.density` -/
  density : K
  /-- `c.elemental_equivalents()` -/
  eqv : Items E K
  /-- `c.elemental_massfractions()` -/
  mass : Items E K
  /-- `c.elemental_molefractions()` -/
  mole : Items E K

/-- A compound as a part: compound.py:192-199. -/
def Cmpd.part (MM : E → K) (c : Cmpd E K) : Part E K where
  name := c.name
  molarmass := c.molarmass MM
  density := c.density
  eqv := c.equivalents
  mass := c.massfractions MM
  mole := c.molefractions

/-- A mixture, mixture.py 12-38. -/
structure Mixt (E K : Type) where
  name : String
  parts : Items (Part E K) K

/-- The mole fractions of a list of parts, mixture.py:28-37, 107-116 and 85-96 (`none`: ValueError). -/
def partMoles (parts : List (Part E K)) (frac : List K) : Frac → Option (Items (Part E K) K)
  | .mole => some (parts.zip frac)
  | .volume => (volumeToMole frac (parts.map Part.density) (parts.map Part.molarmass)).map fun n => parts.zip n
  | .mass => (weightToMole frac (parts.map Part.molarmass)).map fun n => parts.zip n

/-- Mixture.__init__, mixture.py:12-38. -/
def Mixt.new (name : String) (parts : List (Part E K)) (frac : List K) (t : Frac) : Option (Mixt E K) :=
  (partMoles parts frac t).map fun l => ⟨name, compose Part.name l⟩

/-- equivalents, mixture.py:172-173. -/
def Mixt.equivalents (m : Mixt E K) : Items (Part E K) K := m.parts
/-- molefractions, mixture.py:167-170. -/
def Mixt.molefractions (m : Mixt E K) : Items (Part E K) K := normalize m.parts
/-- massfractions, mixture.py:175-179. -/
def Mixt.massfractions (m : Mixt E K) : Items (Part E K) K := moleToWeight m.equivalents Part.molarmass
/-- volumefractions, mixture.py:181-188. -/
def Mixt.volumefractions (m : Mixt E K) : Items (Part E K) K :=
  moleToVolume m.equivalents Part.density Part.molarmass
/-- fractions, mixture.py:190-196. -/
def Mixt.fractions (m : Mixt E K) : Frac → Items (Part E K) K
  | .mole => m.molefractions
  | .volume => m.volumefractions
  | .mass => m.massfractions
/-- density, mixture.py:202-208. -/
def Mixt.density (m : Mixt E K) : K := densityFromMole m.equivalents Part.density Part.molarmass

/-- addcompounds, mixture.py:63-97.  Amounts of the mole branch are `equivalents`, of the others the
fractions. -/
def Mixt.addcompounds (m : Mixt E K) (parts : List (Part E K)) (frac : List K) (t : Frac) : Option (Mixt E K) :=
  let old : Items (Part E K) K := match t with
    | .mole => m.equivalents
    | .volume => m.volumefractions
    | .mass => m.massfractions
  do
    let f ← addFrac (vals old) frac
    let l ← partMoles (keys old ++ parts) f t
    pure { m with parts := compose Part.name l }

/-- change_fractions, mixture.py:99-117. -/
def Mixt.changeFractions (m : Mixt E K) (d : Items (Part E K) K) (t : Frac) : Option (Mixt E K) :=
  (partMoles (keys d) (vals d) t).map fun l => { m with parts := compose Part.name l }

/-- The loops of the three `elemental_…` methods: for every part `c` and every element `e` of it,
`ret[e] += outer[c] * inner[e]` or `ret[e] = …`. -/
def combine (outer : Items (Part E K) K) (inner : Part E K → Items E K) : Items E K :=
  outer.foldl (fun ret c => (inner c.1).foldl (fun ret e => addTo id ret e.1 (c.2 * e.2)) ret) []

/-- elemental_molefractions, mixture.py:210-220. -/
def Mixt.elementalMole (m : Mixt E K) : Items E K := combine m.molefractions Part.mole
/-- elemental_equivalents, mixture.py:222-232. -/
def Mixt.elementalEqv (m : Mixt E K) : Items E K := combine m.equivalents Part.eqv
/-- elemental_massfractions, mixture.py:234-244. -/
def Mixt.elementalMass (m : Mixt E K) : Items E K := combine m.massfractions Part.mass
/-- molarmass, mixture.py:147-151; `c.molarmass()` of an element is its `MM` (element.py:205-206). -/
def Mixt.molarmass (MM : E → K) (m : Mixt E K) : K := (m.elementalEqv.map fun p => MM p.1 * p.2).sum

/-- A mixture as a part of another mixture. -/
def Mixt.part (MM : E → K) (m : Mixt E K) : Part E K where
  name := m.name
  molarmass := m.molarmass MM
  density := m.density
  eqv := m.elementalEqv
  mass := m.elementalMass
  mole := m.elementalMole

/-- tocompound, mixture.py:119-129 (the new name is not empty: otherwise the mixture's name). -/
def Mixt.tocompound (MM rho : E → K) (m : Mixt E K) (name : Option String) : Option (Cmpd E K) :=
  Cmpd.new MM rho (match name with | some n => if n = "" then m.name else n | none => m.name)
    (keys m.elementalEqv) (vals m.elementalEqv) .mole (some m.density)

/-! ## setting one fraction -/

/-- setfraction, multielementbase.py:19-42, for a compound or mixture with fractions `w`; `parts`
are given by name.  `none`: an exception.  In Python 3 `np.asarray(w2.values())` is a
zero-dimensional array holding the view object, and multiplying it by a number raises TypeError, so
every call that leaves other parts fails.  The result is the argument of `change_fractions`. -/
def setfraction (key : α → β) (w : Items α K) (parts : List β) (values : List K) : Option (Items α K) :=
  if parts.any (fun p => !((keys w).map key).contains p) then none            -- RuntimeError
  else
    let w2 := w.filter fun p => !parts.contains (key p.1)
    if !parts.Nodup then none                                                 -- w2.pop(p): KeyError
    else if w2 ≠ [] then none                                                 -- TypeError
    else some (w.map fun p =>
      ((parts.zip values).reverse.find? fun q => q.1 = key p.1).elim p fun q => (p.1, q.2))
end SC.Compound
