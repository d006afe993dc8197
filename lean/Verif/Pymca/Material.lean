import Verif.Py.Dict
import Verif.Formula.Model
/-! # Model of the conversion of materials to and from PyMca

`topymca` of elements, compounds and mixtures, and `PymcaHandle.loadfrompymca_material`.  A text is a
list of characters, a number a rational.  A compound and a mixture are given by the mass fractions of
their elements and parts, in the order of their dictionary; the code keeps mole fractions and converts
in both directions (property C16 is about that conversion).  The `Comment` and `Thickness` of an entry
are written and never read; they are left out. -/
namespace SC.Pymca
open SC.Formula (Str isUpper isLower)
open SC.Py

/-- What xraylib knows about elements, and the version of pyparsing (see `Verif/Formula/Model.lean`). -/
structure Params where
  strict : Bool
  /-- the symbols that `element.Element` accepts, element.py:30-47 -/
  known : Str → Bool
  MM : Str → ℚ
  rho : Str → ℚ

mutual
/-- An element (element.py 80-92), a compound (compound.py 14-65) or a mixture (mixture.py 12-38). -/
inductive Mat where
  | elem (symbol : Str)
  | cmpd (name : Str) (els : List (Str × ℚ)) (density : ℚ)
  | mix (name : Str) (parts : Parts)
/-- The parts of a mixture with their mass fractions, mixture.py 40-46. -/
inductive Parts where
  | nil
  | cons (m : Mat) (w : ℚ) (rest : Parts)
end

/-- `.name` -/
def Mat.name : Mat → Str
  | .elem s => s
  | .cmpd n _ _ => n
  | .mix n _ => n

/-- isinstance(e, element.Element), pymca.py:720 -/
def Mat.isElem : Mat → Bool
  | .elem _ => true
  | _ => false

/-- The items of the dictionary of parts. -/
def Parts.toList : Parts → List (Mat × ℚ)
  | .nil => []
  | .cons m w r => (m, w) :: r.toList

/-- A dictionary of parts from its items. -/
def Parts.ofList : List (Mat × ℚ) → Parts
  | [] => .nil
  | (m, w) :: l => .cons m w (Parts.ofList l)

mutual
/-- `.density`: element.py:202-203, compound.py 52-63; mixture.py:202-208 with stoichiometry.py:125-132
in terms of mass fractions. -/
def Mat.density (P : Params) : Mat → ℚ
  | .elem s => P.rho s
  | .cmpd _ _ d => d
  | .mix _ ps => (ps.toList.map Prod.snd).sum / (ps.volumes P).sum
/-- mass fraction over density of every part -/
def Parts.volumes (P : Params) : Parts → List ℚ
  | .nil => []
  | .cons m w r => w / m.density P :: r.volumes P
end

/-! ## Names -/

/-- pymcamaterial_prefix, elementbase.py:106 -/
def materialPrefix : Str := "Material_".toList
/-- pymcacomment_prefix, elementbase.py:107 -/
def commentPrefix : Str := "From spectrocrunch: ".toList

/-- pymcaname, elementbase.py:109-111 -/
def pymcaName (name : Str) : Str := materialPrefix ++ name

/-- namefrompymca, elementbase.py:117-122: the first prefix that fits is removed. -/
def nameFrom (s : Str) : Str :=
  if materialPrefix.isPrefixOf s then s.drop materialPrefix.length
  else if commentPrefix.isPrefixOf s then s.drop commentPrefix.length
  else s

/-- `[0-9]` -/
def isDig (c : Char) : Bool := decide ('0' ≤ c ∧ c ≤ '9')

/-- Where the regular expression is: before the first capital, behind a capital, behind a small letter
or a digit. -/
inductive At | start | upper | tail
  deriving DecidableEq

/-- `(([A-Z][a-z]?)([0-9]*))+` on the whole text, pymca.py:691. -/
def tokens : At → Str → Bool
  | .start, [] => false
  | _, [] => true
  | .start, c :: r => isUpper c && tokens .upper r
  | .upper, c :: r => if isUpper c then tokens .upper r else (isLower c || isDig c) && tokens .tail r
  | .tail, c :: r => if isUpper c then tokens .upper r else isDig c && tokens .tail r

/-- `$` also matches before a newline at the end: the text without it. -/
def chomp (s : Str) : Str := if s.getLast? = some '\n' then s.dropLast else s

/-- formula.match(name), pymca.py:691,696 -/
def looksFormula (s : Str) : Bool := tokens .start (chomp s)

/-- purelement.match(name) and its group, pymca.py:692,698-700 -/
def pureElement (s : Str) : Option Str :=
  match chomp s with
  | [a] => if isUpper a then some [a] else none
  | [a, b] => if isUpper a then (if isLower b then some [a, b] else if b = '1' then some [a] else none) else none
  | [a, b, c] => if isUpper a && isLower b && decide (c = '1') then some [a, b] else none
  | _ => none

/-! ## Saving -/

/-- One entry of cfg["materials"], compound.py:307-313. -/
structure Entry where
  /-- CompoundList -/
  comps : List Str
  /-- CompoundFraction -/
  fracs : List ℚ
  /-- Density -/
  density : ℚ
  deriving DecidableEq

abbrev Cfg := Dict Str Entry

/-- "{}1".format(e), compound.py:305, element.py:822 -/
def pureName (s : Str) : Str := s ++ ['1']

mutual
/-- topymca: element.py:819-831 (the mass fraction of the element in itself is one), compound.py:302-314,
mixture.py:355-368.  It returns the name of the entry. -/
def save (P : Params) : Mat → Cfg → Cfg × Str
  | .elem s, c => (Dict.set c (pymcaName s) ⟨[pureName s], [1], P.rho s⟩, pymcaName s)
  | .cmpd n els d, c =>
    (Dict.set c (pymcaName n) ⟨els.map fun p => pureName p.1, els.map Prod.snd, d⟩, pymcaName n)
  | .mix n ps, c =>
    let x := saves P ps c
    (Dict.set x.1 (pymcaName n) ⟨x.2, ps.toList.map Prod.snd, (Mat.mix n ps).density P⟩, pymcaName n)
/-- `[mat.topymca(cfg, …) for mat in r]`, mixture.py:358 -/
def saves (P : Params) : Parts → Cfg → Cfg × List Str
  | .nil, c => (c, [])
  | .cons m _ r, c =>
    let x := save P m c
    let y := saves P r x.1
    (y.1, x.2 :: y.2)
end

/-- The layers of a sample are saved one behind the other, multilayer.py:989-1001,962. -/
def saveAll (P : Params) (ms : List Mat) (c : Cfg) : Cfg := ms.foldl (fun c m => (save P m c).1) c

/-! ## Loading -/

/-- CompoundFromFormula(name, density), pymca.py:702. -/
def fromFormula (P : Params) (name : Str) (density : Option ℚ) : Option Mat :=
  (Formula.new P.strict P.known P.MM P.rho name density none).map fun c =>
    .cmpd name (c.massfractions P.MM) c.density

/-- `np.array(fractions) / sum(fractions)`, pymca.py:710 -/
def shares (l : List ℚ) : List ℚ := l.map fun x => x / l.sum

/-- The parts become keys of a dictionary, equal names are added up (compound.py:67-75, mixture.py:40-46);
the mass fractions of what results add up to one. -/
def gather {α : Type} (key : α → Str) (l : List (α × ℚ)) : List (α × ℚ) :=
  Compound.normalize (Compound.compose key l)

/-- What is made of the loaded parts, pymca.py:719-725 (`none`: arrays that do not fit). -/
def build (P : Params) (name : Str) (lst : List Mat) (fracs : List ℚ) (density : ℚ) : Option Mat :=
  (Compound.bcast lst (shares fracs)).map fun l =>
    if lst.all Mat.isElem then
      let els := gather id (l.map fun p => (p.1.name, p.2))
      .cmpd name els (Compound.newDensity P.rho els (some density))
    else .mix name (Parts.ofList (gather Mat.name l))

/-- loadfrompymca_material, pymca.py:690-725.  `none`: an exception (unknown element, missing entry, a
formula that cannot be used) or `n` levels of nesting are not enough. -/
def load (P : Params) : Nat → Cfg → Str → Option ℚ → Option Mat
  | 0, _, _, _ => none
  | n + 1, cfg, matname, density =>
    let name := nameFrom matname
    if looksFormula name then
      match pureElement name with
      | some s => if P.known s then some (.elem s) else none
      | none => fromFormula P name density
    else
      match Dict.get? cfg matname with
      | none => none
      | some e =>
        match e.comps.mapM fun m => load P n cfg m (some e.density) with
        | none => none
        | some lst => build P name lst e.fracs e.density

end SC.Pymca
