import Verif.Formula.Model
/-! # Model of `materials/compoundfromelement.py`

The oxidation states 8/3.0 and 16/3.0 of the table are the rational numbers 8/3 and 16/3. -/
namespace SC.Formula
open SC.Scan (floatOf)

/-- The compounds of an element: oxidation state, formula, density. -/
abbrev States := List (ℚ × Str × ℚ)

/-- db["oxide"], compoundfromelement.py:6-64. -/
def oxides : List (Str × States) := [
  ("H".toList, [(1, "H2O".toList, 997/1000)]),
  ("Li".toList, [(1, "Li2O".toList, 201/100)]),
  ("Be".toList, [(2, "BeO".toList, 151/50)]),
  ("B".toList, [(3, "B2O3".toList, 123/50)]),
  ("C".toList, [(4, "CO2".toList, 99/50)]),
  ("Na".toList, [(1, "Na2O".toList, 227/100)]),
  ("Mg".toList, [(2, "MgO".toList, 179/50)]),
  ("Al".toList, [(3, "Al2O3".toList, 79/20)]),
  ("Si".toList, [(4, "SiO2".toList, 53/20)]),
  ("P".toList, [(5, "P2O5".toList, 239/100)]),
  ("S".toList, [(4, "SO2".toList, 263/100), (6, "SO3".toList, 48/25)]),
  ("K".toList, [(1, "K2O".toList, 47/20)]),
  ("Ca".toList, [(2, "CaO".toList, 67/20)]),
  ("Sc".toList, [(3, "Sc2O3".toList, 193/50)]),
  ("Ti".toList, [(3, "Ti2O3".toList, 449/100), (4, "TiO2".toList, 423/100)]),
  ("V".toList, [(5, "V2O5".toList, 84/25)]),
  ("Cr".toList, [(3, "Cr2O3".toList, 261/50)]),
  ("Mn".toList, [(2, "MnO".toList, 537/100), (8/3, "Mn3O4".toList, 243/50), (4, "MnO2".toList, 503/100)]),
  ("Fe".toList, [(2, "FeO".toList, 287/50), (3, "Fe2O3".toList, 131/25)]),
  ("Co".toList, [(2, "CoO".toList, 161/25)]),
  ("Ni".toList, [(2, "NiO".toList, 667/100)]),
  ("Cu".toList, [(2, "CuO".toList, 631/100)]),
  ("Zn".toList, [(2, "ZnO".toList, 561/100)]),
  ("Ga".toList, [(3, "Ga2O3".toList, 161/25)]),
  ("Ge".toList, [(4, "GeO2".toList, 17/4)]),
  ("As".toList, [(3, "As2O3".toList, 187/50)]),
  ("Rb".toList, [(1, "Rb2O".toList, 4)]),
  ("Sr".toList, [(2, "SrO".toList, 47/10)]),
  ("Y".toList, [(3, "Y2O3".toList, 501/100)]),
  ("Zr".toList, [(4, "ZrO2".toList, 142/25)]),
  ("Nb".toList, [(5, "Nb2O5".toList, 23/5)]),
  ("Mo".toList, [(6, "MoO3".toList, 469/100)]),
  ("Sn".toList, [(4, "SnO2".toList, 139/20)]),
  ("Sb".toList, [(3, "Sb2O3".toList, 26/5)]),
  ("Cs".toList, [(1, "Cs2O".toList, 93/20)]),
  ("Ba".toList, [(2, "BaO".toList, 143/25)]),
  ("La".toList, [(3, "La2O3".toList, 651/100)]),
  ("Ce".toList, [(3, "Ce2O3".toList, 31/5), (4, "CeO2".toList, 361/50)]),
  ("Pr".toList, [(3, "Pr2O3".toList, 69/10)]),
  ("Nd".toList, [(3, "Nd2O3".toList, 181/25)]),
  ("Sm".toList, [(3, "Sm2O3".toList, 167/20)]),
  ("Eu".toList, [(2, "EuO".toList, 41/5), (3, "Eu2O3".toList, 37/5)]),
  ("Gd".toList, [(3, "Gd2O3".toList, 741/100)]),
  ("Tb".toList, [(3, "Tb2O3".toList, 79/10)]),
  ("Dy".toList, [(3, "Dy2O3".toList, 39/5)]),
  ("Ho".toList, [(3, "Ho2O3".toList, 841/100)]),
  ("Er".toList, [(3, "Er2O3".toList, 216/25)]),
  ("Tm".toList, [(3, "Tm2O3".toList, 43/5)]),
  ("Yb".toList, [(3, "Yb2O3".toList, 917/100)]),
  ("Lu".toList, [(3, "Lu2O3".toList, 471/50)]),
  ("Hf".toList, [(4, "HfO2".toList, 242/25)]),
  ("Ta".toList, [(5, "Ta2O5".toList, 41/5)]),
  ("W".toList, [(6, "WO3".toList, 179/25)]),
  ("Au".toList, [(3, "Au2O3".toList, 567/50)]),
  ("Pb".toList, [(2, "PbO".toList, 953/100)]),
  ("Th".toList, [(4, "ThO2".toList, 10)]),
  ("U".toList, [(4, "UO2".toList, 1097/100), (16/3, "U3O8".toList, 839/100)])]

/-- db["sulfide"], compoundfromelement.py:66-78. -/
def sulfides : List (Str × States) := [
  ("Fe".toList, [(1, "Fe2S".toList, 47/10), (2, "FeS".toList, 121/25)]),
  ("Cu".toList, [(1, "Cu2S".toList, 28/5), (2, "CuS".toList, 119/25)]),
  ("Ni".toList, [(2, "NiS".toList, 587/100)]),
  ("Zn".toList, [(2, "ZnS".toList, 409/100)]),
  ("Ag".toList, [(1, "Ag2S".toList, 723/100)]),
  ("Pb".toList, [(2, "PbS".toList, 38/5)]),
  ("Hg".toList, [(2, "HgS".toList, 81/10)]),
  ("As".toList, [(2, "AsS".toList, 89/25), (3, "As2S3".toList, 343/100)]),
  ("Sb".toList, [(3, "Sb2S3".toList, 13/2)]),
  ("Mo".toList, [(4, "MoS2".toList, 253/50)]),
  ("Cd".toList, [(2, "CdS".toList, 2413/500)])]

/-- db, compoundfromelement.py:5-78. -/
def db : List (Str × List (Str × States)) := [("oxide".toList, oxides), ("sulfide".toList, sulfides)]

/-- The exceptions: RuntimeErrors (no such type, element, default, state), the TypeError of
`cmpds.values()[0]` and the TypeError of `super(Oxide, self)` in `Sulfide`. -/
inductive Err | typ | element | default | state | subscript | super
  deriving DecidableEq

/-- `d[k]` of a dictionary without equal keys. -/
def find {α β : Type} [DecidableEq α] (d : List (α × β)) (k : α) : Option β :=
  (d.find? fun p => decide (p.1 = k)).map Prod.snd

/-- `max(cmpds.keys())` or `min(cmpds.keys())`: the extreme oxidation state (`none`: no states). -/
def extreme (better : ℚ → ℚ → Bool) : States → Option ℚ
  | [] => none
  | (o, _) :: l => some (l.foldl (fun a p => if better p.1 a then p.1 else a) o)

/-- The choice of the compound, compoundfromelement.py:86-125: formula, density and
self.oxidationstate. -/
def choose (el : Str) (oxidationstate : Option ℚ) (typ dflt : Str) : Except Err (Str × ℚ × ℚ) :=
  match find db typ with
  | none => .error .typ
  | some table =>
    match find table el with
    | none => .error .element
    | some cmpds =>
      match oxidationstate with
      | none =>
        if cmpds.length = 1 then .error .subscript
        else
          let pick (o : Option ℚ) : Except Err (Str × ℚ × ℚ) :=
            match o with
            | none => .error .default
            | some o =>
              match find cmpds o with
              | none => .error .state
              | some (f, d) => .ok (f, d, o)
          if dflt = "max".toList then pick (extreme (fun a b => decide (b < a)) cmpds)
          else if dflt = "min".toList then pick (extreme (fun a b => decide (a < b)) cmpds)
          else .error .default
      | some o =>
        match find cmpds o with
        | none => .error .state
        | some (f, d) => .ok (f, d, o)

/-- `[A-Z][a-z]?` of the regular expression, compoundfromelement.py:129-131.  What follows can not
begin with a small letter, so the optional letter needs no second try. -/
def symbol : Str → Option (Str × Str)
  | [] => none
  | c :: s =>
    if isUpper c then
      match s with
      | d :: r => if isLower d then some ([c, d], r) else some ([c], s)
      | [] => some ([c], [])
    else none

/-- `\d?` of the regular expression; what follows can not begin with a digit. -/
def digit1 : Str → Str × Str
  | c :: s => if c.isDigit then ([c], s) else ([], c :: s)
  | [] => ([], [])

/-- parse.match(formula).groupdict(), compoundfromelement.py:129-132: Z, a, X, b (`none`: no match,
AttributeError).  `$` also matches before a final newline. -/
def groupdict (s : Str) : Option (Str × Str × Str × Str) :=
  match symbol s with
  | none => none
  | some (z, s) =>
    let a := digit1 s
    match symbol a.2 with
    | none => none
    | some (x, s) =>
      let b := digit1 s
      if b.2 = [] ∨ b.2 = ['\n'] then some (z, a.1, x, b.1) else none

/-- The number of a group, compoundfromelement.py:136-140. -/
def count (t : Str) : ℚ := if t.isEmpty then 1 else floatOf t

/-- A CompoundFromElement object. -/
structure FromElement where
  cmpd : Compound.Cmpd Str ℚ
  oxidationstate : ℚ
  Z : Str
  a : ℚ
  X : Str
  b : ℚ

/-- CompoundFromElement.__init__, compoundfromelement.py:86-140; the elements of the tables are
known to xraylib. -/
def fromElement (strict : Bool) (MM rho : Str → ℚ) (el : Str) (oxidationstate : Option ℚ) (typ dflt : Str) :
    Except Err (Option FromElement) :=
  match choose el oxidationstate typ dflt with
  | .error e => .error e
  | .ok (formula, density, o) => .ok (
    match new strict (fun _ => true) MM rho formula (some density) none, groupdict formula with
    | some c, some (z, a, x, b) => some ⟨c, o, z, count a, x, count b⟩
    | _, _ => none)

/-- _massfraction_conv, compoundfromelement.py:142-151. -/
def FromElement.conv (MM : Str → ℚ) (c : FromElement) : ℚ := c.cmpd.molarmass MM / (c.a * MM c.Z)

/-- massfraction_element_to_compound, compoundfromelement.py:153-154. -/
def FromElement.toCompound (MM : Str → ℚ) (c : FromElement) (w : ℚ) : ℚ := w * c.conv MM

/-- massfraction_compound_to_element, compoundfromelement.py:156-157. -/
def FromElement.toElement (MM : Str → ℚ) (c : FromElement) (w : ℚ) : ℚ := w / c.conv MM

/-- Oxide(...), compoundfromelement.py:160-163. -/
def oxide (strict : Bool) (MM rho : Str → ℚ) (el : Str) (oxidationstate : Option ℚ) (dflt : Str) :
    Except Err (Option FromElement) := fromElement strict MM rho el oxidationstate "oxide".toList dflt

/-- Sulfide(...), compoundfromelement.py:166-169: `super(Oxide, self)` with `self` a Sulfide. -/
def sulfide (_strict : Bool) (_MM _rho : Str → ℚ) (_el : Str) (_oxidationstate : Option ℚ) (_dflt : Str) :
    Except Err (Option FromElement) := .error .super

end SC.Formula
