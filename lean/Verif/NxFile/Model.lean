import Verif.Paths.Model
import Verif.Py.Dict
/-! # Model of `io/nexus.py` -/
namespace SC.NxFile
open SC.Paths (Str)

/-- `hdf5pathparse`, nexus.py:8-22. -/
def pathParse (path : Str) : Str × Str :=
  match (Paths.parts path).reverse with
  | [] => (['/'], [])
  | [n] => (['/'], n)
  | n :: r => ('/' :: Paths.glue ['/'] r.reverse, n)

/-- `int(text)` of digits. -/
def intOf (t : Str) : Option Nat := if t ≠ [] ∧ t.all Char.isDigit then some (Nat.ofDigitChars 10 t 0) else none

/-- The name of a processing step, nexus.py:125-127. -/
def stepName (index : Nat) (name : Str) : Str := Nat.toDigits 10 index ++ '.' :: name

/-- `addinfogroup`, nexus.py:117-135: the steps by name; `none`: the group exists. The attributes are not modelled. -/
def addInfo {D : Type} (g : List (Str × D)) (name : Str) (d : D) : Option (List (Str × D)) :=
  let n := stepName (g.length + 1) name
  if n ∈ g.map (·.1) then none else some (g ++ [(n, d)])

/-- Assignment to `ret[ind - 1]`, nexus.py:151-152; minus one is the last item. -/
def assign {D : Type} (ret : List (Option D)) (ind : Nat) (d : D) : Option (List (Option D)) :=
  let i := if ind = 0 then ret.length - 1 else ind - 1
  if i < ret.length then some (ret.set i (some d)) else none

/-- `getinfogroups`, nexus.py:138-154: the steps in the order in which the file gives them. -/
def getInfo {D : Type} (g : List (Str × D)) : Option (List (Option D)) :=
  g.foldlM (fun ret p => (intOf (p.1.takeWhile fun c => c != '.')).bind fun ind => assign ret ind p.2) (List.replicate g.length none)

/-- NeXus classes. -/
inductive Cls
  | root
  | entry
  | subentry
  | data
  | other
  deriving DecidableEq

/-- `NXclassup`, nexus.py:162-182: the classes of the parents, the nearest first and the root last. The parent of the root is the
root. -/
def classUp (dataset : Bool) : List (Option Cls) → List (Option Cls)
  | [] => []
  | some c :: r => some c :: r
  | none :: r => some (if dataset then .data else if r.head? = some (some .root) then .entry else .subentry) :: classUp false r

/-- `NXdefault`, nexus.py:196-200: the default attributes by path; paths start with the innermost name. -/
def defaultUp (st : Py.Dict (List Str) Str) : List Str → Py.Dict (List Str) Str
  | [] => st
  | n :: r => defaultUp (Py.Dict.set st r n) r

/-- Attributes of the groups. -/
structure Attrs where
  default : Py.Dict (List Str) Str
  signal : Py.Dict (List Str) Str

/-- `NXdefault`, nexus.py:185-200. -/
def nxDefault (a : Attrs) (dataset up : Bool) (p : List Str) : Attrs :=
  match dataset, p with
  | true, n :: r => ⟨if up then defaultUp a.default r else a.default, Py.Dict.set a.signal r n⟩
  | _, _ => ⟨if up then defaultUp a.default p else a.default, a.signal⟩

/-- `text.split(":")`. -/
def splitColon : Str → List Str
  | [] => [[]]
  | c :: s => if c = ':' then [] :: splitColon s else match splitColon s with
    | x :: xs => (c :: x) :: xs
    | [] => [[c]]

/-- The attribute of linkaxes, nexus.py:398-399, and its links, nexus.py:401-403. -/
def linkAxes {D : Type} (links : Py.Dict Str D) (axes : List (Str × D)) : Str × Py.Dict Str D :=
  (Paths.glue [':'] (axes.map (·.1)), axes.foldl (fun l a => Py.Dict.set l a.1 a.2) links)

/-- `parse_NXdata`, nexus.py:407-411: the axes by name; `none`: KeyError. -/
def readAxes {D : Type} (attr : Str) (links : Py.Dict Str D) : Option (List (Str × D)) :=
  (splitColon attr).mapM fun n => (Py.Dict.get? links n).map fun d => (n, d)

end SC.NxFile
