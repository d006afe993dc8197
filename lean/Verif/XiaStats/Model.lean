import Verif.Xia.Model
import Verif.Linop.Model
/-! # XIA statistics, dead time and normalisation (io/xiaedf.py)

An image is a list of rows, a three dimensional array a list of matrices; the extents of axes are
explicit where numpy takes them from the shape.  Values are of any type `V`: the data type of the
file is taken to hold them (numpy casts are not modelled).  Writing an EDF file and reading it back
gives the same image and header. -/
namespace SC.XiaStats
open SC.Naming SC.Xia

variable {V : Type}

/-- `reshape((n, k))` of a flat row. -/
def chunk (n k : Nat) (row : List V) : List (List V) := (List.range n).map (fun i => (row.drop (i * k)).take k)

/-- `.T` of a matrix with `cols` columns. -/
def transpose [Inhabited V] (cols : Nat) (m : List (List V)) : List (List V) :=
  (List.range cols).map (fun j => m.map (fun r => r.getD j default))

/-- `row[ind]` -/
def take [Inhabited V] (row : List V) (ind : List Nat) : List V := ind.map (fun i => row.getD i default)

/-- The statistics file: image and `xdet` header (lines 2099-2121). -/
structure StatFile (V : Type) where
  image : List (List V)
  xdet : List Nat

/-- `ind = np.arange(n).reshape((nstats, ndet)).T.reshape(n)` (line 2117) -/
def saveOrder (nstats ndet : Nat) : List Nat :=
  (transpose ndet (chunk nstats ndet (List.range (nstats * ndet)))).flatten

/-- `_save_stats` (lines 2099-2121); the array is nspec x nstats x ndet. -/
def saveStats [Inhabited V] (nstats ndet : Nat) (stats : List (List (List V))) : StatFile V :=
  { image := stats.map (fun s => take s.flatten (saveOrder nstats ndet)), xdet := List.range ndet }

/-- `xiadata.NSTATS` (line 780) -/
def NSTATS : Nat := 6

/-- lines 2036-2042: nspec x NSTATS x ndet.  `none` when the reshape fails. -/
def readStats [Inhabited V] (width : Nat) (f : StatFile V) : Option (List (List (List V))) :=
  if width / NSTATS * NSTATS = width then
    some (f.image.map (fun row => transpose NSTATS (chunk (width / NSTATS) NSTATS row)))
  else none

/-- `xiadetector_tonumber` on a string (lines 318-340); only ASCII digits. -/
def toNumber (detector : Str) : Option Nat :=
  let d := if ['x', 'i', 'a'].isPrefixOf detector then detector.drop 3 else detector
  if d ≠ [] ∧ d.all Char.isDigit then some (Nat.ofDigitChars 10 d 0) else none

/-- `stats_detectors.index(det)` (ValueError: `none`) -/
def indexOf (l : List Nat) (n : Nat) : Option Nat := l.findIdx? (fun x => x == n)

/-- `statindices_used` (lines 1369-1376): for each detector in use the position in the statistics file,
`none` for detectors without number. -/
def statIndices (xdet : List Nat) (used : List Str) : Option (List (Option Nat)) :=
  used.mapM (fun d =>
    match toNumber d with
    | none => some none
    | some n => (indexOf xdet n).map some)

/-- lines 2044-2055 on one row of detectors; `zero` stands for the dummy. -/
def select [Inhabited V] (zero : V) (ind : List (Option Nat)) (row : List V) : List V :=
  ind.map (fun i => match i with | none => zero | some i => row.getD i default)

/-- `_getstats` without further indexing (lines 2026-2067).  An empty selection of detectors gives an
empty array. -/
def getStats [Inhabited V] (zero : V) (width : Nat) (f : StatFile V) (used : List Str) (onlyicrocr : Bool) :
    Option (List (List (List V))) :=
  (readStats width f).bind (fun stats =>
    (statIndices f.xdet used).map (fun ind =>
      if ind = [] then []
      else stats.map (fun m =>
        let m := m.map (select zero ind)
        if onlyicrocr then [m.getD 2 [], m.getD 3 []] else m)))

/-- `"xia{:02d}".format(i)` (line 2085) -/
def defaultLabel (i : Nat) : Str := ['x', 'i', 'a'] ++ pad 2 i

/-- `save` then reading the statistics of the detectors at positions `sel` of the saved labels
(lines 2123-2150 and 2026-2067): `labels` are the labels the data files are written with. -/
def saveLoad [Inhabited V] (zero : V) (nstats ndet : Nat) (labels : List Str) (sel : List Nat) (onlyicrocr : Bool)
    (stats : List (List (List V))) : Option (List (List (List V))) :=
  getStats zero (nstats * ndet) (saveStats nstats ndet stats)
    (sel.map (fun i => (xiaparselabel (labels.getD i [])).2)) onlyicrocr

/-! ## dead time and normalisation -/

open SC.Linop

variable {K : Type} [Field K] [LinearOrder K]

/-- `np.isfinite` -/
def isFinite : F K → Bool
  | .fin _ => true
  | _ => false

/-- `a[mask] = v` -/
def maskSet (a : List (F K)) (mask : List Bool) (v : F K) : List (F K) :=
  List.zipWith (fun x b => if b then v else x) a mask

/-- `deadtimecorrector` (lines 755-762) on arrays of one length -/
def deadtimecorrector (icr ocr : List (F K)) : List (F K) :=
  let dtcor := List.zipWith F.div icr ocr
  let dtcor := maskSet dtcor (dtcor.map (fun x => !isFinite x)) (.fin 1)
  maskSet dtcor (List.zipWith (fun i x => F.lt i (.fin 1000) || F.lt x (.fin 1)) icr dtcor) (.fin 1)

/-- `normalizer` (lines 765-768) -/
def normalizer (norm : List (F K)) : List (F K) := maskSet norm (norm.map (fun x => decide (x = .fin 0))) (.fin 1)

/-- The corrections of `__getitem__` on the values of one spectrum position: times the dead time
correction of each detector, sum over detectors, divided by the normaliser (lines 1257-1305). -/
def correct (data cor : List (F K)) (norm : F K) : F K :=
  F.div ((List.zipWith F.mul data cor).foldl F.add (.fin 0)) norm

end SC.XiaStats
