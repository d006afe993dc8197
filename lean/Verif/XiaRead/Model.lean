import Verif.XiaConfig.Model
import Mathlib.Algebra.Field.Basic
import Mathlib.Algebra.BigOperators.Group.List.Basic
/-! # Model of reading XIA data (`io/xiaedf.py`)

`xiadata.__getitem__` with the full index, for lines (level 0), images (level 1), stacks (level 2)
and so on.  Arrays are nested lists whose shapes agree (numpy would raise otherwise), over a field,
without rounding.  The selection of detectors is fixed; the repair of cancelled maps (1284-1300) and
the cache are not modelled. -/

namespace SC.XiaRead
open XiaConfig

variable {K : Type} [Field K]

/-- `nspec x n x ndet` -/
abbrev Block (K : Type) := List (List (List K))

/-- An array of level `n`: `... x nspec x n x ndet`. -/
@[reducible] def Arr (K : Type) : Nat → Type
  | 0 => Block K
  | n + 1 => List (Arr K n)

/-- What the files of a line contain for the selected detectors; `none`: reading raises.  The
statistics are `nspec x 6 x ndet`. -/
structure Line (K : Type) where
  data : Option (Block K)
  stats : Option (Block K)

/-- `xiaimage` and above (xiaedf.py 1403-1632 and 2178-2372): the items, the counters (used on
level 1) and the values by which the spectra of the rows are divided to normalize to a counter
(level 1), `none` where reading raises. -/
structure Node (I : Type) (K : Type) where
  items : List I
  counters : Option (List (Block K))
  monitor : Str → Option (List (List K))

/-- A XIA object of level `n`. -/
@[reducible] def Obj (K : Type) : Nat → Type
  | 0 => Line K
  | n + 1 => Node (Obj K n) K

/-- What is returned: the requested parts. -/
structure Out (A : Type) where
  data : Option A
  stats : Option A
  counters : Option A
deriving DecidableEq

/-- Calculations that may raise. -/
abbrev Calc (A : Type) := M Unit A

/-- Reading a file. -/
def load {A : Type} : Option A → Calc A
  | some a => M.pure a
  | none => M.raise

/-- What the levels do differently. -/
structure Reader (A : Type) where
  /-- `_getdata`, `_getstats`, `_getcounters` -/
  data : Calc A
  stats : Calc A
  counters : Calc A
  /-- `data * deadtimecorrector(*extract_icrocr(stats))` (1258-1268) -/
  dt : A → A → Calc A
  /-- `sumdata` (1161-1176) -/
  sum : A → A
  /-- `data / normalizer(_getindexednormalizer())` (1277-1305) -/
  norm : A → Calc A

/-- `thisleveldatainfo` (xiaedf.py 877-893): `dt`, `sum` and `norm`. -/
structure Info where
  dt : Bool
  sum : Bool
  norm : Bool
deriving DecidableEq

/-- The settings after `thisleveldatainfo` (878-879). -/
def touch (level : Nat) (c : Config) : Config := if level = c.maxlevel then setLevels c else c

/-- `thisleveldatainfo` (881-888) -/
def infoOf (level : Nat) (c : Config) : Info :=
  { dt := c.dtcor && decide (level = c.levels.dt), sum := c.add && decide (level = c.levels.sum),
    norm := c.norm.isSome && decide (level = c.levels.norm) }

/-- Lines 1258-1306: `data` is undefined when it was not requested. -/
def correct {A : Type} (rd : Reader A) (i : Info) (data stats : Option A) : Calc (Option A) :=
  if i.dt || i.sum || i.norm then
    match data with
    | none => M.raise
    | some d =>
      M.bind (if i.dt then (match stats with | some st => rd.dt d st | none => M.raise) else M.pure d) fun d =>
      M.bind (M.pure (if i.sum then rd.sum d else d)) fun d =>
      M.bind (if i.norm then rd.norm d else M.pure d) fun d => M.pure (some d)
  else M.pure data

/-- `m` if `b` -/
def optional {A : Type} (b : Bool) (m : Calc A) : Calc (Option A) :=
  if b then M.bind m fun a => M.pure (some a) else M.pure none

/-- `__getitem__` (xiaedf.py 1178-1327). -/
def getitemWith {A : Type} (level : Nat) (rd : Reader A) : Calc (Out A) := fun s =>
  let c := touch level s.1
  let info := infoOf level c
  let i := c.indexing
  let onlydata := !i.stats && !i.counters
  let onlystats := !i.data && !i.counters
  let onlycounters := !i.data && !i.stats
  (M.bind (optional i.data (scope .onlydata rd.data)) fun data =>
    if i.data && onlydata && !(info.dt || info.sum || info.norm) then
      M.pure { data := data, stats := none, counters := none }
    else
      M.bind (optional (i.stats || info.dt) (scope .onlystats rd.stats)) fun stats =>
      if (i.stats || info.dt) && onlystats then
        M.pure { data := none, stats := stats, counters := none }
      else
        M.bind (optional i.counters (scope .onlycounters rd.counters)) fun counters =>
        if i.counters && onlycounters then
          M.pure { data := none, stats := none, counters := counters }
        else
          M.bind (correct rd info data stats) fun data =>
          if onlydata && !i.data then M.raise
          else
            M.pure { data := if i.data then data else none, stats := if i.stats then stats else none, counters := counters })
  (c, s.2)

/-- The array returned when only one part is requested. -/
def single {A : Type} (o : Out A) : Calc A :=
  match o with
  | ⟨some a, none, none⟩ => M.pure a
  | ⟨none, some a, none⟩ => M.pure a
  | ⟨none, none, some a⟩ => M.pure a
  | _ => M.raise

/-- One after the other. -/
def sequence {A : Type} : List (Calc A) → Calc (List A)
  | [] => M.pure []
  | m :: ms => M.bind m fun a => M.bind (sequence ms) fun as => M.pure (a :: as)

/-! ## Lines -/

/-- `nstats` rows of the statistics: ICR and OCR only (`STICR = 2`, `STOCR = 3`, xiaedf.py
774-780 and 2058-2059). -/
def pickStats (onlyicrocr : Bool) (st : Block K) : Block K :=
  if onlyicrocr then st.map fun s => [s.getD 2 [], s.getD 3 []] else st

/-- `indexicr`, `indexocr` (1014-1026) -/
def indexIcr (onlyicrocr : Bool) : Nat := if onlyicrocr then 0 else 2
/-- `indexocr` (xiaedf.py 1014-1026). -/
def indexOcr (onlyicrocr : Bool) : Nat := if onlyicrocr then 1 else 3

variable (dtf : K → K → K)

/-- Multiply every channel with the correction of its spectrum and detector; `dtf` is
`deadtimecorrector` for one detector. -/
def dtLine (oi : Bool) (data stats : Block K) : Block K :=
  List.zipWith (fun sp st => sp.map fun ch => List.zipWith (· * ·) ch
    (List.zipWith dtf (st.getD (indexIcr oi) []) (st.getD (indexOcr oi) []))) data stats

/-- Sum over the detectors, which remain as an axis of length 1. -/
def sumLine (data : Block K) : Block K := data.map fun sp => sp.map fun ch => [ch.sum]

/-- Divide each spectrum. -/
def normLine (data : Block K) (m : List K) : Block K :=
  List.zipWith (fun sp a => sp.map fun ch => ch.map (· / a)) data m

/-- A line (xiaedf.py 1890-2067); it has no counters and no monitor. -/
def lineReader (l : Line K) : Reader (Block K) :=
  { data := load l.data
    stats := fun s => load (l.stats.map (pickStats s.1.indexing.onlyicrocr)) s
    counters := M.raise
    dt := fun d st s => M.pure (dtLine dtf s.1.indexing.onlyicrocr d st) s
    sum := sumLine
    norm := fun _ => M.raise }

/-! ## Images, stacks, ... -/

/-- The correction of every line. -/
def dtArr (oi : Bool) : (n : Nat) → Arr K n → Arr K n → Arr K n
  | 0, d, st => dtLine dtf oi d st
  | n + 1, d, st => List.zipWith (dtArr oi n) d st

/-- The sum over the detectors of every line. -/
def sumArr : (n : Nat) → Arr K n → Arr K n
  | 0, d => sumLine d
  | n + 1, d => List.map (sumArr n) d

/-- The normalization of an image (`_getnormdata` 2324-2342, `_index_norm` 1065-1087). -/
def normArr : (n : Nat) → (Str → Option (List (List K))) → Option Str → Arr K (n + 1) → Calc (Arr K (n + 1))
  | 0, monitor, some ctr, d =>
    match monitor ctr with
    | none => M.raise
    | some m => M.pure (List.zipWith normLine (show List (Block K) from d) m)
  | _, _, _, _ => M.raise

/-- Counters: of the files of an image (2215-2236), of the items otherwise (1584-1601). -/
def countersArr : (n : Nat) → Option (List (Block K)) → List (Calc (Arr K n)) → Calc (Arr K (n + 1))
  | 0, counters, _ => load (show Option (Arr K 1) from counters)
  | n + 1, _, items => sequence items

/-- `obj[...]` for an object of level `n`. -/
def getitem : (n : Nat) → Obj K n → Calc (Out (Arr K n))
  | 0, l => getitemWith 0 (lineReader dtf l)
  | n + 1, o =>
    let node : Node (Obj K n) K := o
    let items := node.items.map fun x => M.bind (getitem n x) single
    getitemWith (n + 1)
      { data := sequence items
        stats := sequence items
        counters := countersArr n node.counters items
        dt := fun d st s => M.pure (dtArr dtf s.1.indexing.onlyicrocr (n + 1) d st) s
        sum := sumArr (n + 1)
        norm := fun d s => normArr n node.monitor s.1.norm d s }

/-- `obj.data`, `obj.stats`, `obj.counters`, `obj.allstats` (xiaedf.py 993-1012). -/
def readData (n : Nat) (o : Obj K n) : Calc (Out (Arr K n)) := scope .onlydata (getitem dtf n o)
/-- `obj.stats` (xiaedf.py 993-1012). -/
def readStats (n : Nat) (o : Obj K n) : Calc (Out (Arr K n)) := scope .onlystats (getitem dtf n o)
/-- `obj.counters` (xiaedf.py 993-1012). -/
def readCounters (n : Nat) (o : Obj K n) : Calc (Out (Arr K n)) := scope .onlycounters (getitem dtf n o)
/-- `obj.allstats` (xiaedf.py 993-1012). -/
def readAllStats (n : Nat) (o : Obj K n) : Calc (Out (Arr K n)) :=
  scope .onlystats (scope .allstats (getitem dtf n o))

end SC.XiaRead
