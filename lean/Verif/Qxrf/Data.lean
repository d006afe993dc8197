import Verif.Qxrf.Model
/-! # Model of the calibration data of a setup, `geometries/qxrf.py`

Quantities have a unit: a dimension and a factor to the base unit.  Data are single numbers; numpy does the same for
every point. -/
namespace SC.Qxrf
open SC.Py

/-- The dimensions that occur. -/
inductive Dim
  | dimless | hertz | ampere | second | energy | length
  deriving DecidableEq

/-- A unit of pint. -/
structure PUnit where
  dim : Dim
  scale : ℚ
  deriving DecidableEq

/-- A quantity of pint. -/
structure Qty where
  val : ℚ
  unit : PUnit
  deriving DecidableEq

/-- The value in base units. -/
def Qty.base (q : Qty) : ℚ := q.val * q.unit.scale

/-- `q.to(u)` of pint: another dimension raises DimensionalityError. -/
def Qty.to (q : Qty) (u : PUnit) : Except Err Qty :=
  if q.unit.dim = u.dim then .ok ⟨q.val * q.unit.scale / u.scale, u⟩ else .error .dimensionality

/-- Units without factor. -/
def unit1 (d : Dim) : PUnit := ⟨d, 1⟩

/-- A number without or with a unit. -/
inductive Raw
  | num (q : ℚ)
  | qty (q : Qty)
  deriving DecidableEq

/-- units.Quantity, units.py:11-28: a unit that is there is kept. -/
def Raw.quantity : Raw → PUnit → Qty
  | .num q, u => ⟨q, u⟩
  | .qty q, _ => q

/-- The kinds of data of a diode, qxrf.py:720-727. -/
inductive Name
  | counts | cps | current | photons | flux
  deriving DecidableEq

/-- The names of data: `"{}_{}".format(id, name)`, "time" and "energy", qxrf.py:717-728. -/
inductive Key
  | field (id : Str) (n : Name)
  | time
  | energy
  deriving DecidableEq

/-- The text of a kind of data. -/
def Name.text : Name → Str
  | .counts => ['c', 'o', 'u', 'n', 't', 's']
  | .cps => ['c', 'p', 's']
  | .current => ['c', 'u', 'r', 'r', 'e', 'n', 't']
  | .photons => ['p', 'h', 'o', 't', 'o', 'n', 's']
  | .flux => ['f', 'l', 'u', 'x']

/-- The text of a name; dictionaries are by text, different names have different texts (`text_injective`). -/
def Key.text : Key → Str
  | .field i n => i ++ '_' :: n.text
  | .time => ['t', 'i', 'm', 'e']
  | .energy => ['e', 'n', 'e', 'r', 'g', 'y']

/-- The unit a quantity is brought to, qxrf.py:786-818. -/
def Key.dim : Key → Dim
  | .field _ .counts => .dimless
  | .field _ .cps => .hertz
  | .field _ .current => .ampere
  | .field _ .photons => .dimless
  | .field _ .flux => .hertz
  | .time => .second
  | .energy => .energy

/-- _calibrate_fields, qxrf.py:714-728 -/
def fields (fid tid : Str) : List Key :=
  [.field fid .counts, .field tid .counts, .field fid .cps, .field tid .cps, .field fid .current,
   .field tid .current, .field fid .photons, .field tid .photons, .field fid .flux, .field tid .flux, .time, .energy]

/-- The first part of _validate_data, qxrf.py:776-781.  Data have no other names than fields (qxrf.py:730-771). -/
def fill (units : Key → PUnit) (data static : Dict Key Raw) (d : Dict Key Qty) (k : Key) : Dict Key Qty :=
  match Dict.get? data k with
  | some x => Dict.set d k (x.quantity (units k))
  | none => match Dict.get? static k with
    | some x => Dict.set d k (x.quantity (units k))
    | none => d

/-- `if k in data: data[k] = data[k].to(unit)` -/
def convert (k : Key) (d : Dict Key Qty) : Except Err (Dict Key Qty) :=
  match Dict.get? d k with
  | none => .ok d
  | some q => match q.to (unit1 k.dim) with
    | .ok q => .ok (Dict.set d k q)
    | .error e => .error e

/-- A missing rate from the number and the time, qxrf.py:803-804, 811-812; a time of zero gives zero here, inf in numpy. -/
def addRate (knum krate : Key) (d : Dict Key Qty) : Dict Key Qty :=
  match Dict.get? d krate with
  | some _ => d
  | none => match Dict.get? d knum with
    | none => d
    | some n => match Dict.get? d .time with
      | none => d
      | some t => Dict.set d krate ⟨n.val / t.val, unit1 .hertz⟩

/-- The part about counts and rates (or photons and flux), qxrf.py:801-815: the number is brought to no unit, the rate
is the number over the time when it is missing, then brought to hertz.  The time is there and in seconds. -/
def rateStep (knum krate : Key) (d : Dict Key Qty) : Except Err (Dict Key Qty) :=
  match convert knum d with
  | .error e => .error e
  | .ok d => convert krate (addRate knum krate d)

/-- The part about one diode, qxrf.py:793-818. -/
def diodeStep (id : Str) (d : Dict Key Qty) : Except Err (Dict Key Qty) :=
  match rateStep (.field id .counts) (.field id .cps) d with
  | .error e => .error e
  | .ok d => match rateStep (.field id .photons) (.field id .flux) d with
    | .error e => .error e
    | .ok d => convert (.field id .current) d

/-- The default time when there is none, qxrf.py:784-785. -/
def withTime (dflt : Qty) (d : Dict Key Qty) : Dict Key Qty :=
  match Dict.get? d .time with
  | none => Dict.set d .time dflt
  | some _ => d

/-- _validate_data without devices, qxrf.py:773-818. -/
def validate (units : Key → PUnit) (dflt : Qty) (fid tid : Str) (data static : Dict Key Raw) : Except Err (Dict Key Qty) :=
  match convert .time (withTime dflt ((fields fid tid).foldl (fill units data static) [])) with
  | .error e => .error e
  | .ok d => match convert .energy d with
    | .error e => .error e
    | .ok d => match diodeStep fid d with
      | .error e => .error e
      | .ok d => diodeStep tid d

/-- The gain of one diode from its data, qxrf.py:840-852: `fromResponse` is gainfromresponse of the diode. -/
def dataGain (fromResponse : Qty → Qty → Qty → ℚ) (dark : Bool) (id : Str) (d : Dict Key Qty) : Option ℚ :=
  match Dict.get? d .energy, dark, Dict.get? d (.field id .cps) with
  | some e, false, some c => match Dict.get? d (.field id .current) with
    | some j => some (fromResponse c j e)
    | none => match Dict.get? d (.field id .flux) with
      | some j => some (fromResponse c j e)
      | none => none
  | _, _, _ => none

/-- Arguments of calibrate_diodes, qxrf.py:561-651; `none`: not given. -/
structure Params where
  dark : Option Bool
  calibrate : Option Bool
  fixdark : Option Bool
  oscillator : Option Bool
  gainI0 : Option ℚ
  gainIt : Option ℚ

/-- What is done to a diode: its dark current from a rate (594-608), or the first diode calibrated with its response
and the flux that the second diode gives for its response (610-621). -/
inductive Act
  | dark (first : Bool) (cps : Qty)
  | gain (I0 It : Qty)
  deriving DecidableEq

/-- _calibrate_dark, qxrf.py:594-608; the branch with currents is disabled by `and False`. -/
def calibrateDark (p : Params) (fid tid : Str) (d : Dict Key Qty) : List Act :=
  if p.calibrate.getD true && !(p.fixdark.getD false) then
    (match Dict.get? d (.field fid .cps) with | some c => [Act.dark true c] | none => []) ++
    (match Dict.get? d (.field tid .cps) with | some c => [Act.dark false c] | none => [])
  else []

/-- _calibrate_diode_gain, qxrf.py:610-621: KeyError without energy. -/
def calibrateGain (p : Params) (fid tid : Str) (d : Dict Key Qty) : Except Err (List Act) :=
  if p.calibrate.getD true then
    match Dict.get? d .energy with
    | none => .error .keyError
    | some _ => match Dict.get? d (.field tid .current), Dict.get? d (.field fid .current) with
      | some t, some i => .ok [.gain i t]
      | _, _ => match Dict.get? d (.field tid .cps), Dict.get? d (.field fid .cps) with
        | some t, some i => .ok [.gain i t]
        | _, _ => .ok []
  else .ok []

/-- calibrate_diodes, qxrf.py:623-651 with 561-592, for valid data, devices that were checked, and without plots: the
gains that are set and what is done.  `params["dark"]` is looked up without default, before the gains. -/
def calibrateDiodes (close : ℚ → ℚ → Bool) (fromI0 fromIt : Qty → Qty → Qty → ℚ) (p : Params) (fid tid : Str)
    (d : Dict Key Qty) : Except Err (ℚ × ℚ × List Act) :=
  match p.dark with
  | none => .error .keyError
  | some dark =>
    match chooseGain close p.gainI0 (dataGain fromI0 dark fid d) with
    | .error e => .error e
    | .ok g0 => match chooseGain close p.gainIt (dataGain fromIt dark tid d) with
      | .error e => .error e
      | .ok gt =>
        if p.oscillator.getD false then .ok (g0, gt, [])
        else if dark then .ok (g0, gt, calibrateDark p fid tid d)
        else match calibrateGain p fid tid d with
          | .ok l => .ok (g0, gt, l)
          | .error e => .error e

/-! ## Other attributes and filters -/

/-- The setter of reference, qxrf.py:356-367: the second `except` is never reached. -/
def setReference (x : Raw) : Except Err Qty :=
  let q := x.quantity (unit1 .dimless)
  match q.to (unit1 .hertz) with
  | .ok q => .ok q
  | .error _ => q.to (unit1 .dimless)

/-- weightedsum, math/utils.py:63-70: a number is an array of one value, weights
that are no array are no weights; arrays of the same length. -/
def weightedSum (values : List ℚ) (weights : Option (List ℚ)) : ℚ :=
  match values with
  | [v] => v
  | _ => match weights with
    | none => values.sum / values.length
    | some w => (List.zipWith (· * ·) values w).sum / w.sum

/-- _beamfilter_transmission, qxrf.py:459-478: the transmissions of the beam filters of the geometries by source line. -/
def beamTransmission (filters : List (List ℚ)) (weights : Option (List ℚ)) : Except Err ℚ :=
  match filters.map fun f => weightedSum f weights with
  | [] => .error .indexError
  | t :: r => if r.all (· = t) then .ok t else .error .runtimeError

/-- I0op and Itop, qxrf.py:501-546: slope and offset of the operator from response to flux at the sample. -/
def fluxOp (op : ℚ × ℚ) (filters : List (List ℚ)) (weights : Option (List ℚ)) (remove : Bool) : Except Err (ℚ × ℚ) :=
  if remove then
    match beamTransmission filters weights with
    | .error e => .error e
    | .ok t => .ok (1 / t * op.1, 1 / t * op.2 + 0)
  else .ok op

end SC.Qxrf
