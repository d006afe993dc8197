import Verif.Spectrum.Shells
import Verif.Py.Dict
import Verif.Axis.Model
/-! # Model of spectra, `materials/xrayspectrum.py`

Floating point numbers are rational numbers.  Values that depend on the geometry are taken at one geometry:
the shift of the Compton line is a parameter. -/
namespace SC.Spectrum
open SC.Common SC.Py

/-- A number or a one-dimensional numpy array. -/
inductive Val
  | num (q : ℚ)
  | arr (l : List ℚ)
  deriving DecidableEq

/-- instance.asarray, instance.py:337-338 -/
def Val.toList : Val → List ℚ
  | num q => [q]
  | arr l => l

/-- listtools.length, listtools.py:170-174 -/
def Val.len : Val → Nat
  | num _ => 1
  | arr l => l.length

/-- np.sum -/
def Val.sum (v : Val) : ℚ := v.toList.sum

/-- A function of every number of the value (numpy). -/
def Val.map (f : ℚ → ℚ) : Val → Val
  | num q => num (f q)
  | arr l => arr (l.map f)

/-- `a * b`; arrays of the same length only. -/
def Val.mul : Val → Val → Val
  | num a, num b => num (a * b)
  | num a, arr m => arr (m.map (a * ·))
  | arr l, num b => arr (l.map (· * b))
  | arr l, arr m => arr (List.zipWith (· * ·) l m)

/-- Errors of the module. -/
inductive Err
  | typeError | valueError | runtimeError | indexError
  deriving DecidableEq

/-- `a += b`: an array on the left is changed in place and keeps its shape. -/
def Val.iadd : Val → Val → Except Err Val
  | num a, num b => .ok (num (a + b))
  | num a, arr m => .ok (arr (m.map (a + ·)))
  | arr l, num b => .ok (arr (l.map (· + b)))
  | arr l, arr m =>
    if l.length = m.length then .ok (arr (List.zipWith (· + ·) l m))
    else match m with
      | [b] => .ok (arr (l.map (· + b)))
      | _ => .error .valueError

/-- Lines: FluoZLine (xrayspectrum.py:494-537, the text of the line, its group, its energy and width, all
from the tables), RayleighLine and ComptonLine (577-656, the energies of the source). -/
inductive Line
  | fluo (name group : Str) (energy width : ℚ)
  | rayleigh (source : Val)
  | compton (source : Val)
  deriving DecidableEq

/-- `_repr`, xrayspectrum.py:516-519, 591-594, 617, 626: lines are compared by this text. -/
def Line.name : Line → Str
  | fluo n _ _ _ => n
  | rayleigh _ => "Rayleigh".toList
  | compton _ => "Compton".toList

/-- `groupname`, xrayspectrum.py:521-523, 606-608 -/
def Line.group : Line → Str
  | fluo _ g _ _ => g
  | rayleigh _ => "Rayleigh".toList
  | compton _ => "Compton".toList

/-- `linewidth`, xrayspectrum.py:505-511, 581-583 -/
def Line.width : Line → ℚ
  | fluo _ _ _ w => w
  | _ => 0

/-- `energy`, xrayspectrum.py:529-530, 620-621, 629-641; `shift` is the energy after Compton scattering. -/
def Line.energy (shift : ℚ → ℚ) : Line → Val
  | fluo _ _ e _ => .num e
  | rayleigh s => s
  | compton s => s.map shift

/-- `split`, xrayspectrum.py:532-533, 600-604 -/
def Line.split : Line → List Line
  | fluo n g e w => [fluo n g e w]
  | rayleigh s => if s.len = 1 then [rayleigh s] else s.toList.map fun e => rayleigh (.num e)
  | compton s => if s.len = 1 then [compton s] else s.toList.map fun e => compton (.num e)

/-- isinstance(line, FluoZLine) -/
def Line.isFluo : Line → Bool
  | fluo .. => true
  | _ => false

/-- The dictionary of lines. -/
abbrev Lines := List (Line × Val)

/-- `self._lines[line] = v`, xrayspectrum.py:689-690: a line with the same text keeps its place and the line. -/
def Lines.set : Lines → Line → Val → Lines
  | [], l, v => [(l, v)]
  | (k, w) :: d, l, v => if k.name = l.name then (k, v) :: d else (k, w) :: Lines.set d l v

/-- `self._lines.get(line)` -/
def Lines.get? : Lines → Str → Option Val
  | [], _ => none
  | (k, w) :: d, n => if k.name = n then some w else Lines.get? d n

/-- Spectrum.TYPES, xrayspectrum.py:661-664, and None. -/
inductive Kind
  | crosssection | diffcrosssection | rate | none
  deriving DecidableEq

/-- Spectrum, xrayspectrum.py:659-675: without plotting.  `fourpi` is 4 times pi. -/
structure Spec where
  lines : Lines
  density : Option ℚ
  kind : Kind
  shift : ℚ → ℚ
  fourpi : ℚ

/-- The weights over their sum, xrayspectrum.py:733-735. -/
def normalWeights (w : Val) : Val := w.map (· / w.sum)

/-- apply_weights, xrayspectrum.py:730-738: assignment to an existing line. -/
def applyWeights (w : Option Val) (d : Lines) : Lines :=
  match w with
  | Option.none => d
  | some w => d.map fun p => if p.2.len = w.len then (p.1, p.2.mul (normalWeights w)) else p

/-- sum_sources, xrayspectrum.py:740-743 -/
def sumSources (d : Lines) : Lines := d.map fun p => if p.1.isFluo then (p.1, .num p.2.sum) else p

/-- line_multiplier, xrayspectrum.py:783-793; no density raises TypeError. -/
def Spec.multiplier (s : Spec) (convert : Bool) : Except Err ℚ :=
  if !convert then .ok 1
  else match s.kind with
    | .crosssection => match s.density with
      | some d => .ok (d / s.fourpi)
      | Option.none => .error .typeError
    | .diffcrosssection => match s.density with
      | some d => .ok d
      | Option.none => .error .typeError
    | .rate => .ok 1
    | .none => .error .runtimeError

/-- profile_multiplier, xrayspectrum.py:795-801 -/
def profileMultiplier (mcagain : ℚ) (fluxtime : Option ℚ) (histogram : Bool) : ℚ :=
  (match fluxtime with | some f => f | Option.none => 1) * (if histogram then mcagain else 1)

/-- The loop of __iadd__, xrayspectrum.py:806-810. -/
def iaddLines : Lines → Lines → Except Err Lines
  | d, [] => .ok d
  | d, (l, v) :: r =>
    match Lines.get? d l.name with
    | some w => match w.iadd v with
      | .ok x => iaddLines (Lines.set d l x) r
      | .error e => .error e
    | Option.none => iaddLines (Lines.set d l v) r

/-- __iadd__, xrayspectrum.py:803-811, for the same geometry. -/
def Spec.iadd (s o : Spec) : Except Err Spec :=
  if s.kind ≠ o.kind then .error .valueError
  else match iaddLines s.lines o.lines with
    | .ok d => .ok { s with lines := d }
    | .error e => .error e

/-- np.max; of nothing: not reached. -/
def maxOf : List ℚ → ℚ
  | [] => 0
  | a :: l => l.foldl max a

/-- items_sorted, xrayspectrum.py:818-826 -/
def Spec.itemsSorted (s : Spec) (sort : Bool) : Lines :=
  if sort then stableSort (fun p => maxOf (p.1.energy s.shift).toList) s.lines else s.lines

/-- items_converted, xrayspectrum.py:828-831 -/
def Spec.itemsConverted (s : Spec) (convert sort : Bool) : Except Err Lines :=
  match s.multiplier convert with
  | .ok m => .ok ((s.itemsSorted sort).map fun p => (p.1, p.2.map (· * m)))
  | .error e => .error e

/-- probabilities, xrayspectrum.py:833-845 -/
def Spec.probabilities (s : Spec) : Except Err Lines :=
  if s.kind ≠ .crosssection ∧ s.kind ≠ .diffcrosssection then .error .runtimeError
  else s.itemsConverted true false

/-- rates, xrayspectrum.py:860-867 -/
def Spec.rates (s : Spec) : Except Err Lines :=
  if s.kind ≠ .rate then .error .runtimeError
  else s.itemsConverted true false

/-- One line of `lines`, xrayspectrum.py:887-894. -/
def linesOf (p : Line × Val) : List (Line × ℚ) :=
  match p.1 with
  | .fluo .. => [(p.1, p.2.sum)]
  | .rayleigh s => List.zipWith (fun e v => (.rayleigh (.num e), v)) s.toList p.2.toList
  | .compton s => List.zipWith (fun e v => (.compton (.num e), v)) s.toList p.2.toList

/-- lines, xrayspectrum.py:882-894 -/
def Spec.linesList (s : Spec) (sort : Bool) : Except Err (List (Line × ℚ)) :=
  match s.itemsConverted true sort with
  | .ok l => .ok (l.flatMap linesOf)
  | .error e => .error e

/-- instance.asscalar of the energy of a line of one energy. -/
def scalar : Val → ℚ
  | .num q => q
  | .arr l => l.headD 0

/-- spectrum, xrayspectrum.py:896-901 -/
def Spec.spectrum (s : Spec) (sort : Bool) : Except Err (List (ℚ × ℚ)) :=
  match s.linesList sort with
  | .ok l => .ok (l.map fun p => (scalar (p.1.energy s.shift), p.2))
  | .error e => .error e

/-- The counts of collections.Counter. -/
def counts (l : List (ℚ × ℚ)) : Dict (ℚ × ℚ) Nat :=
  l.foldl (fun d p => Dict.set d p (((Dict.get? d p).getD 0) + 1)) []

/-- spectrum_dict, xrayspectrum.py:903-908 -/
def Spec.spectrumDict (s : Spec) : Except Err (Dict (ℚ × ℚ) Nat) :=
  match s.spectrum false with
  | .ok l => .ok (counts l)
  | .error e => .error e

/-- The value of a line in a group, xrayspectrum.py:916-920. -/
def groupValue (p : Line × Val) : Val := if p.1.isFluo then .num p.2.sum else p.2

/-- The loop of linegroups, xrayspectrum.py:911-920. -/
def groupLoop (d : Dict Str Lines) : Lines → Dict Str Lines
  | [] => d
  | p :: r =>
    let g := (Dict.get? d p.1.group).getD []
    groupLoop (Dict.set d p.1.group (Lines.set g p.1 (groupValue p))) r

/-- linegroups, xrayspectrum.py:910-921 -/
def Spec.linegroups (s : Spec) (convert : Bool) : Except Err (Dict Str Lines) :=
  match s.itemsConverted convert false with
  | .ok l => .ok (groupLoop [] l)
  | .error e => .error e

/-- What lineinfo tells of a line, xrayspectrum.py:946-952. -/
structure Info where
  group : Str
  label : Option Str
  energy : Val
  area : ℚ
  natwidth : ℚ
  deriving DecidableEq

/-- np.argmax: the first position of the largest number; of nothing: ValueError. -/
def argmax : List ℚ → Option Nat
  | [] => Option.none
  | a :: l => some ((a :: l).findIdx fun x => decide (x = maxOf (a :: l)))

/-- `group == "Compton" or group == "Rayleigh"`, xrayspectrum.py:928. -/
def isScat (group : Str) : Bool := decide (group = "Compton".toList) || decide (group = "Rayleigh".toList)

/-- The lines of one group, xrayspectrum.py:928-952: pairs of the name and the information. -/
def groupInfo (shift : ℚ → ℚ) (group : Str) (lines : Lines) : Except Err (List (Str × Info)) :=
  let bscat := isScat group
  let ls := if bscat then (match lines with | [] => [] | (l, _) :: _ => l.split) else lines.map Prod.fst
  let vs := if bscat then (match lines with | [] => [] | (_, v) :: _ => v.toList) else lines.map fun p => p.2.sum
  match argmax vs with
  | Option.none => .error .valueError
  | some imax => .ok ((ls.zip vs).mapIdx fun i p =>
      (if bscat then group ++ (toString i).toList else p.1.name,
       ⟨group, if i = imax then some group else Option.none, p.1.energy shift, p.2, p.1.width⟩))

/-- The loop over the groups, xrayspectrum.py:927-952. -/
def infoLoop (shift : ℚ → ℚ) (d : Dict Str Info) : Dict Str Lines → Except Err (Dict Str Info)
  | [] => .ok d
  | (g, lines) :: r => match groupInfo shift g lines with
    | .ok l => infoLoop shift (Dict.update d l) r
    | .error e => .error e

/-- lineinfo, xrayspectrum.py:923-957; the energy of every line is one number. -/
def Spec.lineinfo (s : Spec) (convert sort : Bool) : Except Err (Dict Str Info) :=
  match s.linegroups convert with
  | .error e => .error e
  | .ok g => match infoLoop s.shift [] g with
    | .error e => .error e
    | .ok d => .ok (if sort then stableSort (fun p => scalar p.2.energy) d else d)

/-- power, xrayspectrum.py:1067-1071, in keV/s. -/
def Spec.power (s : Spec) (flux : ℚ) : Except Err ℚ :=
  if s.kind ≠ .rate then .error .runtimeError
  else match s.spectrum false with
    | .ok l => .ok ((l.map fun p => p.1 * p.2).sum * flux)
    | .error e => .error e

/-- energytochannel, xrayspectrum.py:1077-1083: np.round is half to even. -/
def energyToChannel (zero gain e : ℚ) : Int := max (SC.Axis.roundEven ((e - zero) / gain)) 0

/-- The energy of a channel, xrayspectrum.py:1085-1087, 1093-1094. -/
def channelEnergy (zero gain : ℚ) (c : Int) : ℚ := zero + gain * c

/-- mcachannels, xrayspectrum.py:1089-1091 -/
def mcaChannels (zero gain a b : ℚ) : List Int :=
  let lo := energyToChannel zero gain a
  let hi := energyToChannel zero gain b
  (List.range (hi + 1 - lo).toNat).map fun (i : Nat) => lo + i

/-- The positions of the selected and of the other lines, xrayspectrum.py:990-992; a name that is not there
raises ValueError. -/
def selection (names sel : List Str) : Except Err (List Nat × List Nat) :=
  match sel.mapM fun k => names.idxOf? k with
  | Option.none => .error .valueError
  | some indin => .ok (indin, (List.range names.length).filter fun k => decide (k ∉ indin))

/-- The pattern of xraygrouprates, pymca.py:848 and 851-854: element and letter of the group (no new lines
in names). -/
def groupKey (k : Str) : Option Str :=
  let tail := fun (e : Str) (r : Str) => match r with
    | ['-', g] => if g.isUpper then some (e ++ ['-', g]) else Option.none
    | ['-', g, _] => if g.isUpper then some (e ++ ['-', g]) else Option.none
    | _ => Option.none
  match k with
  | a :: b :: r => if a.isUpper then (if b.isLower then tail [a, b] r else tail [a] (b :: r)) else Option.none
  | _ => Option.none

/-- The loop of xraygrouprates, pymca.py:849-861: the rates of the groups of one element with the same
letter are added.  Values are numbers. -/
def groupRatesLoop (d : Dict Str ℚ) : List (Str × ℚ) → Dict Str ℚ
  | [] => d
  | (k, v) :: r =>
    match groupKey k with
    | some g => groupRatesLoop (Dict.set d g (match Dict.get? d g with | some x => x + v | Option.none => v)) r
    | Option.none => groupRatesLoop (Dict.set d k v) r

/-- The text before the first space: `x.split(" ")[0]`. -/
def firstWord (s : Str) : Str := s.takeWhile (· ≠ ' ')

/-- The loops of _parse_fisx_result, multilayer.py:1034-1045: peaks with the element, the name and the rate;
`name` is the text of the FluoZLine of an element and a line. -/
def fisxLoop (name : Str → Str → Str) (d : Dict Str ℚ) : List (Str × Str × ℚ) → Dict Str ℚ
  | [] => d
  | (g, p, q) :: r =>
    let k := name (firstWord g) (firstWord p)
    fisxLoop name (Dict.set d k (match Dict.get? d k with | some x => x + q | Option.none => q)) r

/-- _parse_fisx_result, multilayer.py:1025-1051: groups of layers of peaks.  `trans` is the transmission at
the energy of the line. -/
def parseFisx (name : Str → Str → Str) (trans : Str → ℚ) (reflection : Bool)
    (fisx : List (Str × List (Str × List (Str × ℚ)))) : Dict Str ℚ :=
  let d := fisxLoop name [] (fisx.flatMap fun g => g.2.flatMap fun l => l.2.map fun p => (g.1, p.1, p.2))
  if reflection then d else d.map fun p => (p.1, p.2 * trans p.1)

/-- _rates_to_spectrum, multilayer.py:1053-1082: the lines and the largest energy. -/
def ratesToSpectrum (shift : ℚ → ℚ) (rates : Lines) (emax : Option ℚ) (scattering : Bool) : Except Err (Lines × ℚ) :=
  let r := if scattering then rates else rates.filter fun p => p.1.isFluo
  match emax with
  | some e => .ok (r, e)
  | Option.none => match r.flatMap fun p => (p.1.energy shift).toList with
    | [] => .error .valueError
    | a :: l => .ok (r, maxOf (a :: l))

end SC.Spectrum
