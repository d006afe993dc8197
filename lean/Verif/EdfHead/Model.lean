import Verif.Axis.Model
import Verif.Scan.Cmd
import Verif.Py.Dict
/-! # Model of the axes of an image from its EDF header

`edfheader_parser` of `io/spec.py`. Quantities are rational numbers in one unit of length; `Cfg.unit` is
the value of the unit of a motor in it. Simplified: floats in the header are finite numbers (NaN only
for missing values), all units have the same dimension, and the other labels do not have the names of
the entries for the scan (`motfast`, `startfast`, ...). -/
namespace SC.EdfHead
open SC.Scan (Str G Val)
open SC.Py (Dict)
open SC.Axis (Reg)

/-- Exceptions. -/
inductive Err where
  | valueError | keyError | zeroDivision
deriving DecidableEq

/-- Arguments of edfheader_parser, spec.py:570-603. -/
structure Cfg where
  fastlabel : Option Str
  slowlabel : Option Str
  speclabel : Option Str
  otherlabels : List (Str × Option Str)
  /-- the value of the unit of a motor (of `dimensionless` when it has none) -/
  unit : Option Str → Rat
  compensation : Dict Str (List Str)
  namemap : Dict Str Str
  /-- `float` of a text, `none`: ValueError -/
  float : Str → Option Rat
  /-- `int` of a text, `none`: ValueError -/
  int : Str → Option Int

/-- The header of an image. -/
abbrev Header := Str → Option Str

/-- The entries of a direction: `mot…`, `start…`, `end…` and `npixelsfast` or `nstepsslow`. -/
structure Dir where
  mot : Option Str := none
  start : Option Rat := none
  stop : Option Rat := none
  n : Option Int := none
deriving DecidableEq

/-- The result dictionary (simplified: without `time`, `repeats` and `nstepsfast`, which stay as the
command gives them). `vals`: other values, `none` is NaN. -/
structure Out where
  name : Option Str := none
  fast : Dir := {}
  slow : Dir := {}
  vals : Dict Str (Option Rat) := []

/-- Entry of the parsed command. -/
def strOf (l : List (G × Val)) (g : G) : Option Str := match (l.find? fun x => decide (x.1 = g)) with
  | some (_, .str s) => some s
  | _ => none
/-- Entry of the parsed command. -/
def numOf (l : List (G × Val)) (g : G) : Option Rat := match (l.find? fun x => decide (x.1 = g)) with
  | some (_, .num q) => some q
  | _ => none
/-- Entry of the parsed command. -/
def intOf (l : List (G × Val)) (g : G) : Option Int := match (l.find? fun x => decide (x.1 = g)) with
  | some (_, .int n) => some (n : Int)
  | _ => none

def tUnknown : Str := ['u', 'n', 'k', 'n', 'o', 'w', 'n']
def tZapimage : Str := ['z', 'a', 'p', 'i', 'm', 'a', 'g', 'e']

/-- What the command gives. -/
def ofCommand (r : Option (List (G × Val))) : Out := match r with
  | none => { name := some tUnknown }
  | some l =>
    { name := strOf l .name,
      fast := ⟨strOf l .motfast, numOf l .startfast, numOf l .endfast, intOf l .npixelsfast⟩,
      slow := ⟨strOf l .motslow, numOf l .startslow, numOf l .endslow, intOf l .nstepsslow⟩ }

/-- The command in the header, spec.py:610-615. -/
def title (c : Cfg) (h : Header) : Out := match c.speclabel with
  | none => {}
  | some l => match h l with
    | none => {}
    | some cmd => ofCommand (SC.Scan.parse cmd)

def tMot : Str := ['_', 'm', 'o', 't']
def tStart : Str := ['_', 's', 't', 'a', 'r', 't']
def tEnd : Str := ['_', 'e', 'n', 'd']
def tNbp : Str := ['_', 'n', 'b', 'p']

/-- A direction in the header, spec.py:617-624 and 626-633: the first missing entry ends it. -/
def readDir (c : Cfg) (h : Header) (label : Option Str) (d : Dir) : Except Err Dir := match label with
  | none => .ok d
  | some l => match h (l ++ tMot) with
    | none => .ok d
    | some m =>
      let d := { d with mot := some m }
      match h (l ++ tStart) with
      | none => .ok d
      | some s => match c.float s with
        | none => .error .valueError
        | some s =>
          let d := { d with start := some s }
          match h (l ++ tEnd) with
          | none => .ok d
          | some e => match c.float e with
            | none => .error .valueError
            | some e =>
              let d := { d with stop := some e }
              match h (l ++ tNbp) with
              | none => .ok d
              | some n => match c.int n with
                | none => .error .valueError
                | some n => .ok { d with n := some n }

/-- One label of _extract_floats, spec.py:661-669. -/
def readFloat (c : Cfg) (h : Header) (k : Str) (label : Option Str) (vals : Dict Str (Option Rat)) :
    Except Err (Dict Str (Option Rat)) := match label with
  | none => .ok vals
  | some l => match h l with
    | none => .ok (if (Dict.get? vals k).isSome then vals else Dict.set vals k none)
    | some t => match c.float t with
      | none => .error .valueError
      | some q => .ok (Dict.set vals k (some (q * c.unit (some l))))

/-- _extract_floats, spec.py:661-669. -/
def readFloats (c : Cfg) (h : Header) : List (Str × Option Str) → Dict Str (Option Rat) → Except Err (Dict Str (Option Rat))
  | [], vals => .ok vals
  | (k, l) :: r, vals => match readFloat c h k l vals with
    | .error e => .error e
    | .ok vals => readFloats c h r vals

/-- All labels with floats, spec.py:635-638. -/
def floatLabels (c : Cfg) : List (Str × Option Str) :=
  c.otherlabels ++ c.compensation.flatMap fun x => x.2.map fun v => (v, some v)

/-- An axis with its name (`none`: the name of the class). -/
structure Named where
  name : Option Str
  ax : Reg

/-- The compensation motors, spec.py:685-692: positions are added, the name is replaced. -/
def compensate (c : Cfg) (vals : Dict Str (Option Rat)) : List Str → Rat × Rat × Str → Rat × Rat × Str
  | [], st => st
  | m :: r, st => match Dict.get? vals m with
    | some (some p) => compensate c vals r (st.1 + p, st.2.1 + p, (Dict.get? c.namemap st.2.2).getD st.2.2)
    | _ => compensate c vals r st

def tDim1 : Str := ['D', 'i', 'm', '_', '1']
def tDim2 : Str := ['D', 'i', 'm', '_', '2']
def tFast : Str := ['f', 'a', 's', 't']
def tSlow : Str := ['s', 'l', 'o', 'w']

/-- The axis in pixels, spec.py:697-704. -/
def defaultAxis (c : Cfg) (h : Header) (fast : Bool) (ndefault : Option Int) : Except Err Named :=
  let n : Except Err Int := match ndefault with
    | some (.ofNat (n + 1)) => .ok (.ofNat (n + 1))
    | some (.negSucc n) => .ok (.negSucc n)
    | _ => match h (if fast then tDim1 else tDim2) with
      | none => .error .keyError
      | some t => match c.int t with
        | none => .error .valueError
        | some n => .ok n
  match n with
  | .error e => .error e
  | .ok n => match (if fast then SC.Axis.mkRegular (1 / 2) (((n - 1 : Int) : Rat) + 1 / 2) (n - 1) else SC.Axis.mkRegular 0 ((n - 1 : Int) : Rat) (n - 1)) with
    | none => .error .valueError
    | some a => .ok ⟨some (if fast then tFast else tSlow), a⟩

/-- _extract_axis, spec.py:671-704, with the entries that remain. -/
def extractAxis (c : Cfg) (h : Header) (vals : Dict Str (Option Rat)) (fast : Bool) (ndefault : Option Int) (d : Dir) :
    Except Err (Named × Dir) :=
  let default (d : Dir) : Except Err (Named × Dir) := match defaultAxis c h fast ndefault with
    | .error e => .error e
    | .ok a => .ok (a, d)
  match d.start with
  | none => default d
  | some s => match d.stop with
    | none => default { d with start := none }
    | some e => match d.n with
      | none => default { d with start := none, stop := none }
      | some n =>
        let u := c.unit d.mot
        let st : Rat × Rat × Option Str := match d.mot with
          | none => (s * u, e * u, none)
          | some m =>
            let r := compensate c vals ((Dict.get? c.compensation m).getD []) (s * u, e * u, m)
            (r.1, r.2.1, some r.2.2)
        let left : Dir := { d with start := none, stop := none, n := none }
        if fast then match SC.Axis.zapscan st.1 st.2.1 n with
          | none => .error .zeroDivision
          | some a => .ok (⟨st.2.2, a⟩, left)
        else match SC.Axis.ascan st.1 st.2.1 n with
          | none => .error .valueError
          | some a => .ok (⟨st.2.2, a⟩, left)

/-- What parse gives: the entries, the slow and the fast axis. -/
structure Result where
  out : Out
  name : Str
  slow : Named
  fast : Named

/-- parse, spec.py:608-659; `dims`: the default dimensions (slow, fast). -/
def parse (c : Cfg) (h : Header) (dims : Option (Option Int × Option Int)) : Except Err Result :=
  let out := title c h
  match readDir c h c.fastlabel out.fast with
  | .error e => .error e
  | .ok df => match readDir c h c.slowlabel out.slow with
    | .error e => .error e
    | .ok ds => match readFloats c h (floatLabels c) out.vals with
      | .error e => .error e
      | .ok vals => match extractAxis c h vals false (dims.bind (·.1)) ds with
        | .error e => .error e
        | .ok (slow, ds) => match extractAxis c h vals true (dims.bind (·.2)) df with
          | .error e => .error e
          | .ok (fast, df) => .ok ⟨⟨out.name, df, ds, vals⟩, out.name.getD tZapimage, slow, fast⟩

end SC.EdfHead
