import Verif.XiaRead.Model
/-! # What reading XIA data should give

The corrections do not depend on the level of the object at which they are done, nor on what was
read before. -/

namespace SC.XiaRead
open XiaConfig

variable {K : Type} [Field K]

/-- The settings that matter. -/
structure Params where
  dtcor : Bool
  add : Bool
  norm : Option Str
  onlyicrocr : Bool
deriving DecidableEq

def paramsOf (c : Config) : Params := ⟨c.dtcor, c.add, c.norm, c.indexing.onlyicrocr⟩

/-- All values, if there are no missing ones. -/
def gather {A : Type} : List (Option A) → Option (List A)
  | [] => some []
  | x :: xs => x.bind fun a => (gather xs).map fun as => a :: as

/-- Each detector is multiplied by its dead time correction, from rows 2 (input count rate) and 3
(output count rate) of its statistics. -/
def deadtime (dtf : K → K → K) (data stats : Block K) : Block K :=
  List.zipWith (fun spectrum st => spectrum.map fun ch =>
    List.zipWith (· * ·) ch (List.zipWith dtf (st.getD 2 []) (st.getD 3 []))) data stats

/-- The detectors are added. -/
def addDetectors (data : Block K) : Block K := data.map fun spectrum => spectrum.map fun ch => [ch.sum]

/-- Each spectrum of an image is divided by the value of its pixel. -/
def divide (data : List (Block K)) (m : List (List K)) : List (Block K) :=
  List.zipWith (fun row ms => List.zipWith (fun spectrum a => spectrum.map fun ch => ch.map (· / a)) row ms) data m

/-- Dead time correction and sum of a line. -/
def correctedLine (dtf : K → K → K) (p : Params) (l : Line K) : Option (Block K) :=
  l.data.bind fun d =>
    (if p.dtcor then l.stats.map (deadtime dtf d) else some d).map fun d => if p.add then addDetectors d else d

/-- Images are normalized, nothing else. -/
def normalized : (n : Nat) → (Str → Option (List (List K))) → Option Str → Arr K (n + 1) → Option (Arr K (n + 1))
  | 0, monitor, some ctr, d => (monitor ctr).map fun m => divide (show List (Block K) from d) m
  | _, _, _, d => some d

/-- The corrected data. -/
def corrected (dtf : K → K → K) (p : Params) : (n : Nat) → Obj K n → Option (Arr K n)
  | 0, l => correctedLine dtf p l
  | n + 1, o =>
    let node : Node (Obj K n) K := o
    (gather (node.items.map (corrected dtf p n))).bind (normalized n node.monitor p.norm)

/-- The statistics: all, or the count rates only. -/
def rawStats (onlyicrocr : Bool) : (n : Nat) → Obj K n → Option (Arr K n)
  | 0, l => (show Line K from l).stats.map fun st => if onlyicrocr then st.map fun s => [s.getD 2 [], s.getD 3 []] else st
  | n + 1, o => gather ((show Node (Obj K n) K from o).items.map (rawStats onlyicrocr n))

/-- The counters. -/
def rawCounters : (n : Nat) → Obj K n → Option (Arr K n)
  | 0, _ => none
  | 1, o => (show Node (Obj K 0) K from o).counters
  | n + 2, o => gather ((show Node (Obj K (n + 1)) K from o).items.map (rawCounters (n + 1)))

/-- Settings reached by the methods of an object whose highest level is `n`: the dead time
correction and the sum are done on level 0 or on level `n`. -/
structure Valid (n : Nat) (c : Config) : Prop where
  maxlevel : c.maxlevel = n
  levels : c.levels = ⟨0, 0, 1, 1⟩ ∨ c.levels = ⟨n, n, 1, 1⟩

/-- Something is requested that `__getitem__` can return. -/
def Request (i : Indexing) : Prop := i.data = true ∨ i.stats ≠ i.counters

end SC.XiaRead
