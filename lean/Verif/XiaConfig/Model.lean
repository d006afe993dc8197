import Verif.Xia.Model
/-! # Model of the settings of XIA data (`io/xiaedf.py`)

`xiadict` holds the settings shared by all levels of a XIA object.  `env_indexing_*` change them for
the duration of a `with` block and `iter_detectors` for the duration of a loop.  Calculations are
state transformers that may raise.  The counter function in `norm` and the image cache are not
modelled. -/

namespace SC.XiaConfig

/-- Texts. -/
abbrev Str := List Char

/-- A detector as given by the user: a number or a name. -/
inductive Det where
  | num (n : Nat)
  | name (s : Str)
deriving DecidableEq, Repr

/-- `self["indexing"]` (xiaedf.py 581-596) -/
structure Indexing where
  data : Bool
  stats : Bool
  counters : Bool
  onlyicrocr : Bool
deriving DecidableEq, Repr

/-- `self["leveldatainfo"]` (xiaedf.py 626-627) -/
structure Levels where
  dt : Nat
  sum : Nat
  norm : Nat
  ctr : Nat
deriving DecidableEq, Repr

/-- `xiadict` (xiaedf.py 578-634), without `norm["func"]`. -/
structure Config where
  indexing : Indexing
  overwrite : Bool
  exclude : List Det
  incl : List Det
  add : Bool
  dtcor : Bool
  norm : Option Str
  maxlevel : Nat
  levels : Levels
  freeze : Bool
  reldir : Str
deriving DecidableEq, Repr

/-- `xiadict()` (xiaedf.py 579-634) -/
def initial : Config :=
  { indexing := { data := true, stats := false, counters := false, onlyicrocr := true }, overwrite := false,
    exclude := [], incl := [], add := false, dtcor := false, norm := none, maxlevel := 0,
    levels := { dt := 0, sum := 0, norm := 1, ctr := 1 }, freeze := false, reldir := ['.'] }

/-- The methods that change one setting (xiaedf.py 636-734). -/
inductive Setting where
  | onlydata | onlystats | onlycounters | dataandstats | dataall
  | overwrite (b : Bool) | onlyicrocr (b : Bool) | dtcor (b : Bool) | norm (ctr : Option Str)
  | detectorsum (b : Bool) | exclude (l : List Det) | incl (l : List Det) | maxlevel (n : Nat)
  | setleveldatainfo | freeze (b : Bool) | reldir (s : Str)
deriving DecidableEq, Repr

/-- `setleveldatainfo` (xiaedf.py 707-726) -/
def setLevels (c : Config) : Config :=
  if c.freeze then c
  else
    let dt := if c.indexing.stats then c.maxlevel else 0
    { c with levels := { dt := dt, sum := dt, norm := 1, ctr := 1 } }

/-- A method call (xiaedf.py 636-734). -/
def Setting.apply : Setting → Config → Config
  | .onlydata, c => { c with indexing := { c.indexing with data := true, stats := false, counters := false } }
  | .onlystats, c => { c with indexing := { c.indexing with data := false, stats := true, counters := false } }
  | .onlycounters, c => { c with indexing := { c.indexing with data := false, stats := false, counters := true } }
  | .dataandstats, c => { c with indexing := { c.indexing with data := true, stats := true, counters := false } }
  | .dataall, c => { c with indexing := { c.indexing with data := true, stats := true, counters := true } }
  | .overwrite b, c => { c with overwrite := b }
  | .onlyicrocr b, c => { c with indexing := { c.indexing with onlyicrocr := b } }
  | .dtcor b, c => { c with dtcor := b }
  | .norm ctr, c => { c with norm := ctr }
  | .detectorsum b, c => { c with add := b }
  | .exclude l, c => { c with exclude := l }
  | .incl l, c => { c with incl := l }
  | .maxlevel n, c => { c with maxlevel := max c.maxlevel n }
  | .setleveldatainfo, c => setLevels c
  | .freeze b, c => { c with freeze := b }
  | .reldir s, c => { c with reldir := s }

/-! ## Calculations -/

/-- How a calculation ends: with a value (also `return`, `break` and `continue`) or with an
exception. -/
inductive Res (α : Type) where
  | ok (a : α)
  | raised
deriving DecidableEq, Repr

/-- A calculation with the settings and the rest `W` of the world. -/
abbrev M (W α : Type) := Config × W → Res α × Config × W

variable {W α β : Type}

/-- Return a value. -/
def M.pure (a : α) : M W α := fun s => (.ok a, s)

/-- Raise an exception. -/
def M.raise : M W α := fun s => (.raised, s)

/-- Do one after the other. -/
def M.bind (m : M W α) (f : α → M W β) : M W β := fun s =>
  match m s with
  | (.ok a, s) => f a s
  | (.raised, s) => (.raised, s)

/-- `try: m except Exception: handler` -/
def M.attempt (m : M W α) (handler : M W α) : M W α := fun s =>
  match m s with
  | (.ok a, s) => (.ok a, s)
  | (.raised, s) => handler s

/-- A method of `xiadict` is called. -/
def M.set (x : Setting) : M W Unit := fun s => (.ok (), x.apply s.1, s.2)

/-! ## Scopes -/

/-- `env_indexing_onlydata`, `_onlystats`, `_onlycounters`, `_allstats` (xiaedf.py 898-928). -/
inductive Scope where
  | onlydata | onlystats | onlycounters | allstats
deriving DecidableEq, Repr

/-- The setting changed at the start of the scope (xiaedf.py 901, 909, 917, 925). -/
def Scope.setting : Scope → Setting
  | .onlydata => .onlydata
  | .onlystats => .onlystats
  | .onlycounters => .onlycounters
  | .allstats => .onlyicrocr false

/-- What happens before the `yield` (xiaedf.py 900-902). -/
def Scope.enter (k : Scope) (c : Config) : Config := (Setting.freeze true).apply (k.setting.apply c)

/-- `with self.env_indexing_...(): m` (xiaedf.py 898-928).  `restore_indexinginfo` updates all four
entries (698-699).  `contextlib` throws an exception of the block into the generator at its
`yield`; as there is no `try`, nothing after it is executed. -/
def scope (k : Scope) (m : M W α) : M W α := fun s =>
  match m (k.enter s.1, s.2) with
  | (.ok a, c, w) => (.ok a, { c with indexing := s.1.indexing }, w)
  | (.raised, c, w) => (.raised, c, w)

/-! ## Detectors -/

/-- `s.isdigit()` of an ASCII text -/
def isDigits (s : Str) : Bool := !s.isEmpty && s.all Char.isDigit

/-- `xiadetectorselect_tostring` for one detector (xiaedf.py 264-287) -/
def Det.toLabel : Det → Str
  | .num n => ['x', 'i', 'a'] ++ Naming.pad 2 n
  | .name s =>
    if isDigits s then ['x', 'i', 'a'] ++ Naming.pad 2 (Nat.ofDigitChars 10 s 0)
    else if ['x', 'i', 'a'].isPrefixOf s then s
    else ['x', 'i', 'a'] ++ s

/-- `xiadetectorselect_files` (xiaedf.py 342-379) on the labels of the files. -/
def selectLabels (labels : List Str) (exclude incl : List Det) : List Str :=
  let skip := exclude.map Det.toLabel
  let keep := incl.map Det.toLabel
  if labels.isEmpty then labels
  else if skip.isEmpty && keep.isEmpty then labels
  else if skip.isEmpty then labels.filter (fun x => decide (x ∈ keep))
  else if keep.isEmpty then labels.filter (fun x => decide (x ∉ skip))
  else labels.filter (fun x => decide (x ∉ skip) && decide (x ∈ keep))

/-- `detectors_used` of a line with files of the given labels (xiaedf.py 1966-1972). -/
def detectorsUsed (labels : List Str) (c : Config) : List Str :=
  (selectLabels labels c.exclude c.incl).map fun l => (Xia.xiaparselabel l).2

/-- The loop over the detectors until the body leaves the loop (`some b`) or raises
(xiaedf.py 853-855). -/
def detLoop (body : Str → M W (Option β)) : List Str → M W (Option β)
  | [], s => (.ok none, s)
  | d :: ds, s =>
    match body d ((Setting.incl [.name d]).apply s.1, s.2) with
    | (.ok none, s) => detLoop body ds s
    | (.ok (some b), s) => (.ok (some b), s)
    | (.raised, s) => (.raised, s)

/-- `for det in self.iter_detectors(): body` (xiaedf.py 847-858).  However the loop is left, the
generator is closed (CPython closes it when the loop drops it) and executes its `finally`. -/
def iterDetectors (labels : List Str) (body : Str → M W (Option β)) : M W (Option β) := fun s =>
  match detLoop body (detectorsUsed labels s.1) ((Setting.exclude []).apply s.1, s.2) with
  | (r, c, w) => (r, { c with exclude := s.1.exclude, incl := s.1.incl }, w)

/-! ## Nested scopes -/

/-- Code made of scopes, loops over the detectors, reading and handlers. -/
inductive Prog where
  | skip
  | fail
  /-- `thisleveldatainfo` at the highest level (xiaedf.py 877-879), done by every reading -/
  | read
  | seq (p q : Prog)
  | scope (k : Scope) (p : Prog)
  | each (p : Str → Prog)
  /-- `try: p except Exception: pass` -/
  | attempt (p : Prog)

/-- Executing a program. -/
def Prog.exec (labels : List Str) : Prog → M W Unit
  | .skip => M.pure ()
  | .fail => M.raise
  | .read => M.set .setleveldatainfo
  | .seq p q => M.bind (p.exec labels) fun _ => q.exec labels
  | .scope k p => XiaConfig.scope k (p.exec labels)
  | .each p => M.bind (iterDetectors labels fun d => M.bind ((p d).exec labels) fun _ => M.pure (none : Option Unit)) fun _ => M.pure ()
  | .attempt p => M.attempt (p.exec labels) (M.pure ())

end SC.XiaConfig
