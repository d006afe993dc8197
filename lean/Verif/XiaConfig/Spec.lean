import Verif.XiaConfig.Model
/-! # What scoped settings should do -/

namespace SC.XiaConfig

/-- All settings of the user are the same; only the information which level does what may differ. -/
structure SameSettings (c c' : Config) : Prop where
  indexing : c'.indexing = c.indexing
  overwrite : c'.overwrite = c.overwrite
  exclude : c'.exclude = c.exclude
  incl : c'.incl = c.incl
  add : c'.add = c.add
  dtcor : c'.dtcor = c.dtcor
  norm : c'.norm = c.norm
  maxlevel : c'.maxlevel = c.maxlevel
  reldir : c'.reldir = c.reldir

/-- What is asked for inside a scope. -/
def Scope.inside : Scope → Indexing → Indexing
  | .onlydata, i => ⟨true, false, false, i.onlyicrocr⟩
  | .onlystats, i => ⟨false, true, false, i.onlyicrocr⟩
  | .onlycounters, i => ⟨false, false, true, i.onlyicrocr⟩
  | .allstats, i => ⟨i.data, i.stats, i.counters, false⟩

/-- No exception is handled. -/
def Prog.Plain : Prog → Prop
  | .skip => True
  | .fail => True
  | .read => True
  | .seq p q => p.Plain ∧ q.Plain
  | .scope _ p => p.Plain
  | .each p => ∀ d, (p d).Plain
  | .attempt _ => False

/-- An exception may be raised inside the scopes of the list, the outermost first. -/
inductive Prog.RaisesIn : Prog → List Scope → Prop where
  | fail : RaisesIn .fail []
  | first {p q path} : RaisesIn p path → RaisesIn (.seq p q) path
  | second {p q path} : RaisesIn q path → RaisesIn (.seq p q) path
  | scope {k p path} : RaisesIn p path → RaisesIn (.scope k p) (k :: path)
  | each {p d path} : RaisesIn (p d) path → RaisesIn (.each p) path

/-- The settings are changed somewhere. -/
def Prog.HasScope : Prog → Prop
  | .skip => False
  | .fail => False
  | .read => False
  | .seq p q => p.HasScope ∨ q.HasScope
  | .scope _ _ => True
  | .each p => ∃ d, (p d).HasScope
  | .attempt p => p.HasScope

/-- The label of a file with spectra of one detector: `xia` and two characters. -/
def IsSpectraLabel (l : Str) : Prop := ∃ a b, l = ['x', 'i', 'a', a, b]

end SC.XiaConfig
