import Verif.Pipeline.Model
import Mathlib.Data.List.Sublists
/-! # What running a pipeline should do -/

namespace SC.Pipeline

variable {S : Type} (E : Env S)

/-- The output is there. -/
def Done (i : Nat) (st : St S) : Prop := st.cached i = true ∨ E.out i st.world = true

/-- A dependency is there. -/
def Dep.Done (d : Dep) (st : St S) : Prop :=
  match d with
  | .task i => Pipeline.Done E i st
  | .path p => E.path p st.world = true

/-- Two states in which the same tasks are done. -/
structure Same (a b : St S) : Prop where
  world : a.world = b.world
  log : a.log = b.log
  done : ∀ i, Done E i a ↔ Done E i b

/-- What the objects remember is true. -/
def Sound (st : St S) : Prop := ∀ i, st.cached i = true → E.out i st.world = true

/-- Tasks don't remove outputs or inputs of each other. -/
structure Keeps : Prop where
  prepare_out : ∀ i j w w', E.prepare i w = some w' → E.out j w = true → E.out j w' = true
  exec_out : ∀ i j w, E.out j w = true → E.out j (E.exec i w) = true
  prepare_path : ∀ i p w w', E.prepare i w = some w' → E.path p w = true → E.path p w' = true
  exec_path : ∀ i p w, E.path p w = true → E.path p (E.exec i w) = true

/-- A dependency is there. -/
def Dep.There (d : Dep) (w : S) : Prop :=
  match d with
  | .task i => E.out i w = true
  | .path p => E.path p w = true

/-- Task `i` works: whenever its dependencies are there the folder can be made and it creates
its output. -/
def Works (i : Nat) : Prop :=
  ∀ w, (∀ d ∈ E.deps i, d.There E w) → ∃ w', E.prepare i w = some w' ∧ E.out i (E.exec i w') = true

/-- A task creates nobody else's output. -/
structure Own : Prop where
  prepare : ∀ i j w w', E.prepare i w = some w' → E.out j w' = true → E.out j w = true
  exec : ∀ i j w, E.out j (E.exec i w) = true → E.out j w = true ∨ j = i

/-- Every dependency is a task earlier in the list, or there from the beginning. -/
def Ordered (l : List Nat) (w : S) : Prop :=
  ∀ pre i post, l = pre ++ i :: post → ∀ d ∈ E.deps i, d.There E w ∨ ∃ j ∈ pre, d = .task j

/-- The dependencies of the tasks of a created pipeline are earlier tasks. -/
def Earlier (l : List Spec) : Prop := ∀ (k : Nat) (t : Spec), l[k]? = some t → ∀ d, t.dep = some d → d < k

/-- The tasks of a pipeline depend on the one before, except cropping which does not use the result
of replacing missing values. -/
def Chained (replaced : Bool) (l : List Spec) : Prop :=
  ∀ (k : Nat) (t : Spec), l[k]? = some t →
    t.dep = if k = 0 then none else if t.method = .crop ∧ replaced = true then some (k - 2) else some (k - 1)

/-- The first choice that was made. -/
def choose (a b : Option Str) : Option Str := if a.isSome then a else b

/-- A step as the user wants it. -/
def Given.wants (g : Given) (m : Method) (default : Str) (common : Option Str) : Method × Str × Option Str :=
  (m, g.name.getD default, choose g.outputparent common)

/-- The steps as the user wants them. -/
def Fluoxas.wants (c : Fluoxas) : List (Method × Str × Option Str) :=
  (c.geometry.toList.map fun p => (.xrfgeometry, Method.xrfgeometry.str, choose p c.common)) ++
  [(.pymca, Method.pymca.str, choose c.pymca c.common)] ++
  (c.prenormalize.toList.map fun g => g.wants .expression (['p', 'r', 'e'] ++ sNormalize) c.common) ++
  (c.resample.toList.map fun g => g.wants .resample Method.resample.str c.common) ++
  (c.align.toList.map fun g => g.wants .align Method.align.str c.common) ++
  (c.postnormalize.toList.map fun g => g.wants .expression (['p', 'o', 's', 't'] ++ sNormalize) c.common) ++
  (c.replacenan.toList.map fun g => g.wants .replace Method.replace.str c.common) ++
  (c.crop.toList.map fun g => g.wants .crop Method.crop.str c.common)

/-- The tasks of a created pipeline in any world. -/
def Follows (l : List Spec) : Prop := ∀ i, E.deps i = ((l[i]?.bind Spec.dep).map Dep.task).toList

/-- How often the data are normalized. -/
def normalizations (parent : Str) (c : Ffxas) : Nat :=
  (if c.onload then 1 else 0) + (ffxas parent c).countP fun t => decide (t.method = .expression)

/-- Normalization is done unless it is switched off (the default in id21_ffxas.py 14-15). -/
def Ffxas.wanted (c : Ffxas) : Bool := c.normalize.getD true

/-- The steps of the full-field pipeline: load, normalize when wanted and not done while loading,
align and crop when asked for. -/
def Ffxas.steps (c : Ffxas) : List (Method × Str) :=
  [(.fullfield, Method.fullfield.str)] ++
  (if c.normalize = some true ∧ c.normalizeonload = some false then [(.expression, sNormalize)] else []) ++
  (if c.align then [(.align, Method.align.str)] else []) ++
  (if c.crop then [(.crop, ['r', 'o', 'i'])] else [])

end SC.Pipeline
