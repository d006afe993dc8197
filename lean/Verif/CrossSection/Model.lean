import Verif.Compound.Model
/-! # Model of cross-section trees

`materials/multielementbase.py:155-205`, `materials/utils.py:5-18` and the `_crosssection` methods
of `materials/compound.py:257-288` and `materials/mixture.py:246-307`.

A cross section is an array over energies; all operations are element-wise, so one number of an
ordered field stands for it.  Elements and compounds as dictionary keys are their names (their
`_repr`).  The cross section of a single element is an arbitrary function. -/
namespace SC.CrossSection
open SC.Compound

variable {K : Type} [Field K] [LinearOrder K] [IsStrictOrderedRing K]

mutual
/-- A Python value in a cross-section tree: an array, `{"w": w, "cs": cs}` or `{name: value, …}`
(no component is called "cs" or "w"). -/
inductive CS (K : Type) where
  | num (v : K)
  | pair (w : K) (cs : CS K)
  | dict (l : CSItems K)
inductive CSItems (K : Type) where
  | nil
  | cons (k : String) (c : CS K) (l : CSItems K)
end

/-- cs_type, multielementbase.py:155-169. -/
def csType : CS K → Nat
  | .num _ => 0
  | .pair _ (.num _) => 1
  | .pair _ _ => 2
  | .dict _ => 2

mutual
/-- cs_collapse, multielementbase.py:171-179.  `{"w": …, "cs": {…}}` has type 2, so the sum runs
over its two values, the weight being a plain number. -/
def collapse : CS K → K
  | .num v => v
  | .pair w (.num v) => w * v
  | .pair w (.pair w' c) => w + collapse (.pair w' c)
  | .pair w (.dict l) => w + collapse (.dict l)
  | .dict l => collapseItems l
def collapseItems : CSItems K → K
  | .nil => 0
  | .cons _ c l => collapse c + collapseItems l
end

/-- csdict_parse of the values of a dictionary: `c["w"]` and `cs_collapse(c["cs"])`
(`none`: TypeError or KeyError), multielementbase.py:189-190. -/
def parseItems : CSItems K → Option (List K × List K)
  | .nil => some ([], [])
  | .cons _ (.pair w c) l => (parseItems l).map fun r => (w :: r.1, collapse c :: r.2)
  | .cons _ (.num _) _ => none
  | .cons _ (.dict _) _ => none

/-- csdict_parse, multielementbase.py:181-191. -/
def csdictParse : CS K → Option (List K × List K)
  | .num v => some ([1], [v])
  | .pair w (.num v) => some ([w], [v])
  | .pair _ _ => none
  | .dict l => parseItems l

mutual
/-- csdict_parse_elements, multielementbase.py:193-205.  `k` is `None` at the top. -/
def parseElements : CS K → Items (Option String) K → K → Option String → Option (Items (Option String) K)
  | .num v, out, w, k => some (addTo id out k (w * v))
  | .pair w' (.num v), out, w, k => some (addTo id out k (w * w' * v))
  | .pair _ (.pair _ _), _, _, _ => none          -- the value of "w" is not a dictionary: TypeError
  | .pair _ (.dict _), _, _, _ => none
  | .dict l, out, w, _ => parseElementsItems l out w
def parseElementsItems : CSItems K → Items (Option String) K → K → Option (Items (Option String) K)
  | .nil, out, _ => some out
  | .cons k (.pair w' c) l, out, w => (parseElements c out (w * w') (some k)).bind fun out => parseElementsItems l out w
  | .cons _ (.num _) _, _, _ => none
  | .cons _ (.dict _) _, _, _ => none
end

/-- elemental_crosssections, materials/utils.py:5-18 (`none`: TypeError or KeyError).  The recursion
passes on the weight of the inner level only. -/
def elementalItems : CSItems K → Items String K → K → Option (Items String K)
  | .nil, out, _ => some out
  | .cons k (.pair w' (.num v)) l, out, w => elementalItems l (addTo id out k (w * w' * v)) w
  | .cons _ (.pair w' (.dict l')) l, out, w => (elementalItems l' out w').bind fun out => elementalItems l out w
  | .cons _ (.pair _ (.pair _ _)) _, _, _ => none
  | .cons _ (.num _) _, _, _ => none
  | .cons _ (.dict _) _, _, _ => none

/-! ## where the trees come from -/

/-- What `_crosssection` of a mixture needs from a compound. -/
structure CPart (K : Type) where
  name : String
  isscatterer : Bool
  /-- `c.massfractions()` -/
  mass : Items String K

/-- `{e: {"w": w, "cs": cs}}`, compound.py:271-274 and mixture.py:266-268. -/
def elementDict (cs : String → K) : Items String K → CSItems K
  | [] => .nil
  | (e, w) :: l => .cons e (.pair w (.num (cs e))) (elementDict cs l)

/-- Compound._crosssection with `decomposed=True`, compound.py:257-274. -/
def CPart.decomposed (c : CPart K) (scattering : Bool) (cs : String → K) : CS K :=
  if scattering && !c.isscatterer then .dict .nil else .dict (elementDict cs c.mass)

/-- Compound._crosssection with `decomposed=False` and numbers, compound.py:259-263, 285-287. -/
def CPart.summed (c : CPart K) (scattering : Bool) (cs : String → K) : K :=
  if scattering && !c.isscatterer then 0 else (c.mass.map fun p => p.2 * cs p.1).sum

/-- Compound._crosssection with `decomposed=False` and one number per line, compound.py:276-283. -/
def CPart.lines (c : CPart K) (cs : String → Items String K) : Items String K :=
  c.mass.foldl (fun ret p => (cs p.1).foldl (fun ret q => addTo id ret q.1 (p.2 * q.2)) ret) []

/-- Mixture._crosssection with `decomposed=True`, mixture.py:255-268.  `self.hasscatterers` is a
method that is not called, hence true, so the first test never applies. -/
def mixDecomposed (scattering : Bool) (cs : String → K) : Items (CPart K) K → CSItems K
  | [] => .nil
  | (c, w) :: l =>
      if scattering && !c.isscatterer then mixDecomposed scattering cs l
      else .cons c.name (.pair w (.dict (elementDict cs c.mass))) (mixDecomposed scattering cs l)

/-- Mixture._crosssection with `decomposed=False` and numbers, mixture.py:289-306
(`none`: Python's None). -/
def mixSummed (scattering : Bool) (cs : String → K) (m : Items (CPart K) K) : Option K :=
  m.foldl (fun ret c =>
    if scattering && !c.1.isscatterer then ret
    else
      let eret := (c.1.mass.map fun p => c.2 * p.2 * cs p.1).sum
      match ret with
      | none => some eret
      | some r => some (r + eret)) none

/-- Mixture._crosssection with `decomposed=False` and one number per line, mixture.py:270-287
(these methods are not scattering methods). -/
def mixLines (cs : String → Items String K) (m : Items (CPart K) K) : Items String K :=
  m.foldl (fun ret c => c.1.mass.foldl (fun ret p =>
    (cs p.1).foldl (fun ret q => addTo id ret q.1 (c.2 * p.2 * q.2)) ret) ret) []

end SC.CrossSection
