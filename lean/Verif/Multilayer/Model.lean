import Mathlib.Analysis.SpecialFunctions.Exp
import Mathlib.MeasureTheory.Integral.IntervalIntegral.Basic
/-! # Attenuation and fluorescence in a multilayer

Model of `Multilayer` in materials/multilayer.py:435-533, 598-832 and 1217-1306 over the real numbers.  The
cross-sections of a layer are arbitrary functions of the energy; tables of pandas are lists, and a
table of values for energies is a function of the energy (the energies are looked up exactly).  `nan` is
`none`. -/
namespace SC.Multilayer

/-- The lines after an interaction: a fluorescence line (by a number), Compton or Rayleigh scattering. -/
inductive Line where
  | fluo (id : Nat)
  | compton
  | rayleigh
deriving DecidableEq

inductive Err where
  | valueError | indexError
deriving DecidableEq

/-- A layer: thickness, linear attenuation coefficient (`mass_att_coeff * density`, 465-472) and the probabilities
of the interactions (569-587, zero for a line the layer does not have) by energy. -/
structure Layer where
  t : ℝ
  mu : ℝ → ℝ
  prob : ℝ → Line → ℝ

/-- A sample with its geometry. -/
structure Sample where
  layers : List Layer
  /-- `geometry.reflection` -/
  reflection : Bool
  /-- `geometry.cosnormin` -/
  cosin : ℝ
  /-- `geometry.cosnormout` -/
  cosout : ℝ
  /-- `geometry.solidangle` -/
  solidangle : ℝ
  /-- the energy of a fluorescence line -/
  lineE : Nat → ℝ
  /-- the energy of Compton scattering in the direction of the detector -/
  comptonE : ℝ → ℝ

/-! ## Depths -/

/-- `cumul_thickness` of _cache_layerinfo, multilayer.py:435-443 -/
def cumul (ls : List Layer) : List ℝ := (ls.map (·.t)).scanl (· + ·) 0

/-- `zexit` of _cache_layerinfo, multilayer.py:439-442 -/
def zexit (m : Sample) : ℝ := if m.reflection then 0 else (cumul m.layers).getLast?.getD 0

/-- `_zlayer`, multilayer.py:445-459: `np.digitize(z, t, right=True)` is the number of depths below `z` (the depths
increase). -/
noncomputable def zlayer (ls : List Layer) (z : ℝ) : Nat := (cumul ls).findIdx (fun b => decide (z ≤ b))

/-- `linatt` of _cache_attenuationinfo, multilayer.py:469-475: with vacuum before and after. -/
def linatt (ls : List Layer) (e : ℝ) : List ℝ := 0 :: (ls.map fun l => l.mu e) ++ [0]

/-- Column `b` of `np.triu(tmp).sum(axis=0)`, multilayer.py:483-486. -/
def corAt (ls : List Layer) (e : ℝ) (b : Nat) : ℝ :=
  ((List.range ls.length).map fun a =>
    if a ≤ b then ((linatt ls e).getD (a + 1) 0 - (linatt ls e).getD (b + 1) 0) * ((ls.map (·.t)).getD a 0) else 0).sum

/-- `linatt_cumulcor` of _cache_attenuationinfo, multilayer.py:477-486 -/
def cumulcor (ls : List Layer) (e : ℝ) : List ℝ :=
  0 :: ((List.range ls.length).map (corAt ls e)) ++ [(ls.map fun l => l.mu e * l.t).sum]

/-- `_cum_attenuation`, multilayer.py:495-514 -/
noncomputable def cumAtt (ls : List Layer) (z e : ℝ) : ℝ :=
  z * (linatt ls e).getD (zlayer ls z) 0 + (cumulcor ls e).getD (zlayer ls z) 0

/-- `_transmission`, multilayer.py:516-533 -/
noncomputable def transmission (ls : List Layer) (zi zj cos e : ℝ) : ℝ :=
  Real.exp (-(cumAtt ls zj e - cumAtt ls zi e) / cos)

/-! ## Interactions -/

/-- `interaction.energy(**geomkwargs)` as a list, xrayspectrum.py:529-530, 620-641 -/
def energies (m : Sample) (en0 : List ℝ) : Line → List ℝ
  | .fluo i => [m.lineE i]
  | .compton => en0.map m.comptonE
  | .rayleigh => en0

/-- `(np.abs(energyi - x)).argmin()`, multilayer.py:594: the first of the nearest energies. -/
noncomputable def nearest (en0 : List ℝ) (x : ℝ) : Nat :=
  en0.findIdx fun e => decide (∀ e' ∈ en0, |e - x| ≤ |e' - x|)

/-- `_prob_interaction` for a depth, multilayer.py:598-627; outside of the sample the probabilities are zero. -/
noncomputable def probAt (m : Sample) (en0 : List ℝ) (z e : ℝ) (k : Line) : ℝ :=
  match zlayer m.layers z with
  | 0 => 0
  | i + 1 =>
    match m.layers[i]?, en0[nearest en0 e]? with
    | some l, some e' => l.prob e' k
    | _, _ => 0

/-- The integrand of _primary_rates_numerical, multilayer.py:816-821 and 648-650. -/
noncomputable def path (m : Sample) (en0 : List ℝ) (k : Line) (e0 e1 z : ℝ) : ℝ :=
  transmission m.layers 0 z m.cosin e0 * (probAt m en0 z e0 k * transmission m.layers z (zexit m) m.cosout e1)

/-- The energies paired with the source lines, multilayer.py:812-814, 823: a fluorescence line has the same energy
for all. -/
def pairs (m : Sample) (en0 : List ℝ) : Line → List (ℝ × ℝ)
  | .fluo i => en0.map fun e => (e, m.lineE i)
  | k => en0.zip (energies m en0 k)

/-- _primary_rates_numerical, multilayer.py:780-832; the quadrature of scipy is the integral. -/
noncomputable def ratesNumerical (m : Sample) (en0 : List ℝ) (columns : List Line) : List (Line × List ℝ) :=
  columns.map fun k => (k, (pairs m en0 k).map fun p =>
    (∫ z in (0 : ℝ)..((cumul m.layers).getLast?.getD 0), path m en0 k p.1 p.2 z) * (m.solidangle / m.cosin))

/-- `J2` for a layer, multilayer.py:708-727: the thickness corrected for attenuation; `nan` for 0/0. -/
noncomputable def effThickness (m : Sample) (e0 e1 : ℝ) (b : Nat) : Option ℝ :=
  let ls := m.layers
  let chi := (linatt ls e1).getD (b + 1) 0 / m.cosout - (linatt ls e0).getD (b + 1) 0 / m.cosin
  let chicor := (cumulcor ls e1).getD (b + 1) 0 / m.cosout - (cumulcor ls e0).getD (b + 1) 0 / m.cosin
  if chi = 0 then none
  else
    let j := (Real.exp (chi * (cumul ls).getD (b + 1) 0) - Real.exp (chi * (cumul ls).getD b 0)) / chi * Real.exp chicor
    some (if m.reflection then j else j * Real.exp (-((cumulcor ls e1).getD (ls.length + 1) 0 / m.cosout)))

/-- A rate: `(J2 * probs).sum(axis=0)` for a source line, an energy and a line, multilayer.py:764-777. -/
noncomputable def rate (m : Sample) (j : Nat → Option ℝ) (e0 : ℝ) (k : Line) : Option ℝ :=
  ((List.range m.layers.length).mapM fun b =>
    (j b).map fun x => x * (m.solidangle / m.cosin) * (((m.layers.map fun l => l.prob e0 k)).getD b 0)).map List.sum

/-- `interactions1exp` with `energy1`, multilayer.py:703-706, 733-737 -/
def expanded (m : Sample) (en0 : List ℝ) (columns : List Line) : List (Line × ℝ) :=
  columns.flatMap fun k => (energies m en0 k).map fun e => (k, e)

/-- `interactions1.append(interactions1.pop(interactions1.index(k)))`, multilayer.py:755-757 -/
def moveLast (k : Line) (l : List Line) : Except Err (List Line) :=
  if k ∈ l then .ok (l.erase k ++ [k]) else .error .valueError

/-- `J2[:, indsource, indC]`: a mask with a different number of true values is an IndexError. -/
def diagonal (en0 : List ℝ) (l : List (Line × ℝ)) (k : Line) : Except Err (List ℝ) :=
  let es := (l.filter fun p => decide (p.1 = k)).map Prod.snd
  if es.length = en0.length then .ok es else .error .indexError

/-- The energies of the columns of `J2` for the source lines, multilayer.py:738-754: the fluorescence lines, and for
source line `s` its own Compton and Rayleigh energies. -/
def reduced (en0 : List ℝ) (l : List (Line × ℝ)) : Except Err (Nat → List ℝ) := do
  let f := (l.filter fun p => decide (p.1 ≠ .compton) && decide (p.1 ≠ .rayleigh)).map Prod.snd
  let c ← diagonal en0 l .compton
  let r ← diagonal en0 l .rayleigh
  return fun s => f ++ [c.getD s 0, r.getD s 0]

/-- _primary_rates with self-absorption, multilayer.py:684-778. -/
noncomputable def rates (m : Sample) (en0 : List ℝ) (columns : List Line) :
    Except Err (List (Line × List (Option ℝ))) := do
  let e1 ← reduced en0 (expanded m en0 columns)
  let lines ← moveLast .compton columns
  let lines ← moveLast .rayleigh lines
  return lines.zipIdx.map fun p => (p.1, en0.zipIdx.map fun q =>
    rate m (effThickness m q.1 ((e1 q.2).getD p.2 0)) q.1 p.1)

/-- _primary_rates without self-absorption, multilayer.py:758-778. -/
noncomputable def ratesThin (m : Sample) (en0 : List ℝ) (columns : List Line) : List (Line × List (Option ℝ)) :=
  columns.map fun k => (k, en0.map fun e => rate m (fun b => some ((m.layers.map (·.t)).getD b 0)) e k)

/-! ## Detection -/

/-- `np.cumsum` of the numbers of energies with a zero in front, in pairs, multilayer.py:1291-1293 -/
def offsets : Nat → List Nat → List (Nat × Nat)
  | _, [] => []
  | a, n :: ns => (a, a + n) :: offsets (a + n) ns

/-- The efficiencies of a line for the source lines, multilayer.py:1300-1304. -/
def pick (eff : List (List ℝ)) (ab : Nat × Nat) : List ℝ :=
  if ab.1 + 1 = ab.2 then eff.map fun row => row.getD ab.1 0
  else
    (List.range (min eff.length (ab.2 - ab.1))).map fun i => ((eff.getD i []).drop ab.1).getD i 0

/-- _attenuated_rates, multilayer.py:1277-1306; `eff` is `geometry.efficiency`. -/
noncomputable def attenuated (m : Sample) (en0 : List ℝ) (eff : List ℝ → List ℝ → List (List ℝ))
    (rs : List (Line × List (Option ℝ))) : Except Err (List (Line × List (Option ℝ))) :=
  let lines := rs.map Prod.fst
  if Line.rayleigh ∈ lines then
    let table := eff (energies m en0 .rayleigh) (lines.flatMap (energies m en0))
    let ind := offsets 0 (lines.map fun k => (energies m en0 k).length)
    .ok ((rs.zip ind).map fun p =>
      (p.1.1, List.zipWith (fun r x => r.map (· * x)) p.1.2 (pick table p.2)))
  else .error .valueError

/-- _rates_calc for one spectrum with the analytical method, multilayer.py:1238-1275. -/
noncomputable def ratesCalc (m : Sample) (en0 weights : List ℝ) (eff : List ℝ → List ℝ → List (List ℝ))
    (columns : List Line) : Except Err (List (Line × List (Option ℝ))) := do
  let rs ← rates m en0 columns
  let rs ← attenuated m en0 eff rs
  return rs.map fun p => (p.1, List.zipWith (fun r w => r.map (· * w)) p.2 weights)

end SC.Multilayer
