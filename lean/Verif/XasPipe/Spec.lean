import Verif.XasPipe.Model
import Mathlib.Algebra.BigOperators.Group.List.Basic
/-! # What is expected from the XAS pipelines, without the functions of the model -/
namespace SC.XasPipe
open SC.Py

/-- I0 of a scan with exposure times `t`: counts in that time without the background (counts per second). -/
def I0 (p : Params) (s : Scan) (t : Rat) (e : Nat) : Rat := (s.iodet e / s.realtime - p.bkgflux) * t

/-- Counts of a scan in a channel, zero without files. -/
def chan (s : Scan) (e c : Nat) : Rat := (s.xrf.map fun d => d.counts e c).getD 0

/-- The scan has detector files and statistics, with `m` channels. -/
def HasFiles (m : Nat) (s : Scan) : Prop := s.stat = true ∧ ∃ d, s.xrf = some d ∧ d.nchan = m

/-- Energies at most 1e-6 apart. -/
def InSync (a b : Scan) : Prop := b.n = a.n ∧ ∀ e < a.n, |a.energy e - b.energy e| ≤ 1 / 1000000

/-- The mean over the repeats of the spectra divided by I0. -/
def mean (p : Params) (ss : List Scan) (e c : Nat) : Rat := (ss.map fun s => chan s e c / I0 p s (s.mtime e) e).sum / ss.length

/-- The sum over the channels `a ≤ c < b` that exist. -/
def over (m a b : Nat) (f : Nat → Rat) : Rat := (((List.range m).filter fun c => decide (a ≤ c ∧ c < b)).map f).sum

/-- A label which is not overwritten by something else in the result. -/
def Free (p : Params) (k : Str) : Prop := k ≠ kEnergy ∧ k ≠ kNorm ∧ ∀ c ∈ p.counters, c.out ≠ k

/-- No background is subtracted from I0 and from the counters. -/
def NoBackground (p : Params) : Prop := p.bkgflux = 0 ∧ ∀ c ∈ p.counters, c.bkg = 0

end SC.XasPipe
