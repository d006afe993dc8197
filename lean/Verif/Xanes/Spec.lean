import Verif.Xanes.Model
/-! # What the grouping of XANES scans should give -/
namespace SC.Xanes

/-- The repeats of a place. -/
def reps (d : List Item) (i : Nat) : Nat := (d[i]?.map Item.repeats).getD 0

/-- Places of sums: more than one repeat. -/
def IsSum (d : List Item) (i : Nat) : Prop := 1 < reps d i

instance (d : List Item) (i : Nat) : Decidable (IsSum d i) := by unfold IsSum; infer_instance

/-- `k` is one of the (at most as many as it has repeats) single scans just before the sum `i`. -/
def Member (d : List Item) (i k : Nat) : Prop :=
  k < i ∧ i ≤ k + reps d i ∧ ∀ j < i, k ≤ j → reps d j = 1

instance (d : List Item) (i k : Nat) : Decidable (Member d i k) := by unfold Member; infer_instance

/-- The single scans of a sum. -/
def members (d : List Item) (i : Nat) : List Nat := (List.range i).filter fun k => Member d i k

/-- The group of a sum. -/
def sumGroup (f : Flags) (d : List Item) (i : Nat) : List Nat :=
  numbers d (members d i ++ if f.keepsum ∧ f.sumingroups then [i] else [])

/-- Whether the scan has a group of its own. -/
def Alone (f : Flags) (d : List Item) (i : Nat) : Prop :=
  if IsSum d i then f.keepsum = true ∧ (f.sumingroups = true → f.keepindividual = true)
  else (∃ j < d.length, IsSum d j ∧ Member d j i) → f.keepindividual = true

instance (f : Flags) (d : List Item) (i : Nat) : Decidable (Alone f d i) := by unfold Alone; infer_instance

/-- All groups: those of the sums which are not empty, then the scans alone. -/
def allGroups (f : Flags) (d : List Item) : List (List Nat) :=
  (((List.range d.length).filter fun i => IsSum d i).map (sumGroup f d)).filter (fun g => !g.isEmpty) ++
  ((List.range d.length).filter fun i => Alone f d i).map fun i => numbers d [i]

/-- Kinds of scans. -/
inductive Kind where
  | single | sum | sum2
deriving DecidableEq

/-- The kind of a scan which is looked at. -/
def kind (k : Key) : Option Kind :=
  if k.lines = 0 then none
  else if tLine <+: k.command then some .single
  else if tSum <+: k.command then some .sum
  else if tSum2 <+: k.command then some .sum2
  else none

/-- Whether the number is to be looked at. -/
def Wanted (skip : List Nat) (nrmin nrmax : Option Nat) (k : Key) : Prop :=
  (∀ a, nrmin = some a → a ≤ k.number) ∧ (∀ b, nrmax = some b → k.number ≤ b) ∧ k.number ∉ skip

/-- The repeats of a scan of given kind. -/
def Repeats (k : Key) (n : Nat) : Prop :=
  (kind k = some .single ∧ n = 1) ∨ ((kind k = some .sum ∨ kind k = some .sum2) ∧ repeatsOf k.command = .ok n)

/-- The scans not replaced by the one after. -/
def unreplaced : List Key → List Key
  | [] => []
  | [k] => [k]
  | k :: k' :: r => if kind k' = some .sum2 then unreplaced (k' :: r) else k :: unreplaced (k' :: r)

end SC.Xanes
