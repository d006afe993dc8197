import Verif.Naming.Model
import Mathlib.Algebra.Group.Basic
/-! # Model of the loops of `simulation/xrmc.py`

A move (`Rotate`, `Translate`, ...) is an element of a type `C`; what it does is given by the theorems.
Devices are numbers. -/
namespace SC.Xrmc

abbrev Str := List Char

/-- Transform, xrmc.py:858-889: the moves of one device, executed every time the file is loaded. The file
itself (its name and its text) is not modelled. -/
structure Transform (C : Type) where
  device : Nat
  cmds : List C
deriving DecidableEq

/-- Transform.retour, xrmc.py:898-914: every move is replaced by its retour, in the same order. -/
def Transform.retour {C : Type} (back : Nat → C → C) (n : Nat) (t : Transform C) : Transform C :=
  { device := t.device, cmds := t.cmds.map (back n) }

/-- LoopAxis, xrmc.py:279-300. -/
structure Axis (C : Type) where
  transforms : List (Transform C)
  rtransforms : List (Transform C)
  nsteps : Nat

/-- LoopAxis.__init__, xrmc.py:280-300. A negative number of steps and `steps=None` (which fails) are not
modelled. -/
def mkAxis {C : Type} (back : Nat → C → C) (devices : List Nat) (steps : List (List C)) (n : Nat) : Axis C :=
  let ts := List.zipWith (fun d s => { device := d, cmds := s : Transform C }) devices steps
  { transforms := ts, rtransforms := ts.map (Transform.retour back n), nsteps := n }

/-- itertools.product of `range(n+1)`, xrmc.py:489-491: the last index runs fastest. -/
def product : List Nat → List (List Nat)
  | [] => [[]]
  | n :: ns => (List.range (n + 1)).flatMap fun i => (product ns).map (i :: ·)

/-- The steps from one index to the next, xrmc.py:492-497 (before reversal). -/
def stepsOf {C : Type} : List (Axis C) → List Int → List Int → List (List (Transform C))
  | ax :: axs, a :: as, b :: bs =>
    if a < b then ax.transforms :: stepsOf axs as bs
    else if b < a then ax.rtransforms :: stepsOf axs as bs
    else stepsOf axs as bs
  | _, _, _ => []

/-- The generator of loop_steps, xrmc.py:491-499. -/
def loopStepsFrom {C : Type} (axs : List (Axis C)) : List Int → List (List Nat) → List (List Nat × List (List (Transform C)))
  | _, [] => []
  | prev, idx :: rest =>
    (idx, (stepsOf axs prev (idx.map Int.ofNat)).reverse) :: loopStepsFrom axs (idx.map Int.ofNat) rest

/-- loop_steps, xrmc.py:487-499. -/
def loopSteps {C : Type} (axs : List (Axis C)) : List (List Nat × List (List (Transform C))) :=
  loopStepsFrom axs (List.replicate axs.length (-1)) (product (axs.map (·.nsteps)))

/-- loop_suffix_format and its use, xrmc.py:480-485 and 361. -/
def suffix : List Nat → List Nat → Str
  | n :: ns, i :: is => '_' :: (Naming.pad (max (Nat.toDigits 10 n).length 1) i ++ suffix ns is)
  | _, _ => []

/-- The lines of the main file that matter here. -/
inductive Line (C : Type) where
  | load (t : Transform C)
  | run (detector : Nat) (suffix : Str)

/-- The lines of the simulations after the first one, xrmc.py:352-364. -/
def bodyRest {C : Type} (ns : List Nat) (dets : List Nat) (l : List (List Nat × List (List (Transform C)))) : List (Line C) :=
  l.flatMap fun p => p.2.flatten.map Line.load ++ dets.map (fun k => Line.run k (suffix ns p.1))

/-- XrmcMain.body, xrmc.py:343-368, without the device files: the steps of the first index are not loaded.
Without loops every detector runs once without suffix. -/
def body {C : Type} (axs : List (Axis C)) (dets : List Nat) : List (Line C) :=
  match dets with
  | [] => []
  | _ =>
    match axs with
    | [] => dets.map (fun k => Line.run k [])
    | _ =>
      match loopSteps axs with
      | [] => []
      | p :: rest => dets.map (fun k => Line.run k (suffix (axs.map (·.nsteps)) p.1)) ++
          bodyRest (axs.map (·.nsteps)) dets rest

/-- output_suffixes, xrmc.py:370-375. -/
def outputSuffixes {C : Type} (axs : List (Axis C)) : List Str :=
  match axs with
  | [] => [[]]
  | _ => (loopSteps axs).map fun p => suffix (axs.map (·.nsteps)) p.1

/-- What xrmc does with the moves of a file: each one is applied after the previous ones. xrmc itself is
not part of the repository; this is what the headers of the files say (xrmc.py:880-885). -/
def moved {C G : Type} [Monoid G] (act : C → G) (cmds : List C) (g : G) : G :=
  cmds.foldl (fun g c => act c * g) g

/-- The main file executed line by line: the positions of the devices, and for every run its detector, its
suffix and the positions at that moment. -/
def exec {C G : Type} [Monoid G] (act : C → G) : List (Line C) → (Nat → G) → List (Nat × Str × (Nat → G))
  | [], _ => []
  | Line.load t :: ls, s => exec act ls (fun d => if d = t.device then moved act t.cmds (s d) else s d)
  | Line.run k x :: ls, s => (k, x, s) :: exec act ls s

end SC.Xrmc
