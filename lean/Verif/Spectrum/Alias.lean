import Verif.Spectrum.Model
/-! # Model of the addition of spectra with arrays as objects

`Val.iadd` and `iaddLines` in `Model.lean` say what the sum is.  Here arrays are objects: `+=` changes an array in
place and an assignment of an array does not copy it. -/
namespace SC.Spectrum
open SC.Py

/-- A number, or a numpy array object by its address. -/
inductive Ref
  | num (q : ℚ)
  | obj (a : Nat)
  deriving DecidableEq

/-- The arrays by address. -/
abbrev Heap := List (List ℚ)

/-- The lines by their text; the line objects do not matter here. -/
abbrev RLines := Dict Str Ref

/-- What a reference stands for. -/
def deref (h : Heap) : Ref → Option Val
  | .num q => some (.num q)
  | .obj a => (h[a]?).map Val.arr

/-- `x += v`, xrayspectrum.py:808: the new arrays and the object that x is after it. -/
def Ref.iadd (h : Heap) (x v : Ref) : Except Err (Heap × Ref) :=
  match deref h x, deref h v with
  | some a, some b =>
    match x, a.iadd b with
    | .num _, .ok (.num q) => .ok (h, .num q)
    | .num _, .ok (.arr l) => .ok (h ++ [l], .obj h.length)
    | .obj i, .ok (.arr l) => .ok (h.set i l, .obj i)
    | .obj i, .ok (.num _) => .ok (h, .obj i)
    | _, .error e => .error e
  | _, _ => .error .indexError

/-- The loop of __iadd__, xrayspectrum.py:806-810. -/
def iaddRefs (h : Heap) (d : RLines) : RLines → Except Err (Heap × RLines)
  | [] => .ok (h, d)
  | (n, v) :: r =>
    match Dict.get? d n with
    | some x => match x.iadd h v with
      | .ok (h', y) => iaddRefs h' (Dict.set d n y) r
      | .error e => .error e
    | Option.none => iaddRefs h (Dict.set d n v) r

end SC.Spectrum
