import Mathlib.LinearAlgebra.Matrix.NonsingularInverse
import Mathlib.LinearAlgebra.Matrix.Notation
/-! # Model of `align/transform.py` (LinearMapping)

Simplified: numbers are elements of a field; `dtype`, `cval` and interpolation arguments are not
modelled; a single point is transformed (`np.dot(C, xy)` acts on each column of an array of
points).  `np.linalg.inv` is the matrix inverse and raises exactly on singular matrices. -/
namespace SC.Transform

open Matrix

/-- 3x3 matrices. -/
abbrev M3 (K : Type) := Matrix (Fin 3) (Fin 3) K

/-- `transformationType`, align/types.py:6-8. -/
inductive TType where
  | translation | rigid | similarity | affine | projective
deriving DecidableEq, Repr

/-- The array `self.cof`: two numbers for a translation, a 3 x 3 matrix otherwise,
transform.py:288-292. -/
inductive Cof (K : Type) where
  | vec : K → K → Cof K
  | mat : M3 K → Cof K

/-- A `LinearMapping`, transform.py:38-50. -/
structure LMap (K : Type) where
  ttype : TType
  cof : Cof K

variable {K : Type} [Field K] [DecidableEq K]

/-- `[[1, 0, tx], [0, 1, ty], [0, 0, 1]]` -/
def transMat (tx ty : K) : M3 K := !![1, 0, tx; 0, 1, ty; 0, 0, 1]

/-- getidentity, transform.py:288-292. -/
def getidentity (t : TType) : Cof K := if t = .translation then .vec 0 0 else .mat 1

/-- The matrix of an array of coefficients. -/
def Cof.mat3 : Cof K → M3 K
  | .vec x y => transMat x y
  | .mat m => m

/-- getnumpyhomography, transform.py:108-114 (also getprojective, 266-280). -/
def hom (a : LMap K) : M3 K := a.cof.mat3

/-- The type of a combination, transform.py:340-357. -/
def combineType (a b : TType) : TType :=
  if a = .projective ∨ b = .projective then .projective
  else if a = .affine ∨ b = .affine then .affine
  else if a = .similarity ∨ b = .similarity then .similarity
  else .rigid

/-- `_combine`, transform.py:312-359.  The
code looks at the types, which agree with the form of the arrays (`WF` in Spec). -/
def combine (a c : LMap K) (right : Bool) : LMap K :=
  match a.cof, c.cof with
  | .vec x y, .vec x' y' => ⟨.translation, .vec (x + x') (y + y')⟩
  | ca, cc =>
    ⟨combineType a.ttype c.ttype,
     .mat (if right then ca.mat3 * cc.mat3 else cc.mat3 * ca.mat3)⟩

/-- after, transform.py:376-378 (`_dot`, 361-365). -/
def after (a c : LMap K) : LMap K := combine a c false
/-- before, transform.py:380-382. -/
def before (a c : LMap K) : LMap K := combine a c true

/-- `np.linalg.inv` (`none`: LinAlgError). -/
noncomputable def npInv (m : M3 K) : Option (M3 K) := if m.det = 0 then none else some m⁻¹

/-- inverse, transform.py:397-403. -/
noncomputable def inverse (a : LMap K) : Option (LMap K) :=
  match a.cof with
  | .vec x y => some ⟨a.ttype, .vec (-x) (-y)⟩
  | .mat m => (npInv m).map fun i => ⟨a.ttype, .mat i⟩

/-- new_frame, transform.py:390-391. -/
noncomputable def newFrame (a c : LMap K) : Option (LMap K) :=
  (inverse c).map fun ci => before (before ci a) c

/-- `_transformcoordinates` for a point of three coordinates, transform.py:423-441. -/
def applyCof (c : Cof K) (p : Fin 3 → K) : Fin 3 → K :=
  match c with
  | .vec x y => ![p 0 + x, p 1 + y, p 2]
  | .mat m => m.mulVec p

/-- `_transformcoordinates` for a point of two coordinates, transform.py:426-428
(`np.dot` of a 3 x 3 matrix with a vector of length 2 raises). -/
def applyCof2 (c : Cof K) (p : K × K) : Option (K × K) :=
  match c with
  | .vec x y => some (p.1 + x, p.2 + y)
  | .mat _ => none

/-- transformcoordinatesinverse, transform.py:419-421. -/
def transformcoordinatesinverse (a : LMap K) (p : Fin 3 → K) : Fin 3 → K := applyCof a.cof p

/-- transformcoordinates, transform.py:411-417. -/
noncomputable def transformcoordinates (a : LMap K) (p : Fin 3 → K) : Option (Fin 3 → K) :=
  match a.cof with
  | .vec x y => some (applyCof (.vec (-x) (-y)) p)
  | .mat m => (npInv m).map fun i => applyCof (.mat i) p

/-- transformimage, transform.py:62-88: the point `(y, x)` of the input image sampled for pixel
`(y, x)` of the output image (`none`: NotImplementedError).  `scipy.ndimage.shift(img, s)` samples at
`o - s`, `affine_transform(img, A, offset=t)` at `A o + t`. -/
def samplePoint (a : LMap K) (y x : K) : Option (K × K) :=
  match a.cof with
  | .vec tx ty => some (y - -ty, x - -tx)
  | .mat m =>
    if m = 1 then some (y, x)
    else if m 0 0 = 1 ∧ m 0 1 = 0 ∧ m 1 0 = 0 ∧ m 1 1 = 1 then some (y - -(m 1 2), x - -(m 0 2))
    else if m 2 0 = 0 ∧ m 2 1 = 0 then
      some (m 0 0 * y + m 1 0 * x + m 1 2, m 0 1 * y + m 1 1 * x + m 0 2)
    else none

/-! ## setters -/

/-- Replace the last column of the upper two rows. -/
def setCol (m : M3 K) (x y : K) : M3 K := !![m 0 0, m 0 1, x; m 1 0, m 1 1, y; m 2 0, m 2 1, m 2 2]
/-- Replace the upper left 2 x 2 block. -/
def setLin (m : M3 K) (a b c d : K) : M3 K := !![a, b, m 0 2; c, d, m 1 2; m 2 0, m 2 1, m 2 2]

/-- settranslation, transform.py:116-135. -/
def settranslation (s : LMap K) (x y : K) : LMap K :=
  match s.cof with
  | .vec _ _ => { s with cof := .vec x y }
  | .mat m => { s with cof := .mat (setCol m x y) }

/-- gettranslation, transform.py:137-149. -/
def gettranslation (s : LMap K) : K × K :=
  match s.cof with
  | .vec x y => (x, y)
  | .mat m => (m 0 2, m 1 2)

/-- setlinear, transform.py:182-198. -/
def setlinear (s : LMap K) (a b c d : K) : LMap K :=
  match s.cof with
  | .vec x y => ⟨.affine, .mat (setLin (setCol 1 x y) a b c d)⟩
  | .mat m => { s with cof := .mat (setLin m a b c d) }

/-- getlinear, transform.py:200-212. -/
def getlinear (s : LMap K) : K × K × K × K :=
  match s.cof with
  | .vec _ _ => (1, 0, 0, 1)
  | .mat m => (m 0 0, m 0 1, m 1 0, m 1 1)

/-- setaffine, transform.py:214-230: the upper two rows. -/
def setaffine (s : LMap K) (a : Matrix (Fin 2) (Fin 3) K) : LMap K :=
  match s.cof with
  | .vec x y =>
    let m : M3 K := setCol 1 x y
    ⟨.affine, .mat !![a 0 0, a 0 1, a 0 2; a 1 0, a 1 1, a 1 2; m 2 0, m 2 1, m 2 2]⟩
  | .mat m => { s with cof := .mat !![a 0 0, a 0 1, a 0 2; a 1 0, a 1 1, a 1 2; m 2 0, m 2 1, m 2 2] }

/-- getaffine, transform.py:232-246: a list of rows; for a matrix it is `cof[:, 0:2]`. -/
def getaffine (s : LMap K) : List (List K) :=
  match s.cof with
  | .vec x y => [[1, 0, x], [0, 1, y]]
  | .mat m => [[m 0 0, m 0 1], [m 1 0, m 1 1], [m 2 0, m 2 1]]

/-- setprojective, transform.py:248-264: `==` instead of `=` keeps the type of rigid, similarity
and affine transformations. -/
def setprojective (s : LMap K) (m : M3 K) : LMap K :=
  match s.cof with
  | .vec _ _ => ⟨.projective, .mat m⟩
  | .mat _ => { s with cof := .mat m }

/-- setrigid, transform.py:151-170 with `c`, `t` the cosine and sine.  For a translation the type
is compared instead of assigned, `cof` becomes zero and the assignment to `cof[0:2, :]` raises
(IndexError): the state at that point is returned. -/
def setrigid (s : LMap K) (c t x y : K) : LMap K × Bool :=
  match s.cof with
  | .vec _ _ => ({ s with cof := .vec 0 0 }, false)
  | .mat m =>
    (⟨if s.ttype = .similarity ∨ s.ttype = .affine then .rigid else s.ttype,
      .mat !![c, -t, x; t, c, y; m 2 0, m 2 1, m 2 2]⟩, true)

/-- fromtransform, transform.py:443-447: assigning `cof[:]` raises when the shapes differ, after
the type has been changed. -/
def fromtransform (s t : LMap K) : LMap K × Bool :=
  match s.cof, t.cof with
  | .vec _ _, .vec x y => (⟨t.ttype, .vec x y⟩, true)
  | .mat _, .mat m => (⟨t.ttype, .mat m⟩, true)
  | _, _ => (⟨t.ttype, s.cof⟩, false)

/-! ## objects sharing their array -/

/-- `self.cof` is a reference to an array. -/
structure Obj where
  ttype : TType
  ref : Nat
deriving DecidableEq

/-- The arrays. -/
abbrev Heap (K : Type) := Nat → Cof K

/-- Write an array. -/
def Heap.set (h : Heap K) (r : Nat) (c : Cof K) : Heap K := fun k => if k = r then c else h k

/-- The value of an object. -/
def Obj.val (h : Heap K) (o : Obj) : LMap K := ⟨o.ttype, h o.ref⟩

/-- `__copy__`, transform.py:52-57: the copy refers to the same array. -/
def Obj.copy (o : Obj) : Obj := o

/-- `_dotinplace`, transform.py:367-374.  An array of the same length is overwritten, otherwise the
object gets a new array (`fresh`). -/
def dotinplace (h : Heap K) (fresh : Nat) (a c : Obj) (right : Bool) : Heap K × Obj :=
  let r := combine (a.val h) (c.val h) right
  match h a.ref, r.cof with
  | .vec _ _, .vec _ _ => (h.set a.ref r.cof, ⟨r.ttype, a.ref⟩)
  | .mat _, .mat _ => (h.set a.ref r.cof, ⟨r.ttype, a.ref⟩)
  | _, _ => (h.set fresh r.cof, ⟨r.ttype, fresh⟩)

/-- new_frame_inplace, transform.py:393-395.  `i` is the array of the inverse, `fresh` of the
first result. -/
noncomputable def newFrameInplace (h : Heap K) (i fresh fresh' : Nat) (a c : Obj) : Option (Heap K × Obj) :=
  (inverse (c.val h)).map fun ci =>
    let h1 := h.set i ci.cof
    let r1 := dotinplace h1 fresh a ⟨ci.ttype, i⟩ false
    dotinplace r1.1 fresh' r1.2 (if c = a then r1.2 else c) true

/-- settranslation on an object: always in place. -/
def settranslationObj (h : Heap K) (o : Obj) (x y : K) : Heap K :=
  h.set o.ref (settranslation (o.val h) x y).cof

end SC.Transform
