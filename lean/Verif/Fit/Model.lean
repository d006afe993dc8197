import Mathlib.Algebra.Order.Field.Basic
import Mathlib.Algebra.BigOperators.Group.List.Basic
import Mathlib.LinearAlgebra.Matrix.NonsingularInverse
import Mathlib.Analysis.Real.Sqrt
/-! # Model of the closed-form linear fits and of the covariance of a linear fit

`math/fit1d.py:36-144, 228-323` and `math/linalg.py`.

Numbers are elements of an ordered field (the reals where a root is taken), without rounding.
An array of abscissae or ordinates is a list.  `np.linalg.inv` and `np.linalg.det` are the inverse
and the determinant; `np.linalg.inv` of a singular matrix raises LinAlgError.  A quotient by zero
(numpy: `nan` or `inf` with a warning) is `none`. -/
namespace SC.Fit

/-- What a call gives. -/
inductive Res (α : Type) where
  | ok (a : α)
  /-- `nan` or `inf`: a division by zero -/
  | notfinite
  | valueError
  | notImplemented
  | linAlgError
  | runtimeError
  | typeError
deriving DecidableEq, Repr

section fit
variable {K : Type} [Field K] [LinearOrder K] [IsStrictOrderedRing K]

/-- `x * y` of two one-dimensional arrays: equal lengths, or one of them has a single element. -/
def mulArrays (x y : List K) : Option (List K) :=
  if x.length = y.length then some (List.zipWith (· * ·) x y)
  else if x.length = 1 then some (y.map fun b => x.headD 0 * b)
  else if y.length = 1 then some (x.map fun a => a * y.headD 0)
  else none

/-- `num / denom`. -/
def quotient (num denom : K) : Option K := if denom = 0 then none else some (num / denom)

/-- The sums of linfit2, fit1d.py:254-261: `denom`, `mnum`, `bnum`. -/
def linfit2Sums (x y xy : List K) : K × K × K :=
  let n : K := x.length
  let Sxy := xy.sum
  let Sxx := (x.map fun a => a * a).sum
  let Sx := x.sum
  let Sy := y.sum
  (n * Sxx - Sx * Sx, n * Sxy - Sx * Sy, Sxx * Sy - Sx * Sxy)

/-- linfit2 without errors, fit1d.py:251-263, 272. -/
def linfit2 (x y : List K) : Res (K × K) :=
  match mulArrays x y with
  | none => .valueError
  | some xy =>
      match quotient (linfit2Sums x y xy).2.1 (linfit2Sums x y xy).1,
            quotient (linfit2Sums x y xy).2.2 (linfit2Sums x y xy).1 with
      | some m, some b => .ok (m, b)
      | _, _ => .notfinite

/-- The arguments of the two roots in linfit2 with `errors=True`, fit1d.py:265-269. -/
def linfit2Var (x y : List K) : Res (K × K) :=
  match mulArrays x y with
  | none => .valueError
  | some xy =>
      match quotient (linfit2Sums x y xy).2.1 (linfit2Sums x y xy).1 with
      | none => .notfinite
      | some m =>
          let n : K := x.length
          let Sxx := (x.map fun a => a * a).sum
          let Sy := y.sum
          let Syy := (y.map fun a => a * a).sum
          let num := n * Syy - Sy * Sy - m * (linfit2Sums x y xy).2.1
          match quotient num ((n - 2) * (linfit2Sums x y xy).1),
                quotient (num * Sxx) (n * (n - 2) * (linfit2Sums x y xy).1) with
          | some vm, some vb => .ok (vm, vb)
          | _, _ => .notfinite

/-- linfit_zerointercept2 without errors, fit1d.py:312-315, 323. -/
def linfitZero2 (x y : List K) : Res K :=
  match mulArrays x y with
  | none => .valueError
  | some xy =>
      match quotient xy.sum (x.map fun a => a * a).sum with
      | some m => .ok m
      | none => .notfinite

/-- The argument of the root in linfit_zerointercept2 with `errors=True`, fit1d.py:316-321. -/
def linfitZero2Var (x y : List K) : Res K :=
  match mulArrays x y with
  | none => .valueError
  | some xy =>
      match quotient xy.sum (x.map fun a => a * a).sum with
      | none => .notfinite
      | some m =>
          let n : K := x.length
          let Sxx := (x.map fun a => a * a).sum
          let Syy := (y.map fun a => a * a).sum
          match quotient (Syy + m * m * Sxx - 2 * m * xy.sum) ((n - 1) * Sxx) with
          | some v => .ok v
          | none => .notfinite

/-- xyremovenan, fit1d.py:36-38.  `none` is NaN; arrays of different lengths make `logical_and`
raise ValueError (arrays with one element, which would be broadcast, are left out). -/
def xyremovenan (x y : List (Option K)) : Res (List K × List K) :=
  if x.length ≠ y.length then .valueError
  else
    let l := (x.zip y).filterMap fun p => p.1.bind fun a => p.2.map fun b => (a, b)
    .ok (l.map Prod.fst, l.map Prod.snd)

/-- nanlinfit2 without errors, fit1d.py:280-282. -/
def nanlinfit2 (x y : List (Option K)) : Res (K × K) :=
  match xyremovenan x y with
  | .ok r => linfit2 r.1 r.2
  | .notfinite => .notfinite
  | .valueError => .valueError
  | .notImplemented => .notImplemented
  | .linAlgError => .linAlgError
  | .runtimeError => .runtimeError
  | .typeError => .typeError

end fit

section roots

/-- linfit2 with its arguments `errors` and `vare`, fit1d.py:251-272. -/
noncomputable def linfit2Errors (x y : List ℝ) (vare : Option (List ℝ)) : Res ((ℝ × ℝ) × (ℝ × ℝ)) :=
  match vare with
  | some _ => .notImplemented
  | none =>
      match linfit2 x y, linfit2Var x y with
      | .ok p, .ok v => .ok (p, (Real.sqrt v.1, Real.sqrt v.2))
      | .valueError, _ => .valueError
      | _, _ => .notfinite

/-- linfit_zerointercept2 with `errors=True`, fit1d.py:312-322. -/
noncomputable def linfitZero2Errors (x y : List ℝ) : Res (ℝ × ℝ) :=
  match linfitZero2 x y, linfitZero2Var x y with
  | .ok m, .ok v => .ok (m, Real.sqrt v)
  | .valueError, _ => .valueError
  | _, _ => .notfinite

end roots

section matrices
variable {K : Type} [Field K] [DecidableEq K]

/-- np.linalg.inv (LinAlgError when singular). -/
noncomputable def inv {n : Nat} (A : Matrix (Fin n) (Fin n) K) : Res (Matrix (Fin n) (Fin n) K) :=
  if A.det = 0 then .linAlgError else .ok A⁻¹

/-- The second part of lstsq_cov, fit1d.py:85-89. -/
noncomputable def covGeneral {m n : Nat} (A : Matrix (Fin m) (Fin n) K)
    (e : (Fin m → K) ⊕ Matrix (Fin m) (Fin m) K) : Res (Matrix (Fin n) (Fin n) K) :=
  match inv (A.transpose * A) with
  | .ok I =>
      let M := I * A.transpose
      match e with
      | .inl vare => .ok ((Matrix.of fun i j => M i j * vare j) * M.transpose)
      | .inr cove => .ok (M * cove * M.transpose)
  | r => r

/-- The part of lstsq_cov for a square matrix, fit1d.py:74-81.  A variance of zero makes
`A / vare` infinite or NaN, and then numpy's inverse is not finite either. -/
noncomputable def covSquare {n : Nat} (A : Matrix (Fin n) (Fin n) K)
    (e : (Fin n → K) ⊕ Matrix (Fin n) (Fin n) K) : Res (Matrix (Fin n) (Fin n) K) :=
  match e with
  | .inl vare =>
      if ∃ i, vare i = 0 then .notfinite
      else inv (A.transpose * Matrix.of fun i j => A i j / vare i)
  | .inr cove =>
      match inv A with
      | .ok iA => .ok (iA * (cove * iA.transpose))
      | r => r

/-- lstsq_cov, fit1d.py:46-89.  LinAlgError is caught in the first part only. -/
noncomputable def lstsqCov {m n : Nat} (A : Matrix (Fin m) (Fin n) K)
    (e : (Fin m → K) ⊕ Matrix (Fin m) (Fin m) K) : Res (Matrix (Fin n) (Fin n) K) :=
  if h : m = n then
    match covSquare (h ▸ A) (h ▸ e) with
    | .linAlgError => covGeneral A e
    | r => r
  else covGeneral A e

/-- np.var of a vector with `ddof`: the mean is subtracted first. -/
def variance {m : Nat} (r : Fin m → K) (ddof : Nat) : Option K :=
  let mean := (∑ i, r i) / m
  if (m : K) - ddof = 0 then none else some ((∑ i, (r i - mean) ^ 2) / ((m : K) - ddof))

/-- The diagonal of the covariance in lstsq_std when neither the variance nor the covariance of the
errors is given, fit1d.py:111-114 (the argument of the root). -/
noncomputable def lstsqVar {m n : Nat} (A : Matrix (Fin m) (Fin n) K) (b : Fin m → K) (x : Fin n → K) :
    Res (Fin n → K) :=
  match variance (A.mulVec x - b) n with
  | none => .notfinite
  | some v =>
      match lstsqCov A (.inl fun _ => v) with
      | .ok c => .ok fun i => c i i
      | .linAlgError => .linAlgError
      | _ => .notfinite

/-- The matrix of linfit, fit1d.py:247. -/
def linfitMatrix (x : List K) : Matrix (Fin x.length) (Fin 2) K :=
  Matrix.of fun i j => if j = 0 then x.get i else 1

/-- The matrix of linfit_zerointercept, fit1d.py:304. -/
def zeroMatrix (x : List K) : Matrix (Fin x.length) (Fin 1) K := Matrix.of fun i _ => x.get i

/-- cor_from_cov, fit1d.py:41-43. -/
noncomputable def corFromCov {n : Nat} (cov : Matrix (Fin n) (Fin n) ℝ) : Matrix (Fin n) (Fin n) ℝ :=
  let D := Matrix.diagonal fun i => 1 / Real.sqrt (cov i i)
  D * (cov * D)

/-- Ai = numpy.array(A, copy=True); Ai[:, i] = b: an array of integers truncates the values assigned
to it (`cast`), linalg.py:13-14. -/
def setColumn {n : Nat} (cast : K → K) (A : Matrix (Fin n) (Fin n) K) (i : Fin n) (b : Fin n → K) :
    Matrix (Fin n) (Fin n) K :=
  Matrix.of fun r c => if c = i then cast (b r) else A r c

/-- cramer, linalg.py:4-17.  `cast` is the conversion to the type of the elements of `A`: the
identity for floating-point numbers.  The determinant of a matrix that is not square raises
LinAlgError. -/
def cramer {m n : Nat} (cast : K → K) (A : Matrix (Fin m) (Fin n) K) (b : Fin m → K) :
    Res (Fin n → K) :=
  if h : m = n then
    let A' : Matrix (Fin n) (Fin n) K := h ▸ A
    if A'.det = 0 then .runtimeError
    else .ok fun i => (setColumn cast A' i (h ▸ b)).det / A'.det
  else .linAlgError

end matrices

end SC.Fit
