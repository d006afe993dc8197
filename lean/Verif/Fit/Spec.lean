import Verif.Fit.Model
/-! # What a least-squares fit is -/
namespace SC.Fit

section fit
variable {K : Type} [Field K] [LinearOrder K] [IsStrictOrderedRing K]

/-- Sum of the squared distances between the ordinates and the line of slope `m` and intercept `b`. -/
def misfit (m b : K) (pts : List (K × K)) : K := (pts.map fun p => (p.2 - (m * p.1 + b)) ^ 2).sum

/-- `(m, b)` is the one line with the least misfit. -/
def BestLine (pts : List (K × K)) (m b : K) : Prop :=
  ∀ m' b', misfit m b pts ≤ misfit m' b' pts ∧ (misfit m' b' pts = misfit m b pts → m' = m ∧ b' = b)

/-- `m` is the slope of the one line through the origin with the least misfit. -/
def BestSlope (pts : List (K × K)) (m : K) : Prop :=
  ∀ m', misfit m 0 pts ≤ misfit m' 0 pts ∧ (misfit m' 0 pts = misfit m 0 pts → m' = m)

/-- Two different abscissae. -/
def Spread (x : List K) : Prop := ∃ a ∈ x, ∃ b ∈ x, a ≠ b

/-- The points of which both coordinates are numbers. -/
def points : List (Option K) → List (Option K) → List (K × K)
  | some a :: x, some b :: y => (a, b) :: points x y
  | _ :: x, _ :: y => points x y
  | _, _ => []

end fit

section matrices
variable {K : Type} [Field K] [LinearOrder K] [IsStrictOrderedRing K]

/-- Sum of the squared residuals of a linear system. -/
def residual {m n : Nat} (A : Matrix (Fin m) (Fin n) K) (b : Fin m → K) (x : Fin n → K) : K :=
  ∑ i, ((∑ j, A i j * x j) - b i) ^ 2

/-- `x` is the one least-squares solution of `A x = b`. -/
def LeastSquares {m n : Nat} (A : Matrix (Fin m) (Fin n) K) (b : Fin m → K) (x : Fin n → K) : Prop :=
  ∀ z, residual A b x ≤ residual A b z ∧ (residual A b z = residual A b x → z = x)

/-- Mean of a quantity over finitely many outcomes with probabilities `p`. -/
def mean {S : Type} [Fintype S] (p : S → K) (f : S → K) : K := ∑ s, p s * f s

/-- Covariance of two quantities. -/
def covar {S : Type} [Fintype S] (p : S → K) (f g : S → K) : K :=
  mean p fun s => (f s - mean p f) * (g s - mean p g)

end matrices

end SC.Fit
