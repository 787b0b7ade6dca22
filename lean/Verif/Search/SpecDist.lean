/-
Specification for the search distributions (C58), the log-likelihood gradients (C95) and the constrained update (C96).
-/
import Verif.Search.ModelDist
import Mathlib.Analysis.Calculus.Deriv.Basic
import Mathlib.LinearAlgebra.Matrix.PosDef

namespace Verif.Search

open Matrix

variable {n : ℕ}

/-- `m` is the mean of the samples with these weights. -/
def IsWeightedMean (l : List (ℝ × Vec n)) (m : Vec n) : Prop :=
  ∀ j, (l.map (fun p => p.1)).sum * m j = (l.map (fun p => p.1 * p.2 j)).sum

/-- The expectation over a finite probability space. -/
def ev {Ω : Type} [Fintype Ω] (prob : Ω → ℝ) (f : Ω → ℝ) : ℝ := ∑ ω, prob ω * f ω

/-- Samples with the same mean and the same covariance, two different ones being uncorrelated. -/
def Sampled {Ω ι : Type} [Fintype Ω] [DecidableEq ι] (prob : Ω → ℝ) (X : ι → Ω → Vec n) (m : Vec n)
    (C : Matrix (Fin n) (Fin n) ℝ) : Prop :=
  ∑ ω, prob ω = 1 ∧ ∀ i j a b, ev prob (fun ω => (X i ω a - m a) * (X j ω b - m b)) = if i = j then C a b else 0

/-- What `np.linalg.cholesky` is for: it returns the lower triangular factor with a positive diagonal, if there is one. -/
def IsCholesky (cholesky : Matrix (Fin n) (Fin n) ℝ → Option (Matrix (Fin n) (Fin n) ℝ)) : Prop :=
  ∀ m c, cholesky m = some c → (∀ i j, i < j → c i j = 0) ∧ (∀ i, 0 < c i i) ∧ c * cᵀ = m

/-- `g` is the gradient at `x`: in each coordinate the derivative of `f` when only this coordinate changes. -/
def IsGradient {ι : Type} [DecidableEq ι] (f : (ι → ℝ) → ℝ) (x g : ι → ℝ) : Prop :=
  ∀ i, HasDerivAt (fun y => f (Function.update x i y)) (g i) (x i)

/-- `j` is the Jacobian of a vector-valued function at `x`, with one row for each coordinate of `x`. -/
def IsJacobian {ι : Type} [DecidableEq ι] (f : (ι → ℝ) → Vec n) (x : ι → ℝ) (j : Matrix ι (Fin n) ℝ) : Prop :=
  ∀ i k, HasDerivAt (fun y => f (Function.update x i y) k) (j i k) (x i)

/-- The same for functions of lists: `g` has an entry for each entry of `x`, and the entry at `k` is the derivative when only the
entry of `x` at `k` changes. -/
def IsGradientList (f : List ℝ → ℝ) (x g : List ℝ) : Prop :=
  g.length = x.length ∧ ∀ k, k < x.length → HasDerivAt (fun y => f (x.set k y)) (g.getD k 0) (x.getD k 0)

/-- A random vector with this mean and this covariance. -/
def HasMoments {Ω : Type} [Fintype Ω] (prob : Ω → ℝ) (X : Ω → Vec n) (m : Vec n) (C : Matrix (Fin n) (Fin n) ℝ) : Prop :=
  ∑ ω, prob ω = 1 ∧ (∀ a, ev prob (fun ω => X ω a - m a) = 0) ∧
    ∀ a b, ev prob (fun ω => (X ω a - m a) * (X ω b - m b)) = C a b

/-- The divergence of the Gaussian with mean `mu` and covariance `sigma` from the one with mean `m` and covariance `s`. -/
noncomputable def gaussKL (mu : Vec n) (sigma : Matrix (Fin n) (Fin n) ℝ) (m : Vec n) (s : Matrix (Fin n) (Fin n) ℝ) : ℝ :=
  (1 / 2) * ((s⁻¹ * sigma).trace - n + Real.log s.det - Real.log sigma.det + (m - mu) ⬝ᵥ (s⁻¹ *ᵥ (m - mu)))

/-- The entropy of a Gaussian with covariance `s`. -/
noncomputable def gaussEntropy (s : Matrix (Fin n) (Fin n) ℝ) : ℝ := (1 / 2) * (Real.log s.det + n * Real.log (2 * Real.pi) + n)

/-- The weighted log-likelihood. -/
noncomputable def logLik (l : List (ℝ × Vec n)) (m : Vec n) (s : Matrix (Fin n) (Fin n) ℝ) : ℝ :=
  (l.map (fun p => p.1 * logPdf p.2 m s)).sum

/-- What the constrained update asks of the new distribution: the divergence of the old one from it is at most `eps`, and its
entropy is smaller than that of the old one by at most `kappa`. -/
def Feasible (mu : Vec n) (sigma : Matrix (Fin n) (Fin n) ℝ) (eps kappa : ℝ) (m : Vec n) (s : Matrix (Fin n) (Fin n) ℝ) : Prop :=
  gaussKL mu sigma m s ≤ eps ∧ gaussEntropy sigma - kappa ≤ gaussEntropy s

end Verif.Search
