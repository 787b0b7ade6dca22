/-
Model of `mle` and `con_wmle` of /repo/mushroom_rl/distributions/gaussian.py for a full covariance, as changes of the object, also when
they raise.
-/
import Verif.Search.ModelRwr

namespace Verif.Search

variable {n : ℕ}

/-- `np.linalg.LinAlgError`, raised by `np.linalg.cholesky` if the matrix is not positive definite or not finite. -/
inductive FitErr where
  | linAlg

/-- `mle` with weights: what is raised, and the object afterwards. The mean is written before the factor of the covariance is computed. The sum
of the weights is not zero. gaussian.py L338-348. -/
noncomputable def Chol.fit (cholesky : Matrix (Fin n) (Fin n) ℝ → Option (Matrix (Fin n) (Fin n) ℝ)) (g : Chol n)
    (l : List (ℝ × Vec n)) : Except FitErr Unit × Chol n :=
  let g := { g with mu := wmean l }
  open Classical in
  match if zOf l = 0 then none else cholesky (wcov l) with
  | none => (.error .linAlg, g)
  | some c => (.ok (), { g with chol := c })

/-- `con_wmle`, for the multipliers found by the minimiser: both values are computed before one of them is written.
gaussian.py L350-365, L411-417. -/
noncomputable def Chol.conFit (cholesky : Matrix (Fin n) (Fin n) ℝ → Option (Matrix (Fin n) (Fin n) ℝ)) (g : Chol n)
    (l : List (ℝ × Vec n)) (eta omg : ℝ) : Except FitErr Unit × Chol n :=
  let muNew := conMean l g.mu eta
  let sigmaNew := conCov l g.mu g.sigma eta omg
  match cholesky sigmaNew with
  | none => (.error .linAlg, g)
  | some c => (.ok (), { mu := muNew, chol := c })

/-- `RWR._update`. rwr.py L31-36. -/
noncomputable def rwrFit (cholesky : Matrix (Fin n) (Fin n) ℝ → Option (Matrix (Fin n) (Fin n) ℝ)) (g : Chol n) (beta : ℝ)
    (J : List ℝ) (theta : List (Vec n)) : Except FitErr Unit × Chol n :=
  g.fit cholesky ((rwrWeights beta J).zip theta)

/-- `REPS._update`, for the multiplier found by the minimiser. reps.py L34-48. -/
noncomputable def repsFit (cholesky : Matrix (Fin n) (Fin n) ℝ → Option (Matrix (Fin n) (Fin n) ℝ)) (g : Chol n) (eta : ℝ)
    (J : List ℝ) (theta : List (Vec n)) : Except FitErr Unit × Chol n :=
  g.fit cholesky ((repsWeights eta J).zip theta)

end Verif.Search
