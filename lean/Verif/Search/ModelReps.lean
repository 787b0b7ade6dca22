/-
Model of /repo/mushroom_rl/algorithms/policy_search/black_box_optimization/reps.py with the other Gaussian distributions; for
`GaussianDistribution` see `ModelBB`.
-/
import Verif.Search.ModelBB

namespace Verif.Search

variable {n : ℕ}

/-- `REPS._update` for the multiplier found by the minimiser, with a Gaussian with a diagonal covariance. reps.py L34-48. -/
noncomputable def repsUpdateDiag (g : Diag n) (eta : ℝ) (J : List ℝ) (theta : List (Vec n)) : Option (Diag n) :=
  g.wmle ((repsWeights eta J).zip theta)

/-- `REPS._update` for the multiplier found by the minimiser, with a Gaussian with a full covariance. reps.py L34-48. -/
noncomputable def repsUpdateChol (cholesky : Matrix (Fin n) (Fin n) ℝ → Option (Matrix (Fin n) (Fin n) ℝ)) (g : Chol n) (eta : ℝ)
    (J : List ℝ) (theta : List (Vec n)) : Option (Chol n) :=
  g.wmle cholesky ((repsWeights eta J).zip theta)

end Verif.Search
