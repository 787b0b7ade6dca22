/-
Model of /repo/mushroom_rl/algorithms/policy_search/black_box_optimization/rwr.py with the other Gaussian distributions; for
`GaussianDistribution` see `ModelBB`.
-/
import Verif.Search.ModelBB

namespace Verif.Search

variable {n : ℕ}

/-- `RWR._update`, with a Gaussian with a diagonal covariance. rwr.py L31-36. -/
noncomputable def rwrUpdateDiag (g : Diag n) (beta : ℝ) (J : List ℝ) (theta : List (Vec n)) : Option (Diag n) :=
  g.wmle ((rwrWeights beta J).zip theta)

/-- `RWR._update`, with a Gaussian with a full covariance. rwr.py L31-36. -/
noncomputable def rwrUpdateChol (cholesky : Matrix (Fin n) (Fin n) ℝ → Option (Matrix (Fin n) (Fin n) ℝ)) (g : Chol n) (beta : ℝ)
    (J : List ℝ) (theta : List (Vec n)) : Option (Chol n) :=
  g.wmle cholesky ((rwrWeights beta J).zip theta)

end Verif.Search
