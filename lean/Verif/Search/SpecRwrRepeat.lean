/-
Specification for C181.
-/
import Verif.Search.SpecRwr
import Verif.Search.ModelRwr

namespace Verif.Search.Pgpe

open MeasureTheory Filter Topology

variable {n : ℕ}

/-- `g'` is what the update of RWR turns the distribution `g` into if the number of episodes goes to infinity: for some independent episodes
with parameters drawn from `g`, whose exponential of `beta` times the return has the expectation `f x` for the parameters `x`, the mean and the
covariance after an update with the first `k` of them converge almost surely to those of `g'`. -/
def LimitUpdate (cholesky : Matrix (Fin n) (Fin n) ℝ → Option (Matrix (Fin n) (Fin n) ℝ)) (beta : ℝ) (f : Vec n → ℝ) (C : ℝ)
    (g g' : Chol n) : Prop :=
  ∃ (Ω : Type) (_ : MeasurableSpace Ω) (Pr : Measure Ω) (_ : IsProbabilityMeasure Pr) (θ : ℕ → Ω → Vec n) (J : ℕ → Ω → ℝ),
    Utilities Pr g.mu g.sigma beta f C θ J ∧
    ∀ᵐ ω ∂Pr, ∃ new : ℕ → Chol n,
      (∀ᶠ k in atTop, rwrUpdateChol cholesky g beta ((List.range k).map fun i => J i ω) ((List.range k).map fun i => θ i ω) =
        some (new k)) ∧
      (∀ a, Tendsto (fun k => (new k).mu a) atTop (𝓝 (g'.mu a))) ∧
      ∀ a b, Tendsto (fun k => (new k).sigma a b) atTop (𝓝 (g'.sigma a b))

end Verif.Search.Pgpe
