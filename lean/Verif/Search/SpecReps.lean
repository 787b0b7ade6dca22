/-
Specification for C180.
-/
import Verif.Search.SpecRwr
import Verif.Search.ModelReps

namespace Verif.Search.Pgpe

open MeasureTheory Filter Topology

/-- `eta k` is what the minimiser finds for the first `k` episodes with the returns `J`: a positive number at which the derivative of the dual
function that the algorithm hands over vanishes, up to an error that disappears as the number of the episodes grows. -/
structure Multipliers {Ω : Type} (ω : Ω) (eps : ℝ) (J : ℕ → Ω → ℝ) (eta : ℕ → Ω → ℝ) : Prop where
  pos : ∀ k, 0 < eta k ω
  stationary : Tendsto (fun k => repsDiff eps ((List.range k).map fun i => J i ω) (eta k ω)) atTop (𝓝 0)

/-- The divergence of the law of an episode, weighted by the exponential of the return divided by `eta`, from the law itself: the weighted mean of
the logarithm of the density. -/
noncomputable def weightedKL {Ω : Type} [MeasurableSpace Ω] (Pr : Measure Ω) (J : Ω → ℝ) (eta : ℝ) : ℝ :=
  let Z := ∫ ω, Real.exp (J ω / eta) ∂Pr
  ∫ ω, Real.exp (J ω / eta) / Z * Real.log (Real.exp (J ω / eta) / Z) ∂Pr

end Verif.Search.Pgpe
