/-
Specification for C177: episodes whose policy parameters are drawn from a normal distribution.
-/
import Verif.Search.SpecDist
import Verif.Search.ModelDist
import Mathlib.MeasureTheory.Constructions.BorelSpace.Basic
import Mathlib.MeasureTheory.Function.ConditionalExpectation.Basic
import Mathlib.MeasureTheory.Measure.Lebesgue.Basic
import Mathlib.Probability.Independence.Basic
import Mathlib.Probability.IdentDistrib

namespace Verif.Search.Pgpe

open MeasureTheory ProbabilityTheory

variable {n : ℕ}

/-- The normal distribution with mean `m` and covariance `s`. That the density has mass one, mean `m` and covariance `s` is
`C58_density`. -/
noncomputable def normalLaw (m : Vec n) (s : Matrix (Fin n) (Fin n) ℝ) : Measure (Vec n) :=
  volume.withDensity (fun x => ENNReal.ofReal (Real.exp (logPdf x m s)))

/-- Independent episodes: for the episode `i` the parameters `θ i` are drawn from the normal distribution with mean `m` and covariance
`s`, and the episode has the random return `J i`. The returns are bounded by `C`, and with the parameters `x` the expected return
is `f x`. -/
structure Rounds {Ω : Type} [MeasurableSpace Ω] (Pr : Measure Ω) (m : Vec n) (s : Matrix (Fin n) (Fin n) ℝ) (f : Vec n → ℝ) (C : ℝ)
    (θ : ℕ → Ω → Vec n) (J : ℕ → Ω → ℝ) : Prop where
  measurable_params : ∀ i, Measurable (θ i)
  measurable_return : ∀ i, Measurable (J i)
  law_eq : ∀ i, Pr.map (θ i) = normalLaw m s
  same : ∀ i, IdentDistrib (fun ω => (θ i ω, J i ω)) (fun ω => (θ 0 ω, J 0 ω)) Pr Pr
  indep : Pairwise fun i j => IndepFun (fun ω => (θ i ω, J i ω)) (fun ω => (θ j ω, J j ω)) Pr
  bounded : ∀ i ω, |J i ω| ≤ C
  measurable_expected : Measurable f
  bounded_expected : ∀ x, |f x| ≤ C
  expected : Pr[J 0 | MeasurableSpace.comap (θ 0) inferInstance] =ᵐ[Pr] fun ω => f (θ 0 ω)

/-- The expected return when the parameters are drawn from the normal distribution with mean `m` and covariance `s`. -/
noncomputable def performance (m : Vec n) (s : Matrix (Fin n) (Fin n) ℝ) (f : Vec n → ℝ) : ℝ := ∫ x, f x ∂normalLaw m s

/-- The expected return after `set_parameters(rho)` of the Cholesky distribution. -/
noncomputable def cholPerformance (g : Chol n) (f : Vec n → ℝ) (rho : List ℝ) : ℝ :=
  match g.set rho with
  | some g' => performance g'.mu g'.sigma f
  | none => 0

end Verif.Search.Pgpe
