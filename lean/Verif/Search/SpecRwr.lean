/-
Specification for C178.
-/
import Verif.Search.SpecPgpe

namespace Verif.Search.Pgpe

open MeasureTheory ProbabilityTheory

variable {n : ℕ}

/-- Independent episodes with parameters drawn from the normal distribution with mean `m` and covariance `s` and with the random returns
`J i`, as in `Rounds`, but judged by the exponential of `beta` times the return: it is bounded by `C`, and with the parameters `x` its
expectation is `f x`. The returns themselves are bounded from one side only. -/
def Utilities {Ω : Type} [MeasurableSpace Ω] (Pr : Measure Ω) (m : Vec n) (s : Matrix (Fin n) (Fin n) ℝ) (beta : ℝ) (f : Vec n → ℝ)
    (C : ℝ) (θ : ℕ → Ω → Vec n) (J : ℕ → Ω → ℝ) : Prop :=
  Rounds Pr m s f C θ (fun i ω => Real.exp (beta * J i ω))

end Verif.Search.Pgpe
