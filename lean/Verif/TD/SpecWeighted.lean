/-
Vocabulary for Weighted Q-learning in random problems: the samples of its estimator and the sequence of its tables.
-/
import Verif.TD.SpecStoch
import Verif.TD.Model
import Mathlib.Probability.Distributions.Gaussian.Real
import Mathlib.Probability.Independence.Basic
import Mathlib.MeasureTheory.Constructions.Pi

namespace Verif.TD

open Filter Topology MeasureTheory ProbabilityTheory

noncomputable section

variable {S A : Type} [DecidableEq S] [DecidableEq A] [Fintype S] [Fintype A] [Nonempty A]
variable {Ω : Type} [mΩ : MeasurableSpace Ω]

/-- `Z n` are the samples behind the `n`-th update: `N` vectors of independent standard normal numbers, which
are independent of the past. -/
structure NormalDraws (μ : Measure Ω) (ℱ : Filtration ℕ mΩ) {N : ℕ} (Z : ℕ → Ω → Fin N → A → ℝ) : Prop where
  known : ∀ n, Measurable[ℱ (n + 1)] (Z n)
  fresh : ∀ n, Indep (MeasurableSpace.comap (Z n) inferInstance) (ℱ n) μ
  normal : ∀ n, μ.map (Z n) = Measure.pi fun _ => Measure.pi fun _ => gaussianReal 0 1

/-- The agent after `n` updates with the transitions `t`, the learning rates `α` and the samples `Z`. -/
def weightedAfter (γ : ℝ) (argmax : (A → ℝ) → A) {N : ℕ} (t : ℕ → Trans S A) (α : ℕ → ℝ) (Z : ℕ → Fin N → A → ℝ) : ℕ → Weighted S A
  | 0 => weightedInit
  | n + 1 => weightedQ γ (α n) argmax (List.ofFn (Z n)) (weightedAfter γ argmax t α Z n) (t n)

end

end Verif.TD
