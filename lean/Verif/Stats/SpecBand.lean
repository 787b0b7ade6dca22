/-
Specification of a confidence band: Student's law as a distribution function and its inverse, the t statistic and the
p-value of the two-sided test.
-/
import Mathlib.Analysis.SpecialFunctions.Sqrt
import Mathlib.Algebra.BigOperators.Fin
import Mathlib.Topology.Order.Basic

namespace Verif.Stats.Band

/-- What is used of Student's law with some number of degrees of freedom: its distribution function is continuous,
increasing and symmetric, and `ppf` is its inverse. -/
structure IsLaw (F : ℝ → ℝ) (ppf : ℝ → ℝ) : Prop where
  continuous : Continuous F
  increasing : StrictMono F
  symmetric : ∀ x, F (-x) = 1 - F x
  inverse : ∀ p, 0 < p → p < 1 → F (ppf p) = p

variable {n : ℕ}

/-- Sample mean. -/
noncomputable def avg (x : Fin n → ℝ) : ℝ := (∑ i, x i) / n

/-- Unbiased sample variance. -/
noncomputable def variance (x : Fin n → ℝ) : ℝ := (∑ i, (x i - avg x) ^ 2) / ((n : ℝ) - 1)

/-- The t statistic of the hypothesis that the true mean is `mu`. -/
noncomputable def tStat (x : Fin n → ℝ) (mu : ℝ) : ℝ := (avg x - mu) / √(variance x / n)

/-- The p-value of the two-sided test. -/
noncomputable def pValue (F : ℝ → ℝ) (x : Fin n → ℝ) (mu : ℝ) : ℝ := 2 * (1 - F |tStat x mu|)

end Verif.Stats.Band
