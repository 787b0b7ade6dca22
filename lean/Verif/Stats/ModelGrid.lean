/-
`RunningStandardization` of observations with two axes. The code takes the first axis of every array with at least two axes for the axis of a batch.
-/
import Verif.Stats.Model

namespace Verif.Stats

noncomputable section

/-- `update_stats` for a statistic of shape `(r, c)` and one observation of the same shape: `atleast_2d` leaves it as it is, `len(value)` is `r` and
`value.mean(0)`, with one entry per column, is broadcast over the rows of the statistics. running_stats.py L52-66. -/
def gridUpdate (alpha : ℝ) (r : ℕ) (g : ℕ → ℕ → RunStd) (x : ℕ → ℕ → ℝ) : ℕ → ℕ → RunStd :=
  fun i j => (g i j).update alpha ((List.range r).map fun k => x k j)

/-- The statistics after a sequence of observations. running_stats.py L30-32, L52-66. -/
def gridRun (alpha : ℝ) (r : ℕ) (xs : List (ℕ → ℕ → ℝ)) : ℕ → ℕ → RunStd := xs.foldl (gridUpdate alpha r) fun _ _ => RunStd.init

/-- `StandardizationPreprocessor.__call__` of an observation with two axes. preprocessors.py L70-77. -/
def gridCall (c : ℝ) (g : ℕ → ℕ → RunStd) (x : ℕ → ℕ → ℝ) : ℕ → ℕ → ℝ := fun i j => standardize c (g i j) (x i j)

end

end Verif.Stats
