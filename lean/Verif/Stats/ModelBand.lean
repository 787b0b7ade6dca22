/-
Model of the mean curve and confidence band of several runs: mushroom_rl/utils/plot.py.

Numbers are exact reals, NaN is `none`. scipy is modelled from its documentation: `sem` uses one degree of freedom
less than there are runs (NaN for a single run), and `t.interval(0.95, df, scale)` gives the quantiles of Student's law at
`(1 - 0.95) / 2` and `(1 + 0.95) / 2` times the scale, NaN unless the degrees of freedom and the scale are positive. The
quantile function of Student's law is an argument. Not modelled: colours, line styles and labels.
-/
import Mathlib.Analysis.SpecialFunctions.Sqrt
import Mathlib.Algebra.BigOperators.Fin

namespace Verif.Stats.Band

variable {n m : ℕ}

/-- plot.py L16: `np.mean(data, axis=0)`. -/
noncomputable def mean (data : Fin n → Fin m → ℝ) (e : Fin m) : Option ℝ :=
  if n = 0 then none else some ((∑ i, data i e) / n)

/-- plot.py L17: `st.sem(data, axis=0)`. -/
noncomputable def sem (data : Fin n → Fin m → ℝ) (e : Fin m) : Option ℝ :=
  if n ≤ 1 then none
  else
    let mu := (∑ i, data i e) / n
    some (√((∑ i, (data i e - mu) ^ 2) / (n - 1 : ℕ)) / √n)

/-- plot.py L19: the second result of `st.t.interval(0.95, n-1, scale=se)`. -/
noncomputable def interval (ppf : ℕ → ℝ → ℝ) (df : ℕ) (se : Option ℝ) : Option ℝ :=
  match se with
  | none => none
  | some s => if 0 < df ∧ 0 < s then some (ppf df ((1 + 95 / 100) / 2) * s) else none

/-- plot.py L5-20: `get_mean_and_confidence`. -/
noncomputable def getMeanAndConfidence (ppf : ℕ → ℝ → ℝ) (data : Fin n → Fin m → ℝ) :
    (Fin m → Option ℝ) × (Fin m → Option ℝ) :=
  (mean data, fun e => interval ppf (n - 1) (sem data e))

/-- What is drawn at one epoch: the mean, and the upper and lower end of the band. -/
structure Drawn where
  mean : Option ℝ
  upper : Option ℝ
  lower : Option ℝ

/-- plot.py L38-46: `plot_mean_conf`. A sum with NaN is NaN. -/
noncomputable def plotMeanConf (ppf : ℕ → ℝ → ℝ) (data : Fin n → Fin m → ℝ) (e : Fin m) : Drawn :=
  let (mean, conf) := getMeanAndConfidence ppf data
  { mean := mean e
    upper := (mean e).bind (fun a => (conf e).map (fun b => a + b))
    lower := (mean e).bind (fun a => (conf e).map (fun b => a - b)) }

end Verif.Stats.Band
