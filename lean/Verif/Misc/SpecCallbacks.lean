/-
What C117 says, without the model of the code: collected values are the values at the times of the calls, and the plots hold the
episodes that ended and the last steps taken while the plot was shown.
-/
import Verif.Misc.SpecLog
import Mathlib.Data.Real.Basic
import Mathlib.Algebra.BigOperators.Group.List.Basic

namespace Verif.Misc.Callbacks

/-- A history of a collector of values: the values change, a value is collected, the collection is dropped. -/
inductive Hist (V : Type)
  | change (f : V → V)
  | collect
  | drop

/-- The values collected since the last drop, as they were at the times of the collections; `summary` is what is collected. -/
def collected {V B : Type} (summary : V → B) : V → List B → List (Hist V) → List B
  | _, out, [] => out
  | v, out, .change f :: h => collected summary (f v) out h
  | v, out, .collect :: h => collected summary v (out ++ [summary v]) h
  | v, _, .drop :: h => collected summary v [] h

/-- The value at the end. -/
def finally_ {V : Type} : V → List (Hist V) → V
  | v, [] => v
  | v, .change f :: h => finally_ (f v) h
  | v, .collect :: h => finally_ v h
  | v, .drop :: h => finally_ v h

/-- `eps` are whole episodes: each has one last step, its last one. -/
def Whole {σ : Type} (last : σ → Bool) (eps : List (List σ)) : Prop :=
  ∀ e ∈ eps, ∃ init x, e = init ++ [x] ∧ last x = true ∧ ∀ y ∈ init, last y = false

/-- What a user sees and does at a window with numbered plots: a step, a click on `ALL`, on a plot, or on something else. -/
inductive Seen (σ : Type)
  | step (s : σ)
  | clickAll
  | clickPlot (k : ℕ)
  | clickOther

/-- The steps taken while plot `k` is shown. `all` and `shown` tell whether the entry `ALL` and the plot are marked: a click on `ALL`
shows everything or hides everything, in turn; a click on the plot shows it if it is hidden and hides it if it is shown. -/
def whileShown {σ : Type} (k : ℕ) : Bool → Bool → List (Seen σ) → List σ
  | _, _, [] => []
  | all, shown, .step s :: es => if shown then s :: whileShown k all shown es else whileShown k all shown es
  | all, _, .clickAll :: es => whileShown k (!all) (!all) es
  | all, shown, .clickPlot i :: es => whileShown k all (if i = k then !shown else shown) es
  | all, shown, .clickOther :: es => whileShown k all shown es

/-- All the steps. -/
def stepsOf {σ : Type} : List (Seen σ) → List σ
  | [] => []
  | .step s :: es => s :: stepsOf es
  | .clickAll :: es => stepsOf es
  | .clickPlot _ :: es => stepsOf es
  | .clickOther :: es => stepsOf es

end Verif.Misc.Callbacks
