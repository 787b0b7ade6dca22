/-
Specification of the running statistics and of the optimizers.
-/
import Verif.Stats.Model

namespace Verif.Stats

noncomputable section

/-- All samples of a sequence of batches, in order. -/
def samples (bs : List (List ℝ)) : List ℝ := bs.flatten

/-- Average of a list. -/
def average (xs : List ℝ) : ℝ := xs.sum / xs.length

/-- Sum of the squared deviations from `c`. -/
def squaredDeviations (c : ℝ) (xs : List ℝ) : ℝ := (xs.map (fun x => (x - c) ^ 2)).sum

/-- Statistics after a sequence of batches. -/
def runAll (alpha : ℝ) (bs : List (List ℝ)) : RunStd := bs.foldl (RunStd.update alpha) RunStd.init

/-- Average with weights that decay by `β` for every step of age. -/
def decayAverage (β : ℝ) (xs : List ℝ) : ℝ :=
  (∑ k : Fin xs.length, β ^ (xs.length - 1 - k) * xs[k]) / ∑ k ∈ Finset.range xs.length, β ^ k

/-- Both bounds of a component are finite for all practical purposes. -/
def Limited (low high : ℝ) : Prop := |low| < 10 ^ 20 ∧ |high| < 10 ^ 20

/-- The bilinear form of a metric given by its matrix. -/
def metric {I : Type} [Fintype I] (M : I → I → ℝ) (x y : I → ℝ) : ℝ := ∑ i, ∑ j, x i * M i j * y j

/-- A symmetric, positive semidefinite matrix. -/
structure IsMetric {I : Type} [Fintype I] (M : I → I → ℝ) : Prop where
  symm : ∀ i j, M i j = M j i
  nonneg : ∀ x, 0 ≤ metric M x x

/-- Parameters and optimizer after a sequence of gradients. -/
def adamRun {I : Type} (maximize : Bool) (lr β1 β2 eps : ℝ) (p0 : I → ℝ) (gs : List (I → ℝ)) : Adam I × (I → ℝ) :=
  gs.foldl (fun o g => let r := o.1.call maximize lr β1 β2 eps o.2 g; (r.1, r.2.2)) (Adam.init, p0)

end

end Verif.Stats
