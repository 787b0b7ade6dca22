/-
Model of ePPO, /repo/mushroom_rl/algorithms/policy_search/black_box_optimization/eppo.py.

The distribution is given by its log-density and its entropy as functions of its parameters, the optimiser by a step that sees the loss as a function of the parameters.
`none` stands for NaN and for exceptions.
-/
import Verif.ActorCritic.Model
import Verif.Utils.Model

namespace Verif.Search.Eppo

open Verif.ActorCritic

noncomputable section

variable {P Θ C O : Type}

/-- What `entropy` returns: a number, or one for each context. torch_distribution.py L43-45. -/
inductive Ent where
  | scalar (h : ℝ)
  | vector (l : List ℝ)

/-- A search distribution: `log_pdf` and `entropy` for given parameters; contexts are optional. torch_distribution.py L32-45. -/
structure Distribution (P Θ C : Type) where
  logPdf : P → Option C → Θ → ℝ
  entropy : P → Option (List C) → Ent
  contextual : Bool

/-- One row of the full batch. eppo.py L51-54. -/
structure Episode (Θ C : Type) where
  theta : Θ
  ret : ℝ
  old : ℝ
  context : Option C

/-- The full batch: the returns are standardised, the old log-densities are computed without contexts. eppo.py L43-54. -/
def fullBatch (d : Distribution P Θ C) (p : P) (returns : List ℝ) (thetas : List Θ) (contexts : List C) : Option (List (Episode Θ C)) :=
  (standardise returns).map (fun js =>
    List.zipWith (fun (tj : Θ × ℝ) (c : Option C) => ⟨tj.1, tj.2, d.logPdf p none tj.1, c⟩) (thetas.zip js)
      (if d.contextual then contexts.map some else thetas.map (fun _ => none)))

/-- The contexts given to `entropy`. eppo.py L65, L69-76. -/
def batchContexts (d : Distribution P Θ C) (batch : List (Episode Θ C)) : Option (List C) :=
  if d.contextual then some (batch.filterMap Episode.context) else none

/-- The loss of a minibatch; subtracting a vector from the number in place raises RuntimeError. eppo.py L62-65. -/
def loss (d : Distribution P Θ C) (eps entCoeff : ℝ) (batch : List (Episode Θ C)) (p : P) : Option ℝ :=
  match d.entropy p (batchContexts d batch) with
  | .scalar h => some (-meanOf (batch.map (fun e => surrogate eps (Real.exp (d.logPdf p e.context e.theta - e.old)) e.ret)) - entCoeff * h)
  | .vector _ => none

/-- The optimiser: from its state, the loss and the parameters to the new state and parameters. -/
abbrev Step (P O : Type) := O → (P → Option ℝ) → P → O × P

/-- One minibatch. eppo.py L59-67. -/
def fitBatch (d : Distribution P Θ C) (step : Step P O) (eps entCoeff : ℝ) (s : Option (O × P)) (batch : List (Episode Θ C)) : Option (O × P) :=
  s.bind (fun s => (loss d eps entCoeff batch s.2).map (fun _ => step s.1 (loss d eps entCoeff batch) s.2))

/-- The minibatches of an epoch; `shuffle` is the permutation drawn by numpy. eppo.py L57. -/
def minibatches (batchSize : ℕ) (full : List (Episode Θ C)) (shuffle : List ℕ) : List (List (Episode Θ C)) :=
  (Utils.batchIndexes full.length batchSize shuffle).map (fun idx => idx.filterMap (fun j => full[j]?))

/-- `_update`. eppo.py L42-67. -/
def update (d : Distribution P Θ C) (step : Step P O) (eps entCoeff : ℝ) (nEpochs batchSize : ℕ) (shuffle : ℕ → List ℕ) (s : O × P)
    (returns : List ℝ) (thetas : List Θ) (contexts : List C) : Option (O × P) :=
  (fullBatch d s.2 returns thetas contexts).bind (fun full =>
    (List.range nEpochs).foldl (fun s k => (minibatches batchSize full (shuffle k)).foldl (fitBatch d step eps entCoeff) s) (some s))

end

end Verif.Search.Eppo
