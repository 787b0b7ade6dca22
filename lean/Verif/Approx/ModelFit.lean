/-
Model of the training loop of `TorchApproximator`: /repo/mushroom_rl/approximators/parametric/torch_approximator.py.

The dataset is a list of samples, each with its weight: all the arrays of the arguments are sliced and indexed in the same way. The network is given by the loss of
a sample for its weights, the optimiser by the weights after a step on a batch; progress bars are left out. Floating point numbers are real
numbers, `np.inf` as number of epochs or as best loss is `none`.
-/
import Verif.Utils.Model
import Mathlib.Algebra.BigOperators.Group.List.Basic

namespace Verif.Approx.Fit

noncomputable section

/-- Network, loss and optimiser: `init` is `weights_init`, `loss` that of one sample, `update` a step of the optimiser for the gradient of the loss of
the batch. -/
structure Net (W X : Type) where
  init : W → W
  loss : W → X → ℝ
  update : W → List (X × ℝ) → W

/-- The settings of the constructor and the arguments of `fit`. -/
structure Cfg where
  reinitialize : Bool
  dropout : Bool
  batchSize : ℕ
  epochs : Option ℕ
  epsilon : Option ℝ
  patience : ℕ
  split : ℝ
  useWeights : Bool

variable {W X : Type}

/-- `_compute_batch_loss`. torch_approximator.py L209-235. -/
def batchLoss (net : Net W X) (useWeights : Bool) (w : W) (batch : List (X × ℝ)) : ℝ :=
  if useWeights then (batch.map (fun x => net.loss w x.1 * x.2)).sum / (batch.map Prod.snd).sum
  else (batch.map (fun x => net.loss w x.1)).sum / batch.length

/-- `_fit_epoch` over its batches: `_fit_batch` computes the loss before the step. torch_approximator.py L192-207. -/
def fitBatches (net : Net W X) (useWeights : Bool) (w : W) (batches : List (List (X × ℝ))) : W × List ℝ :=
  batches.foldl (fun s b => (net.update s.1 b, s.2 ++ [batchLoss net useWeights s.1 b])) (w, [])

/-- The batches of an epoch. torch_approximator.py L187-190. -/
def batches (batchSize : ℕ) (train : List (X × ℝ)) (shuffle : List ℕ) : List (List (X × ℝ)) :=
  if 0 < batchSize then
    (Utils.batchIndexes train.length batchSize shuffle).map (fun idx => idx.filterMap (fun j => train[j]?))
  else [train]

/-- `_fit_epoch`. torch_approximator.py L186-198. -/
def fitEpoch (net : Net W X) (c : Cfg) (train : List (X × ℝ)) (shuffle : List ℕ) (w : W) : W × ℝ :=
  let r := fitBatches net c.useWeights w (batches c.batchSize train shuffle)
  (r.1, r.2.sum / r.2.length)

/-- `train_len`, or `ValueError`. torch_approximator.py L132-137. -/
def trainLen (n : ℕ) (split : ℝ) : Option ℕ :=
  if 0 < split ∧ split ≤ 1 then some ⌈(n : ℝ) * split⌉₊ else none

/-- The variables of the loop, whether dropout is active, and `_last_loss`. -/
structure St (W : Type) where
  w : W
  training : Bool
  count : ℕ
  best : Option ℝ
  epochs : ℕ
  last : Option ℝ

/-- One epoch with early stopping. torch_approximator.py L147-171. -/
def stopEpoch (net : Net W X) (c : Cfg) (epsilon : ℝ) (train val : List (X × ℝ)) (shuffle : ℕ → List ℕ) (s : St W) : St W :=
  let r := fitEpoch net c train (shuffle s.epochs) s.w
  let loss := if val.length ≠ 0 then batchLoss net c.useWeights r.1 val else r.2
  let better := match s.best with
    | none => true
    | some b => decide (b - loss > epsilon)
  { s with w := r.1, count := if better then 0 else s.count + 1, best := if better then some loss else s.best,
           epochs := s.epochs + 1, last := some r.2 }

/-- One epoch without. torch_approximator.py L174-181. -/
def plainEpoch (net : Net W X) (c : Cfg) (train : List (X × ℝ)) (shuffle : ℕ → List ℕ) (s : St W) : St W :=
  let r := fitEpoch net c train (shuffle s.epochs) s.w
  { s with w := r.1, epochs := s.epochs + 1, last := some r.2 }

/-- The condition of the loop. torch_approximator.py L146. -/
def goesOn (c : Cfg) (s : St W) : Bool :=
  decide (s.count < c.patience) && (match c.epochs with | none => true | some n => decide (s.epochs < n))

/-- What is set before the loop. torch_approximator.py L113-117, L139-141. -/
def start (net : Net W X) (c : Cfg) (w : W) (last : Option ℝ) : St W :=
  ⟨if c.reinitialize then net.init w else w, c.dropout, 0, none, 0, last⟩

/-- A while loop ends after `k` rounds. -/
def Ends {S : Type} (cond : S → Bool) (body : S → S) (s : S) (k : ℕ) : Prop :=
  cond (body^[k] s) = false ∧ ∀ j < k, cond (body^[j] s) = true

/-- `fit`: the state in which it returns; dropout, if any, is switched off at the end. For early stopping this is a relation, since the loop need
not end. torch_approximator.py L93-184. -/
inductive Returns (net : Net W X) (c : Cfg) (data : List (X × ℝ)) (shuffle : ℕ → List ℕ) (w : W) (last : Option ℝ) : St W → Prop
  | plain (len : ℕ) (hl : trainLen data.length c.split = some len) (he : c.epsilon = none) :
      Returns net c data shuffle w last
        (let s := (plainEpoch net c (data.take len) shuffle)^[c.epochs.getD 1] (start net c w last); { s with training := false })
  | stopping (len : ℕ) (epsilon : ℝ) (k : ℕ) (hl : trainLen data.length c.split = some len) (he : c.epsilon = some epsilon)
      (hk : Ends (goesOn c) (stopEpoch net c epsilon (data.take len) (data.drop len) shuffle) (start net c w last) k) :
      Returns net c data shuffle w last
        (let s := (stopEpoch net c epsilon (data.take len) (data.drop len) shuffle)^[k] (start net c w last); { s with training := false })

/-- `fit` raises `ValueError`: the weights and the mode it leaves. torch_approximator.py L113-117, L132-137. -/
def raises (net : Net W X) (c : Cfg) (data : List (X × ℝ)) (w : W) (last : Option ℝ) : Option (St W) :=
  if trainLen data.length c.split = none then some (start net c w last) else none

end

end Verif.Approx.Fit
