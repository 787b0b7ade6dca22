/-
Model of /repo/mushroom_rl/algorithms/value/dqn/noisy_dqn.py. The draws of `torch.rand`, in [0, 1), and of `nn.init.uniform_` are arguments. The network of the
features is a function. Numbers are reals.
-/
import Mathlib.Analysis.SpecialFunctions.Pow.Real
import Mathlib.Data.Sign.Basic
import Mathlib.Algebra.BigOperators.Fin

namespace Verif.DQN.Noisy

noncomputable section

/-- The parameters of a `NoisyLinear` with `m` inputs and `n` outputs; `muB` and `sigmaB` are `none` without bias. noisy_dqn.py L17-30. -/
structure Layer (m n : ℕ) where
  muW : Fin n → Fin m → ℝ
  sigmaW : Fin n → Fin m → ℝ
  bias : Option ((Fin n → ℝ) × (Fin n → ℝ))

/-- `nn.init.uniform_(…, -b, b)` for a draw `u` in [0, 1). -/
def uniform (b u : ℝ) : ℝ := -b + u * (b - -b)

/-- `reset_parameters`: `uW` and `uB` are the draws. noisy_dqn.py L32-42. -/
def init (m n : ℕ) (coeff : ℝ) (withBias : Bool) (uW : Fin n → Fin m → ℝ) (uB : Fin n → ℝ) : Layer m n :=
  let fanIn := (m : ℝ) ^ (0.5 : ℝ)
  let boundWeight := 1 / fanIn
  let boundSigma := coeff / fanIn
  ⟨fun i j => uniform boundWeight (uW i j), fun _ _ => boundSigma,
   if withBias then some (fun i => uniform boundWeight (uB i), fun _ => boundSigma) else none⟩

/-- `_noise`. noisy_dqn.py L56-58. -/
def noise (x : ℝ) : ℝ := (SignType.sign x : ℝ) * Real.sqrt |x|

/-- `forward` of one row; the same draws serve all the rows of a batch. noisy_dqn.py L44-54. -/
def Layer.forward {m n : ℕ} (l : Layer m n) (epsOut : Fin n → ℝ) (epsIn : Fin m → ℝ) (x : Fin m → ℝ) : Fin n → ℝ := fun i =>
  let weight : Fin m → ℝ := fun j => l.muW i j + l.sigmaW i j * (noise (epsOut i) * noise (epsIn j))
  let linear := ∑ j, x j * weight j
  match l.bias with
  | none => linear
  | some (mu, sigma) => linear + (mu i + sigma i * noise (epsOut i))

/-- `forward` of a batch. noisy_dqn.py L44-54. -/
def Layer.forwardBatch {m n : ℕ} (l : Layer m n) (epsOut : Fin n → ℝ) (epsIn : Fin m → ℝ) (xs : List (Fin m → ℝ)) : List (Fin n → ℝ) :=
  xs.map (l.forward epsOut epsIn)

/-- `NoisyNetwork.forward(state, action)` for one row. noisy_dqn.py L74-82. -/
def network {S : Type} {m n : ℕ} (phi : S → Fin m → ℝ) (l : Layer m n) (epsOut : Fin n → ℝ) (epsIn : Fin m → ℝ) (s : S) (a : Fin n) : ℝ :=
  l.forward epsOut epsIn (phi s) a

/-- `extra_repr` reads `mu_bias`, which does not exist without bias: `none` is the AttributeError. noisy_dqn.py L60-63. -/
def Layer.extraRepr {m n : ℕ} (l : Layer m n) : Option (ℕ × ℕ) := l.bias.map fun _ => (m, n)

/-- The parameters handed to DQN: those given, with the network replaced and the given one kept for the features. A dictionary is a function of its keys;
`deepcopy` makes values. noisy_dqn.py L97-102. -/
def agentParams {V : Type} (noisy : V) (given : String → Option V) : String → Option V := fun k =>
  if k = "features_network" then given "network" else if k = "network" then some noisy else given k

end

end Verif.DQN.Noisy
