/-
C135: the shapes of the tensors from which the deep actor-critic agents compute their advantages, targets and losses. The values of the networks are
arbitrary functions of the index of a transition; the operations on tensors (broadcasting, squeezing, means) are those of `DQN/ModelNets.lean`.
Not modelled: tensors with more than the axes below, and the gradients of the losses.
-/
import Verif.DQN.ModelNets
import Verif.ValueFn.Model
import Verif.ActorCritic.Model

namespace Verif.ActorCritic.Shapes

open Verif.Backend (Tensor)
open Verif.DQN.Nets (squeeze op1 op2 total mean)
open Verif.ValueFn (Data computeGae computeAdvantage computeAdvantageMontecarlo notInt)

noncomputable section

/-- A vector with `b` entries, and a matrix with `b` rows and one column. -/
def vec {α : Type} (b : ℕ) (f : ℕ → α) : Tensor α := ⟨[b], fun is => f (is.getD 0 0)⟩
def col {α : Type} (b : ℕ) (f : ℕ → α) : Tensor α := ⟨[b, 1], fun is => f (is.getD 0 0)⟩

/-- What the user's critic network returns for `b` states: one column (`nn.Linear` with one output, as in the examples of PPO, TRPO and A2C), a vector, or
the column after `torch.squeeze` (as in the examples of DDPG, TD3 and SAC). -/
inductive Form
  | column | vector | squeezed
deriving DecidableEq

def Form.out (form : Form) (b : ℕ) (f : ℕ → ℝ) : Tensor ℝ :=
  match form with
  | .column => col b f
  | .vector => vec b f
  | .squeezed => squeeze (col b f)

/-- `len(t)`: an error without axes. -/
def len {α : Type} (t : Tensor α) : Option ℕ := t.shape.head?

/-- `t[:, None]`: an error without axes. -/
def newaxis {α : Type} (t : Tensor α) : Option (Tensor α) :=
  match t.shape with
  | [] => none
  | s :: sh => some ⟨s :: 1 :: sh, fun is => t.entry (is.headD 0 :: is.drop 2)⟩

/-- `x *= y`: an error when the result does not have the shape of `x`. -/
def imul (x y : Tensor ℝ) : Option (Tensor ℝ) :=
  (op2 (· * ·) x y).bind fun z => if z.shape = x.shape then some z else none

/-- `F.mse_loss(input, target)`: the operands are broadcast. -/
def mse (input target : Tensor ℝ) : Option ℝ := (op2 (fun x y : ℝ => (x - y) ^ 2) input target).map mean

/-- The rows of a minibatch, as they are taken by `minibatch_generator`. mushroom_rl/utils/minibatches.py L38-42. -/
def rows {α : Type} (idx : List ℕ) (t : Tensor α) : Tensor α :=
  ⟨idx.length :: t.shape.tail, fun is => t.entry (idx.getD (is.headD 0) 0 :: is.tail)⟩

/-! ### Advantages -/

/-- `compute_advantage_montecarlo` on `n` transitions. mushroom_rl/rl_utils/value_functions.py L25-37. -/
def mcTensors (form : Form) (d : Data) (γ : ℝ) (n : ℕ) : Option (Tensor ℝ × Tensor ℝ) := do
  let r := squeeze (vec n d.r)
  let k ← len r
  let v := squeeze (form.out n d.v)
  let q := vec k (computeAdvantageMontecarlo d γ k).1
  let adv ← op2 (· - ·) q v
  return (← newaxis q, ← newaxis adv)

/-- `compute_advantage` on `n` transitions. mushroom_rl/rl_utils/value_functions.py L60-66. -/
def tdTensors (form : Form) (d : Data) (γ : ℝ) (n : ℕ) : Option (Tensor ℝ × Tensor ℝ) := do
  let v := squeeze (form.out n d.v)
  let vNext ← op2 (· * ·) (squeeze (form.out n d.vNext)) (vec n fun i => notInt (d.absorbing i))
  let q ← op2 (· + ·) (vec n d.r) (op1 (γ * ·) vNext)
  let adv ← op2 (· - ·) q v
  return (← newaxis q, ← newaxis adv)

/-- `compute_gae` on `n` transitions: `gen_adv` has the shape of the critic's values. mushroom_rl/rl_utils/value_functions.py L97-109. -/
def gaeTensors (form : Form) (d : Data) (γ lam : ℝ) (n : ℕ) (g0 : ℕ → ℝ) : Option (Tensor ℝ × Tensor ℝ) := do
  let v := form.out n d.v
  let k ← len v
  let adv : Tensor ℝ := ⟨v.shape, fun is => (computeGae d γ lam k g0).2 (is.getD 0 0)⟩
  return (← op2 (· + ·) adv v, adv)

/-- `adv = (adv - torch.mean(adv)) / (torch.std(adv) + 1e-8)`; `none` for NaN. mushroom_rl/algorithms/actor_critic/deep_actor_critic/ppo.py L79,
trpo.py L90, ppo_bptt.py L84. -/
def standardised (t : Tensor ℝ) : Option (Tensor ℝ) :=
  if t.shape.prod < 2 then none
  else
    let m := mean t
    let s := Real.sqrt (total t.shape (fun is => (t.entry is - m) ^ 2) / ((t.shape.prod : ℕ) - 1))
    some (op1 (fun x => (x - m) / (s + 1 / 100000000)) t)

/-! ### Losses of the policies -/

/-- The loss of a minibatch of PPO, from tensors. ppo.py L100-103, ppo_bptt.py L157-162. -/
def ppoTensors (eps entCoeff entropy : ℝ) (logp old adv : Tensor ℝ) : Option ℝ := do
  let ratio := op1 Real.exp (← op2 (· - ·) logp old)
  let clipped := op1 (clampRatio eps) ratio
  let m ← op2 min (← op2 (· * ·) ratio adv) (← op2 (· * ·) clipped adv)
  return -mean m - entCoeff * entropy

/-- `PPO.fit` and `_update_policy`: the loss of the minibatch with the rows `idx`, where `logp` and `old` are the log-probabilities of the transitions
(`log_prob(action)[:, None]`, ppo.py L85 and torch_policy.py L209-210, L284-285). ppo.py L77-103. -/
def ppoBatch (form : Form) (d : Data) (γ lam : ℝ) (n : ℕ) (g0 : ℕ → ℝ) (eps entCoeff entropy : ℝ) (logp old : ℕ → ℝ) (idx : List ℕ) : Option ℝ := do
  let adv ← standardised (← gaeTensors form d γ lam n g0).2
  ppoTensors eps entCoeff entropy (← newaxis (vec idx.length fun i => logp (idx.getD i 0))) (rows idx (← newaxis (vec n old))) (rows idx adv)

/-- `TRPO._compute_loss` on the whole dataset. trpo.py L85-97, L186-190. -/
def trpoTensors (form : Form) (d : Data) (γ lam : ℝ) (n : ℕ) (g0 : ℕ → ℝ) (entCoeff entropy : ℝ) (logp old : ℕ → ℝ) : Option ℝ := do
  let adv ← standardised (← gaeTensors form d γ lam n g0).2
  let ratio := op1 Real.exp (← op2 (· - ·) (← newaxis (vec n logp)) (← newaxis (vec n old)))
  let j ← op2 (· * ·) ratio adv
  return mean j + entCoeff * entropy

/-- `A2C.fit`: the loss of the policy. a2c.py L59-74. -/
def a2cTensors (form : Form) (d : Data) (γ : ℝ) (n : ℕ) (entCoeff entropy : ℝ) (logp : ℕ → ℝ) : Option ℝ := do
  let t ← mcTensors form d γ n
  let j ← op2 (· * ·) (← newaxis (vec n logp)) t.2
  return -mean j + entCoeff * (-entropy)

/-- The loss of the critic of A2C, whose values are `y`, in the fit to its targets. a2c.py L62-65. -/
def a2cCritic (form : Form) (d : Data) (γ : ℝ) (n : ℕ) (y : ℕ → ℝ) : Option ℝ := do
  let t ← mcTensors form d γ n
  mse (form.out n y) t.1

/-- The loss of the critic of PPO and TRPO, whose values are `y`, in the fit to its targets. ppo.py L77-87, trpo.py L88-94, L116. -/
def ppoCritic (form : Form) (d : Data) (γ lam : ℝ) (n : ℕ) (g0 : ℕ → ℝ) (y : ℕ → ℝ) : Option ℝ := do
  let t ← gaeTensors form d γ lam n g0
  mse (form.out n y) t.1

/-! ### The recurrent policy -/

/-- `torch.distributions.MultivariateNormal` with `b` means of `d` components: `log_prob` validates its argument (the default) and refuses a value whose
last axis does not have the size `d`, or whose other axes cannot be broadcast. `density i` is the logarithm of the density of the `i`-th mean. -/
def logProbs (b d : ℕ) (density : ℕ → (ℕ → ℝ) → ℝ) (value : Tensor ℝ) : Option (Tensor ℝ) :=
  match value.shape with
  | [k] => if k = d then some (vec b fun i => density i fun j => value.entry [j]) else none
  | [m, k] =>
    if k = d ∧ m = b then some (vec b fun i => density i fun j => value.entry [i, j])
    else none
  | _ => none

/-- `RecurrentGaussianTorchPolicy.log_prob_t`. mushroom_rl/policy/recurrent_torch_policy.py L37-38. -/
def recurrentLogProb (b d : ℕ) (density : ℕ → (ℕ → ℝ) → ℝ) (act : ℕ → ℕ → ℝ) : Option (Tensor ℝ) := do
  let a : Tensor ℝ := ⟨[b, d], fun is => act (is.getD 0 0) (is.getD 1 0)⟩
  newaxis (← logProbs b d density (squeeze a))

/-- `GaussianTorchPolicy.log_prob_t`, and the old log-probabilities of `PPO_BPTT`. mushroom_rl/policy/torch_policy.py L209-210, ppo_bptt.py L86-87. -/
def gaussianLogProb (b d : ℕ) (density : ℕ → (ℕ → ℝ) → ℝ) (act : ℕ → ℕ → ℝ) : Option (Tensor ℝ) := do
  let a : Tensor ℝ := ⟨[b, d], fun is => act (is.getD 0 0) (is.getD 1 0)⟩
  newaxis (← logProbs b d density a)

/-- `BoltzmannTorchPolicy.log_prob_t` through `CategoricalWrapper.log_prob`: the actions of shape `(b, 1)` are squeezed and an action without axes is used for
all rows. torch_policy.py L284-285, mushroom_rl/utils/torch.py L156-157. -/
def boltzmannLogProb (b : ℕ) (logits : ℕ → ℕ → ℝ) (act : ℕ → ℕ) : Option (Tensor ℝ) :=
  let a := squeeze (col b act)
  match a.shape with
  | [] => newaxis (vec b fun i => logits i (a.entry []))
  | [k] => if k = b then newaxis (vec b fun i => logits i (a.entry [i])) else none
  | _ => none

/-! ### Targets of the off-policy agents -/

/-- The library of an array. -/
inductive Lib
  | numpy | torch
deriving DecidableEq

/-- `1 - absorbing` for boolean flags: NumPy takes them for numbers; PyTorch raises `RuntimeError` ("Subtraction, the `-` operator, with a bool tensor is not
supported"). -/
def oneMinusFlags (lib : Lib) (t : Tensor Bool) : Option (Tensor ℝ) :=
  match lib with
  | .numpy => some (op1 notInt t)
  | .torch => none

/-- `1 - absorbing.to(int)`. -/
def oneMinusInts (t : Tensor Bool) : Tensor ℝ := op1 notInt t

/-- The backend of DDPG and TD3: the default of `DeepAC.__init__`. deep_actor_critic.py L29, ddpg.py L68. -/
def ddpgLib : Lib := .torch

/-- `DDPG._next_q`, `TD3._next_q` and the target in `DDPG.fit`, on a batch of `b` transitions; the flags of the replay memory are booleans of the backend of
the agent (core/_impl/numpy_dataset.py L17, torch_dataset.py L19). ddpg.py L99-102, L136-139, td3.py L90-94. -/
def ddpgTarget (lib : Lib) (form : Form) (b : ℕ) (γ : ℝ) (q r : ℕ → ℝ) (absorbing : ℕ → Bool) : Option (Tensor ℝ) := do
  let x ← imul (form.out b q) (← oneMinusFlags lib (vec b absorbing))
  op2 (· + ·) (vec b r) (op1 (γ * ·) x)

/-- `SAC._next_q` and the target in `SAC.fit`; `logp` are the log-probabilities of the next actions, of shape `(b,)` (sac.py L103-106). sac.py L276-277,
L310-315. -/
def sacTarget (form : Form) (b : ℕ) (γ α : ℝ) (q logp r : ℕ → ℝ) (absorbing : ℕ → Bool) : Option (Tensor ℝ) := do
  let x ← op2 (· - ·) (form.out b q) (op1 (α * ·) (vec b logp))
  let x ← imul x (oneMinusInts (vec b absorbing))
  op2 (· + ·) (vec b r) (op1 (γ * ·) x)

/-- The loss of the critic of SAC, whose values are `y`, in the fit to its targets. sac.py L276-279. -/
def sacCritic (form : Form) (b : ℕ) (γ α : ℝ) (q logp r : ℕ → ℝ) (absorbing : ℕ → Bool) (y : ℕ → ℝ) : Option ℝ := do
  mse (form.out b y) (← sacTarget form b γ α q logp r absorbing)

/-- `SAC._loss`: the loss of the policy. sac.py L283-289. -/
def sacActor (form : Form) (b : ℕ) (α : ℝ) (q0 q1 logp : ℕ → ℝ) : Option ℝ := do
  let q ← op2 min (form.out b q0) (form.out b q1)
  let x ← op2 (· - ·) (op1 (α * ·) (vec b logp)) q
  return mean x

end

end Verif.ActorCritic.Shapes
