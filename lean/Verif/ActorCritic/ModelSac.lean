/-
Model of whole calls of `SAC.fit`, with the gradient buffers that torch keeps between the calls.

Files: mushroom_rl/algorithms/actor_critic/deep_actor_critic/{sac,deep_actor_critic}.py,
mushroom_rl/approximators/parametric/torch_approximator.py (`_fit_epoch`, `_fit_batch`).

`loss.backward()` adds to the buffer of EVERY tensor the loss depends on, whichever optimiser owns it: the loss of the actor also writes to the
buffers of the critics and of the temperature. Automatic differentiation is an arbitrary operator from functions of the weights (for the temperature, a number,
it is the derivative). Optimisers are arbitrary functions of their own state, the weights and the buffer. The replay memory is an arbitrary state machine
that contains the random generators.
-/
import Verif.ActorCritic.Model
import Mathlib.Analysis.Calculus.Deriv.Basic

namespace Verif.ActorCritic.Soft

open Verif.TD (Trans)
open Verif.Policy (Param)

noncomputable section

/-- The tensors of one optimiser: values, gradient buffers, state of the optimiser. -/
structure Net (ι O : Type) where
  weights : ι → ℝ
  grad : ι → ℝ
  opt : O

variable {S A D M N ι κ O : Type}

/-- `optimizer.zero_grad()`. -/
def Net.zeroGrad (n : Net ι O) : Net ι O := { n with grad := fun _ => 0 }

/-- The effect of `loss.backward()` on one group of tensors; `d` is the gradient of the loss in these tensors. -/
def Net.backward (n : Net ι O) (d : ι → ℝ) : Net ι O := { n with grad := fun i => n.grad i + d i }

/-- `_clip_gradient`: deep_actor_critic.py L83-85; the clipping function changes the buffers in place. -/
def Net.clip (f : (ι → ℝ) → ι → ℝ) (n : Net ι O) : Net ι O := { n with grad := f n.grad }

/-- `optimizer.step()`. -/
def Net.step (f : O → (ι → ℝ) → (ι → ℝ) → O × (ι → ℝ)) (n : Net ι O) : Net ι O :=
  let r := f n.opt n.weights n.grad
  { n with weights := r.2, opt := r.1 }

/-- State of a `SAC` agent: sac.py L208-259. The temperature is a tensor with one component. -/
structure Sac (M ι κ O : Type) where
  memory : M
  critic : List (Net ι O)
  target : List (ι → ℝ)
  actor : Net κ O
  logAlpha : Net Unit O
  tau : Param
  warmup : Param

/-- What the agent is made of. -/
structure SacSys (S A D M N ι κ O : Type) where
  /-- `_replay_memory.add(dataset)` -/
  add : M → D → M
  /-- `_replay_memory.initialized` -/
  initialized : M → Bool
  /-- `_replay_memory.size` -/
  size : M → ℕ
  /-- `_replay_memory.get(batch_size)` -/
  get : M → M × List (Trans S A)
  /-- standard normal samples, one per sample of the batch -/
  noise : M → M × List N
  /-- the minibatches of every epoch of the fit of the critic with this index -/
  minibatches : M → M × (ℕ → List (Trans S A × ℝ) → List (List (Trans S A × ℝ)))
  /-- action and log-probability of the policy with these weights -/
  act : (κ → ℝ) → N → S → A × ℝ
  /-- prediction of a critic with these weights -/
  value : (ι → ℝ) → S → A → ℝ
  /-- loss of the critic, from predictions and targets -/
  loss : List (ℝ × ℝ) → ℝ
  /-- gradient of a function of the weights of the actor -/
  gradActor : ((κ → ℝ) → ℝ) → (κ → ℝ) → κ → ℝ
  /-- gradient of a function of the weights of a critic -/
  gradCritic : ((ι → ℝ) → ℝ) → (ι → ℝ) → ι → ℝ
  clip : (κ → ℝ) → κ → ℝ
  stepActor : O → (κ → ℝ) → (κ → ℝ) → O × (κ → ℝ)
  stepCritic : O → (ι → ℝ) → (ι → ℝ) → O × (ι → ℝ)
  stepAlpha : O → (Unit → ℝ) → (Unit → ℝ) → O × (Unit → ℝ)
  gamma : ℝ
  /-- `use_log_alpha_loss` -/
  useLog : Bool
  targetEntropy : ℝ

/-- `SAC._loss`: sac.py L283-289, with the actions and log-probabilities of L271, as a function of all the tensors it depends on. There are two critics (L223-226). -/
def actorLoss (y : SacSys S A D M N ι κ O) (ns : List N) (batch : List (Trans S A)) (θ : κ → ℝ) (cs : List (ι → ℝ)) (logAlpha : ℝ) : ℝ :=
  meanOf (List.zipWith (fun n t =>
    let a := y.act θ n t.state
    Real.exp logAlpha * a.2 - minOf (cs.map (fun c => y.value c t.state a.1))) ns batch)

/-- `self._optimize_actor_parameters(loss)`: sac.py L273, deep_actor_critic.py L70-81. `backward` also adds to the buffers of the critics and of the temperature. -/
def optimizeActor (y : SacSys S A D M N ι κ O) (ns : List N) (batch : List (Trans S A)) (g : Sac M ι κ O) : Sac M ι κ O :=
  let θ := g.actor.weights
  let cs := g.critic.map Net.weights
  let a := g.logAlpha.weights ()
  { g with
    actor := (((g.actor.zeroGrad).backward (y.gradActor (fun θ' => actorLoss y ns batch θ' cs a) θ)).clip y.clip).step y.stepActor
    critic := g.critic.mapIdx (fun j c => c.backward (y.gradCritic (fun w => actorLoss y ns batch θ (cs.set j w) a) c.weights))
    logAlpha := g.logAlpha.backward (fun _ => deriv (fun a' => actorLoss y ns batch θ cs a') a) }

/-- `self._update_alpha(log_prob)`: sac.py L291-298. -/
def updateAlpha (y : SacSys S A D M N ι κ O) (logProbs : List ℝ) (g : Sac M ι κ O) : Sac M ι κ O :=
  { g with logAlpha := ((g.logAlpha.zeroGrad).backward
      (fun _ => deriv (alphaLoss y.useLog y.targetEntropy logProbs) (g.logAlpha.weights ()))).step y.stepAlpha }

/-- The body of `if self._replay_memory.size > self._warmup_transitions()`: sac.py L270-274. The log-probabilities are those of the policy BEFORE the step. -/
def policyStep (y : SacSys S A D M N ι κ O) (batch : List (Trans S A)) (g : Sac M ι κ O) : Sac M ι κ O :=
  let n := y.noise g.memory
  let logProbs := List.zipWith (fun n t => (y.act g.actor.weights n t.state).2) n.2 batch
  updateAlpha y logProbs (optimizeActor y n.2 batch { g with memory := n.1 })

/-- `_compute_batch_loss` of a critic: torch_approximator.py L209-237; the targets are detached. -/
def criticLoss (y : SacSys S A D M N ι κ O) (data : List (Trans S A × ℝ)) (w : ι → ℝ) : ℝ :=
  y.loss (data.map (fun p => (y.value w p.1.state p.1.action, p.2)))

/-- `_fit_batch`: torch_approximator.py L200-207. -/
def fitBatch (y : SacSys S A D M N ι κ O) (c : Net ι O) (data : List (Trans S A × ℝ)) : Net ι O :=
  ((c.zeroGrad).backward (y.gradCritic (criticLoss y data) c.weights)).step y.stepCritic

/-- The critic part of `fit` and the update of the target: sac.py L276-281. `_next_q` (L300-315) uses the present policy and temperature. Every critic is fitted to the same targets. -/
def criticStep (y : SacSys S A D M N ι κ O) (batch : List (Trans S A)) (g : Sac M ι κ O) : Sac M ι κ O :=
  let n := y.noise g.memory
  let samples := List.zipWith (fun n t => y.act g.actor.weights n t.next) n.2 batch
  let q := bellman y.gamma batch (sacNext (g.target.map y.value) (g.logAlpha.weights ()) batch samples)
  let mb := y.minibatches n.1
  let critic := g.critic.mapIdx (fun j c => (mb.2 j (batch.zip q)).foldl (fitBatch y) c)
  let u := updateTarget g.tau (critic.map Net.weights) g.target
  { g with memory := mb.1, critic := critic, target := u.2, tau := u.1 }

/-- `SAC.fit`: sac.py L265-281. -/
def fit (y : SacSys S A D M N ι κ O) (g : Sac M ι κ O) (d : D) : Sac M ι κ O :=
  let m := y.add g.memory d
  if y.initialized m then
    let b := y.get m
    let w := g.warmup.call []
    let g1 := { g with memory := b.1, warmup := w.1 }
    criticStep y b.2 (if w.2 < (y.size b.1 : ℝ) then policyStep y b.2 g1 else g1)
  else { g with memory := m }

/-- A sequence of calls of `fit`: the states reached, one per call. -/
def run (y : SacSys S A D M N ι κ O) (g : Sac M ι κ O) : List D → List (Sac M ι κ O)
  | [] => []
  | d :: ds => fit y g d :: run y (fit y g d) ds

/-- `SAC.__init__`: sac.py L228-242: the target critics are copies of the critics, the logarithm of the temperature is 0. `tc` are the freshly built target critics. -/
def init (m : M) (critic : List (Net ι O)) (tc : List (ι → ℝ)) (actor : Net κ O) (o : O) (tau warmup : Param) : Sac M ι κ O :=
  { memory := m, critic := critic, target := initTarget (critic.map Net.weights) tc, actor := actor, logAlpha := ⟨fun _ => 0, fun _ => 0, o⟩, tau := tau, warmup := warmup }

end

end Verif.ActorCritic.Soft
