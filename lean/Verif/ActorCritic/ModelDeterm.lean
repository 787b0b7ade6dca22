/-
Model of whole calls of the `fit` methods of DDPG, TD3 and A2C, with the gradient buffers that torch keeps between the calls.

Files: mushroom_rl/algorithms/actor_critic/deep_actor_critic/{ddpg,td3,a2c,deep_actor_critic}.py,
mushroom_rl/approximators/parametric/torch_approximator.py (`_fit_epoch`, `_fit_batch`).

As in the model of SAC (`ModelSac.lean`), `loss.backward()` adds to the buffer of every tensor the loss depends on, automatic differentiation is an
arbitrary operator, optimisers are arbitrary functions, and the replay memory is an arbitrary state machine that contains the random generators.
-/
import Verif.ActorCritic.ModelSac

namespace Verif.ActorCritic.Determ

open Verif.TD (Trans)
open Verif.Policy (Param)
open Verif.ActorCritic.Soft (Net)

noncomputable section

variable {S A D M ι κ O : Type}

/-! ### DDPG and TD3 -/

/-- State of a `DDPG` or `TD3` agent: ddpg.py L53-78. -/
structure Agent (M ι κ O : Type) where
  memory : M
  critic : List (Net ι O)
  targetCritic : List (ι → ℝ)
  actor : Net κ O
  targetActor : κ → ℝ
  tau : Param
  delay : Param
  fitCount : ℕ

/-- What the agent is made of. -/
structure Sys (S A D M ι κ O : Type) where
  /-- `_replay_memory.add(dataset)` -/
  add : M → D → M
  /-- `_replay_memory.initialized` -/
  initialized : M → Bool
  /-- `_replay_memory.get(batch_size)` -/
  get : M → M × List (Trans S A)
  /-- `_next_q`, from the weights of the target critics and of the target actor; TD3 draws noise -/
  nextQ : M → M × (List (ι → ℝ) → (κ → ℝ) → List (Trans S A) → List ℝ)
  /-- the minibatches of every epoch of the fit of the critic with this index -/
  minibatches : M → M × (ℕ → List (Trans S A × ℝ) → List (List (Trans S A × ℝ)))
  /-- action of the actor with these weights -/
  act : (κ → ℝ) → S → A
  /-- prediction of a critic with these weights -/
  value : (ι → ℝ) → S → A → ℝ
  /-- what the actor maximises, from the predictions of the critics: their mean for DDPG, the first one (`idx=0`) for TD3 -/
  pick : List ℝ → ℝ
  /-- loss of the critic, from predictions and targets -/
  loss : List (ℝ × ℝ) → ℝ
  gradActor : ((κ → ℝ) → ℝ) → (κ → ℝ) → κ → ℝ
  gradCritic : ((ι → ℝ) → ℝ) → (ι → ℝ) → ι → ℝ
  clip : (κ → ℝ) → κ → ℝ
  stepActor : O → (κ → ℝ) → (κ → ℝ) → O × (κ → ℝ)
  stepCritic : O → (ι → ℝ) → (ι → ℝ) → O × (ι → ℝ)
  gamma : ℝ

/-- `_loss`: ddpg.py L115-119, td3.py L64-68, as a function of all the tensors it depends on. -/
def actorLoss (y : Sys S A D M ι κ O) (batch : List (Trans S A)) (θ : κ → ℝ) (cs : List (ι → ℝ)) : ℝ :=
  -meanOf (batch.map (fun t => y.pick (cs.map (fun c => y.value c t.state (y.act θ t.state)))))

/-- `self._optimize_actor_parameters(self._loss(state))`: ddpg.py L107-108, deep_actor_critic.py L70-81. `backward` also adds to the buffers of the critics. -/
def optimizeActor (y : Sys S A D M ι κ O) (batch : List (Trans S A)) (g : Agent M ι κ O) : Agent M ι κ O :=
  let θ := g.actor.weights
  let cs := g.critic.map Net.weights
  { g with
    actor := (((g.actor.zeroGrad).backward (y.gradActor (fun θ' => actorLoss y batch θ' cs) θ)).clip y.clip).step y.stepActor
    critic := g.critic.mapIdx (fun j c => c.backward (y.gradCritic (fun w => actorLoss y batch θ (cs.set j w)) c.weights)) }

/-- `_compute_batch_loss` of a critic: torch_approximator.py L209-237; the targets are detached. -/
def criticLoss (y : Sys S A D M ι κ O) (data : List (Trans S A × ℝ)) (w : ι → ℝ) : ℝ :=
  y.loss (data.map (fun p => (y.value w p.1.state p.1.action, p.2)))

/-- `_fit_batch`: torch_approximator.py L200-207. -/
def fitBatch (y : Sys S A D M ι κ O) (c : Net ι O) (data : List (Trans S A × ℝ)) : Net ι O :=
  ((c.zeroGrad).backward (y.gradCritic (criticLoss y data) c.weights)).step y.stepCritic

/-- `self._critic_approximator.fit(state, action, q)`: ddpg.py L101-104. -/
def criticStep (y : Sys S A D M ι κ O) (batch : List (Trans S A)) (g : Agent M ι κ O) : Agent M ι κ O :=
  let nq := y.nextQ g.memory
  let q := bellman y.gamma batch (nq.2 g.targetCritic g.targetActor batch)
  let mb := y.minibatches nq.1
  { g with memory := mb.1, critic := g.critic.mapIdx (fun j c => (mb.2 j (batch.zip q)).foldl (fitBatch y) c) }

/-- `self._fit_count % self._policy_delay() == 0`: ddpg.py L106. `none` is the ZeroDivisionError; the delay may be any number, also one with a schedule. -/
def dueWith (count : ℕ) (delay : ℝ) : Option Bool :=
  if delay = 0 then none else some (decide (Int.fract ((count : ℝ) / delay) = 0))

/-- `self._update_target(...)` for both networks and `self._fit_count += 1`: ddpg.py L110-113. -/
def moveTargets (g : Agent M ι κ O) : Agent M ι κ O :=
  let uc := updateTarget g.tau (g.critic.map Net.weights) g.targetCritic
  let ca := uc.1.call []
  { g with targetCritic := uc.2, tau := ca.1, fitCount := g.fitCount + 1
           targetActor := fun i => ca.2 * g.actor.weights i + (1 - ca.1.getValue []) * g.targetActor i }

/-- `DDPG.fit`: ddpg.py L96-113. -/
def fit (y : Sys S A D M ι κ O) (g : Agent M ι κ O) (d : D) : Option (Agent M ι κ O) :=
  let m := y.add g.memory d
  if y.initialized m then
    let b := y.get m
    let g1 := criticStep y b.2 { g with memory := b.1 }
    let p := g.delay.call []
    (dueWith g.fitCount p.2).map (fun due =>
      let g2 := { g1 with delay := p.1 }
      moveTargets (if due then optimizeActor y b.2 g2 else g2))
  else some { g with memory := m }

/-- A sequence of calls of `fit`: the states reached, one per call. -/
def run (y : Sys S A D M ι κ O) (g : Agent M ι κ O) : List D → Option (List (Agent M ι κ O))
  | [] => some []
  | d :: ds => (fit y g d).bind (fun g' => (run y g' ds).map (fun l => g' :: l))

/-- `_next_q` of DDPG, from the weights of the target networks: ddpg.py L123-139. No noise is drawn. -/
def ddpgNextQ (pick : List ℝ → ℝ) (value : (ι → ℝ) → S → A → ℝ) (act : (κ → ℝ) → S → A) (m : M) :
    M × (List (ι → ℝ) → (κ → ℝ) → List (Trans S A) → List ℝ) :=
  (m, fun tcs ta batch => ddpgNext (fun s a => pick (tcs.map (fun w => value w s a))) (act ta) batch)

/-- `_next_q` of TD3: td3.py L70-94; `noise` draws the samples of the normal distribution and gives the clipping threshold. -/
def td3NextQ {d : ℕ} (value : (ι → ℝ) → S → (Fin d → ℝ) → ℝ) (act : (κ → ℝ) → S → Fin d → ℝ) (low high : Fin d → ℝ)
    (noise : M → M × ℝ × List (Fin d → ℝ)) (m : M) : M × (List (ι → ℝ) → (κ → ℝ) → List (Trans S (Fin d → ℝ)) → List ℝ) :=
  ((noise m).1, fun tcs ta batch => td3Next (tcs.map value) (act ta) (noise m).2.1 low high batch (noise m).2.2)

/-- The prediction of the model with index 0: td3.py L66. -/
def first (l : List ℝ) : ℝ := l.headD 0

/-! ### A2C -/

/-- State of an `A2C` agent: a2c.py L40-57. -/
structure A2c (M ι κ O : Type) where
  rng : M
  critic : List (Net ι O)
  policy : Net κ O
  entCoeff : Param

/-- A transition with the target of the critic and the advantage. -/
structure Estimate (S A : Type) where
  state : S
  action : A
  target : ℝ
  adv : ℝ

/-- What the agent is made of. -/
structure A2cSys (S A D M ι κ O : Type) where
  /-- `compute_advantage_montecarlo`, from the predictions of the critic -/
  estimates : (S → ℝ) → D → List (Estimate S A)
  minibatches : M → M × (ℕ → List (Estimate S A) → List (List (Estimate S A)))
  /-- prediction of one critic -/
  value : (ι → ℝ) → S → ℝ
  /-- prediction of an ensemble, from those of its models -/
  pick : List ℝ → ℝ
  loss : List (ℝ × ℝ) → ℝ
  logp : (κ → ℝ) → S → A → ℝ
  entropy : (κ → ℝ) → List S → ℝ
  gradPolicy : ((κ → ℝ) → ℝ) → (κ → ℝ) → κ → ℝ
  gradCritic : ((ι → ℝ) → ℝ) → (ι → ℝ) → ι → ℝ
  clip : (κ → ℝ) → κ → ℝ
  stepPolicy : O → (κ → ℝ) → (κ → ℝ) → O × (κ → ℝ)
  stepCritic : O → (ι → ℝ) → (ι → ℝ) → O × (ι → ℝ)

/-- `_compute_batch_loss` of the critic: torch_approximator.py L209-237. -/
def a2cCriticLoss (y : A2cSys S A D M ι κ O) (data : List (Estimate S A)) (w : ι → ℝ) : ℝ :=
  y.loss (data.map (fun p => (y.value w p.state, p.target)))

/-- `_fit_batch`: torch_approximator.py L200-207. -/
def a2cFitBatch (y : A2cSys S A D M ι κ O) (c : Net ι O) (data : List (Estimate S A)) : Net ι O :=
  ((c.zeroGrad).backward (y.gradCritic (a2cCriticLoss y data) c.weights)).step y.stepCritic

/-- `A2C._loss`: a2c.py L70-74. -/
def a2cPolicyLoss (y : A2cSys S A D M ι κ O) (coeff : ℝ) (data : List (Estimate S A)) (θ : κ → ℝ) : ℝ :=
  -meanOf (data.map (fun e => y.logp θ e.state e.action * e.adv)) + coeff * (-y.entropy θ (data.map Estimate.state))

/-- `A2C.fit`: a2c.py L59-68. -/
def a2cFit (y : A2cSys S A D M ι κ O) (g : A2c M ι κ O) (d : D) : A2c M ι κ O :=
  let data := y.estimates (fun s => y.pick (g.critic.map (fun c => y.value c.weights s))) d
  let mb := y.minibatches g.rng
  let critic := g.critic.mapIdx (fun j c => (mb.2 j data).foldl (a2cFitBatch y) c)
  let c := g.entCoeff.call []
  { rng := mb.1, critic := critic, entCoeff := c.1
    policy := (((g.policy.zeroGrad).backward (y.gradPolicy (a2cPolicyLoss y c.2 data) g.policy.weights)).clip y.clip).step y.stepPolicy }

/-- A sequence of calls of `fit`: the states reached, one per call. -/
def a2cRun (y : A2cSys S A D M ι κ O) (g : A2c M ι κ O) : List D → List (A2c M ι κ O)
  | [] => []
  | d :: ds => a2cFit y g d :: a2cRun y (a2cFit y g d) ds

end

end Verif.ActorCritic.Determ
