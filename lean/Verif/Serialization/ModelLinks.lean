/-
Model of which objects of an agent are shared, before saving and after loading.

File: mushroom_rl/core/serialization.py L38-140 and the constructors and `_post_load` methods cited below. A file keeps no identities: every attribute
that is saved is a copy of its own when it is loaded. Agents whose parts share what is learned (the function, the network, the distribution: "the learned
object" below) depend on `_post_load` to link the parts again. How an attribute is saved is taken from `Table.lean`.

Also: `TorchUtils.update_optimizer_parameters`, mushroom_rl/utils/torch.py L134-142.
-/
import Verif.Serialization.Spec
import Verif.Serialization.Table
import Mathlib.Logic.Function.Basic

namespace Verif.Serialization.Links

open Verif.Serialization.Table

/-- Who holds a reference: the agent, its policy, the first parameter group of the torch optimizer in an attribute of the agent, or the parameter of the
policy (`Mellowmax`). -/
inductive Owner where
  | agent | policy | group | parameter
deriving DecidableEq, Repr

/-- An attribute that refers to the learned object. -/
abbrev Slot := Owner × Attr

/-- What matters of an agent: its class and the one of the policy; all the attributes that refer to the learned object after the constructor; the
assignments in `_post_load`; through which attributes `fit` computes the gradient, writes, and clips gradients (if so configured), and those that
`draw_action` reads. -/
structure Learner where
  cls : Cls
  policyCls : Cls
  parameterCls : Cls := parameter
  slots : List Slot
  post : List (Slot × Slot)
  grads : Slot
  learns : Slot
  clips : Option Slot := none
  acts : List Slot

/-- How an attribute is saved, and whether with a '!'. The parameters in a group of an optimizer are saved with the optimizer. -/
def Learner.method (l : Learner) (s : Slot) : Option (Meth × Bool) :=
  let c := match s.1 with
    | .agent | .group => l.cls
    | .policy => l.policyCls
    | .parameter => l.parameterCls
  (c.registered.find? (·.1 = s.2)).bind fun r => r.2.1.map fun m => (m, r.2.2)

/-- What the attributes of a new agent refer to: all to the same location, which has the name of the first of them. -/
def Learner.built (l : Learner) (s : Slot) : Option Slot := if s ∈ l.slots then l.slots.head? else none

/-- What the attributes refer to after the loop over the attributes: a copy of their own, which has the name of the attribute, or nothing.
serialization.py L112-137. -/
def Learner.copies (full : Bool) (l : Learner) (s : Slot) : Option Slot :=
  if s ∈ l.slots then
    match l.method s with
    | some (m, bang) => if restored full m bang then some s else none
    | none => none
  else none

/-- Assignments. -/
def assign (ref : Slot → Option Slot) (post : List (Slot × Slot)) : Slot → Option Slot :=
  post.foldl (fun ref p => Function.update ref p.1 (ref p.2)) ref

/-- What the attributes refer to in a loaded agent. serialization.py L112-139. -/
def Learner.loaded (full : Bool) (l : Learner) : Slot → Option Slot := assign (l.copies full) l.post

variable {W B : Type}

/-- One `fit` with the data `b`: the contents of the locations afterwards. The gradient of the loss is left at the location from which the loss was
computed, so the optimizer changes the location `learns` only if it is the same one; without torch it always is. `upd b clipped w` are the new weights; the
gradient is clipped if the attribute given to the clipping function is that location too. `none`: an attribute is missing or `None`. -/
def fit (l : Learner) (ref : Slot → Option Slot) (upd : B → Bool → W → W) (h : Slot → W) (b : B) : Option (Slot → W) :=
  match ref l.grads, ref l.learns with
  | some g, some w =>
    match l.clips with
    | none => some (if g = w then Function.update h w (upd b false (h w)) else h)
    | some c => match ref c with
      | none => none
      | some p => some (if g = w then Function.update h w (upd b (decide (p = g)) (h w)) else h)
  | _, _ => none

/-- Several fits. -/
def fits (l : Learner) (ref : Slot → Option Slot) (upd : B → Bool → W → W) (h : Slot → W) : List B → Option (Slot → W)
  | [] => some h
  | b :: bs => (fit l ref upd h b).bind fun h' => fits l ref upd h' bs

/-- The weights with which the next action is drawn, for every attribute that `draw_action` reads. -/
def acting (l : Learner) (ref : Slot → Option Slot) (h : Slot → W) : Option (List W) := l.acts.mapM fun s => (ref s).map h

/-- A new agent with the weights `w`, after some fits. -/
def withoutSaving (l : Learner) (upd : B → Bool → W → W) (w : W) (bs : List B) : Option (List W) :=
  (fits l l.built upd (fun _ => w) bs).bind fun h => acting l l.built h

/-- The contents of the files: every attribute is written with the object that it refers to. serialization.py L77-116. -/
def written (l : Learner) (w : W) (h : Slot → W) (s : Slot) : W := match l.built s with
  | some loc => h loc
  | none => w

/-- The agent is saved after the fits `bs` and loaded; then come the fits `bs'`. The encoders give back what they were given. -/
def withSaving (full : Bool) (l : Learner) (upd : B → Bool → W → W) (w : W) (bs bs' : List B) : Option (List W) :=
  (fits l l.built upd (fun _ => w) bs).bind fun h =>
    (fits l (l.loaded full) upd (written l w h) bs').bind fun h' => acting l (l.loaded full) h'

/-! ### The agents -/

/-- A temporal difference agent. td.py L20-21, L49-50; draw_action of td_policy.py L83-89, L151. -/
def tdAgent (c p : Cls) : Learner where
  cls := c
  policyCls := p
  slots := [(.agent, .Q), (.policy, ._approximator)]
  post := [((.policy, ._approximator), (.agent, .Q))]
  grads := (.agent, .Q)
  learns := (.agent, .Q)
  acts := [(.policy, ._approximator)]

/-- A batch or deep Q-learning agent. batch_td.py L27-28, L37-38, abstract_dqn.py L64, L148-154. -/
def qAgent (c p : Cls) : Learner where
  cls := c
  policyCls := p
  slots := [(.agent, .approximator), (.policy, ._approximator)]
  post := [((.policy, ._approximator), (.agent, .approximator))]
  grads := (.agent, .approximator)
  learns := (.agent, .approximator)
  acts := [(.policy, ._approximator)]

/-- DDPG and TD3. ddpg.py L59, L65-69, L114-115, L141-143, deep_actor_critic.py L37-45, L70-91, L98-101. -/
def ddpgAgent (c p : Cls) : Learner where
  cls := c
  policyCls := p
  slots := [(.agent, ._actor_approximator), (.policy, ._approximator), (.agent, ._parameters), (.group, ._optimizer)]
  post := [((.agent, ._actor_approximator), (.policy, ._approximator)), ((.agent, ._parameters), (.agent, ._actor_approximator)),
    ((.group, ._optimizer), (.agent, ._parameters))]
  grads := (.agent, ._actor_approximator)
  learns := (.group, ._optimizer)
  clips := some (.agent, ._parameters)
  acts := [(.policy, ._approximator)]

/-- A2C and SAC, for the part `a` of the weights of the policy. a2c.py L52, L70-77, sac.py L226-230, L317-318, deep_actor_critic.py as above. -/
def deepAgent (c p : Cls) (a : Attr) : Learner where
  cls := c
  policyCls := p
  slots := [(.policy, a), (.agent, ._parameters), (.group, ._optimizer)]
  post := [((.agent, ._parameters), (.policy, a)), ((.group, ._optimizer), (.agent, ._parameters))]
  grads := (.policy, a)
  learns := (.group, ._optimizer)
  clips := some (.agent, ._parameters)
  acts := [(.policy, a)]

/-- PPO, with and without recurrence, for the part `a` of the weights of the policy. ppo.py L47, L89-98, L126-128, ppo_bptt.py L48, L169-171. -/
def ppoAgent (c p : Cls) (a : Attr) : Learner where
  cls := c
  policyCls := p
  slots := [(.policy, a), (.group, ._optimizer)]
  post := [((.group, ._optimizer), (.policy, a))]
  grads := (.policy, a)
  learns := (.group, ._optimizer)
  acts := [(.policy, a)]

/-- The entropy coefficient of SAC. sac.py L222-224, L284-291, L319-328. -/
def sacAlpha : Learner where
  cls := sac
  policyCls := sACPolicy
  slots := [(.agent, ._log_alpha), (.group, ._alpha_optim)]
  post := [((.group, ._alpha_optim), (.agent, ._log_alpha))]
  grads := (.agent, ._log_alpha)
  learns := (.group, ._alpha_optim)
  acts := [(.agent, ._log_alpha)]

/-- A torch approximator on its own; here the approximator is the "agent". torch_approximator.py L52, L58-59, L313-315. -/
def torchFit (c : Cls) : Learner where
  cls := c
  policyCls := policy
  slots := [(.agent, .network), (.group, ._optimizer)]
  post := [((.group, ._optimizer), (.agent, .network))]
  grads := (.agent, .network)
  learns := (.group, ._optimizer)
  acts := [(.agent, .network)]

/-- Agents that read and write the weights of the policy directly. stochastic_ac.py L83-85, policy_gradient.py L55-66, trpo.py L153-185. -/
def directAgent (c p : Cls) (a : Attr) : Learner where
  cls := c
  policyCls := p
  slots := [(.policy, a)]
  post := []
  grads := (.policy, a)
  learns := (.policy, a)
  acts := [(.policy, a)]

/-- Agents that draw the weights of the policy from a distribution. black_box_optimization.py L31, L46-57. -/
def blackBoxAgent (c : Cls) : Learner where
  cls := c
  policyCls := policy
  slots := [(.agent, .distribution)]
  post := []
  grads := (.agent, .distribution)
  learns := (.agent, .distribution)
  acts := [(.agent, .distribution)]

/-- The compatible deterministic actor critic; `a` is the attribute of the policy for the mean. copdac_q.py L33, L84-85; it has no `_post_load`. -/
def copdacAgent (p : Cls) (a : Attr) : Learner where
  cls := copdac_q
  policyCls := p
  slots := [(.agent, ._mu), (.policy, a)]
  post := []
  grads := (.agent, ._mu)
  learns := (.agent, ._mu)
  acts := [(.policy, a)]

/-- ePPO. eppo.py L26, L62-67; black_box_optimization.py L52-57; it has no `_post_load`. -/
def ePPOAgent : Learner where
  cls := ePPO
  policyCls := policy
  slots := [(.agent, .distribution), (.group, ._optimizer)]
  post := []
  grads := (.agent, .distribution)
  learns := (.group, ._optimizer)
  acts := [(.agent, .distribution)]

/-- An agent with a `Mellowmax` policy, whose parameter keeps a reference to the policy and evaluates the function of that one too;
`q` is the attribute of the agent for the function. td_policy.py L182-197, L133-148. -/
def mellowmaxAgent (c : Cls) (q : Attr) : Learner where
  cls := c
  policyCls := mellowmax
  parameterCls := mellowmaxParameter
  slots := [(.agent, q), (.policy, ._approximator), (.parameter, ._outer)]
  post := [((.policy, ._approximator), (.agent, q))]
  grads := (.agent, q)
  learns := (.agent, q)
  acts := [(.policy, ._approximator), (.parameter, ._outer)]

/-- The classes of agents. -/
def tdClasses : List Cls := [doubleQLearning, expectedSARSA, maxminQLearning, qLambda, qLearning, rLearning, rQLearning, sarsa, sARSALambda,
  sARSALambdaContinuous, speedyQLearning, trueOnlineSARSALambda, weightedQLearning]
def qClasses : List Cls := [boostedFQI, doubleFQI, fqi, lspi, averagedDQN, categoricalDQN, doubleDQN, dqn, duelingDQN, maxminDQN, noisyDQN,
  quantileDQN, rainbow]
/-- The attributes for the weights of policies with a torch network. torch_policy.py L193-204, L236-237, L264-274, L300-301. -/
def torchPolicies : List (Cls × Attr) := [(gaussianTorchPolicy, ._mu), (gaussianTorchPolicy, ._log_sigma), (boltzmannTorchPolicy, ._logits)]
/-- The policies for DDPG. -/
def actorPolicies : List Cls := [deterministicPolicy, gaussianPolicy, diagonalGaussianPolicy, ornsteinUhlenbeckPolicy, clippedGaussianPolicy]
/-- The policies with weights and without torch. -/
def weightPolicies : List (Cls × Attr) := [(deterministicPolicy, ._approximator), (gaussianPolicy, ._approximator),
  (diagonalGaussianPolicy, ._approximator), (stateStdGaussianPolicy, ._mu_approximator), (stateStdGaussianPolicy, ._std_approximator),
  (stateLogStdGaussianPolicy, ._mu_approximator), (stateLogStdGaussianPolicy, ._log_std_approximator)]

/-- The attribute of those policies for the mean, which is what COPDAC_Q shares with the policy. -/
def meanPolicies : List (Cls × Attr) := [(deterministicPolicy, ._approximator), (gaussianPolicy, ._approximator), (diagonalGaussianPolicy, ._approximator),
  (stateStdGaussianPolicy, ._mu_approximator), (stateLogStdGaussianPolicy, ._mu_approximator)]

/-- The agents that are linked again. -/
def linkedAgents : List Learner :=
  (tdClasses.flatMap fun c => [epsGreedy, boltzmann].map (tdAgent c)) ++
  (qClasses.flatMap fun c => [epsGreedy, boltzmann].map (qAgent c)) ++
  ([ddpg, td3].flatMap fun c => actorPolicies.map (ddpgAgent c)) ++
  (torchPolicies.map fun p => deepAgent a2c p.1 p.2) ++
  [deepAgent sac sACPolicy ._mu_approximator, deepAgent sac sACPolicy ._sigma_approximator, sacAlpha] ++
  (torchPolicies.map fun p => ppoAgent ppo p.1 p.2) ++
  [ppoAgent ppo_bptt recurrentGaussianTorchPolicy ._mu, ppoAgent ppo_bptt recurrentGaussianTorchPolicy ._log_sigma] ++
  [torchFit torchApproximator, torchFit numpyTorchApproximator] ++
  (torchPolicies.map fun p => directAgent trpo p.1 p.2) ++
  ([stochasticAC, stochasticAC_AVG, reinforce, gpomdp, eNAC].flatMap fun c => weightPolicies.map fun p => directAgent c p.1 p.2) ++
  [constrainedREPS, more, pgpe, reps, rwr].map blackBoxAgent

/-! ### Optimizers -/

/-- A torch optimizer with one group of parameters: the parameters, and the dictionary `state` (a `defaultdict`), in which a parameter without an
entry has the empty state. -/
structure Optim (P S : Type) where
  params : List P
  state : P → Option S

/-- `data = state[old]; del state[old]; state[new] = data`, for the pairs in `zip`; `empty` is the value that a `defaultdict` makes. torch.py L137-140. -/
def moveState {P S : Type} [DecidableEq P] (empty : S) : List (P × P) → (P → Option S) → P → Option S
  | [], st => st
  | (old, new) :: l, st =>
    let data := (st old).getD empty
    moveState empty l (Function.update (Function.update st old none) new (some data))

/-- `update_optimizer_parameters`. torch.py L134-142; `isEmpty` is whether the dictionary is empty. -/
def Optim.update {P S : Type} [DecidableEq P] (empty : S) (isEmpty : Bool) (o : Optim P S) (new : List P) : Optim P S :=
  { params := new, state := if isEmpty then o.state else moveState empty (o.params.zip new) o.state }

/-- One `step`: every parameter with a gradient gets new weights and a new state from `rule`. -/
def Optim.step {P S W G : Type} [DecidableEq P] (empty : S) (rule : G → W → S → W × S) (o : Optim P S) (grad : P → Option G) (h : P → W) :
    Optim P S × (P → W) :=
  o.params.foldl (fun (acc : Optim P S × (P → W)) p => match grad p with
    | none => acc
    | some g =>
      let r := rule g (acc.2 p) ((acc.1.state p).getD empty)
      ({ acc.1 with state := Function.update acc.1.state p (some r.2) }, Function.update acc.2 p r.1)) (o, h)

end Verif.Serialization.Links
