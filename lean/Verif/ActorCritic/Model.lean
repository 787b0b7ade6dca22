/-
Model of the deep actor-critic agents.

Files: mushroom_rl/algorithms/actor_critic/deep_actor_critic/{deep_actor_critic,ddpg,td3,sac,trpo,ppo,a2c}.py.

Floating point numbers are real numbers; data types are not modelled. Networks are opaque functions of their weights,
which are vectors of reals. Optimisers (torch) are arbitrary functions. The replay memory is an arbitrary state machine
that contains the random generator.
-/
import Verif.DQN.Model
import Verif.Policy.Model
import Mathlib.Analysis.SpecialFunctions.Trigonometric.DerivHyp
import Mathlib.LinearAlgebra.Matrix.DotProduct
import Mathlib.Data.Real.Sqrt

namespace Verif.ActorCritic

open Verif.TD (Trans)
open Verif.DQN (alive)
open Verif.Policy (Param)

noncomputable section

variable {S A : Type}

/-! ### Target networks: deep_actor_critic.py -/

section weights

variable {ι : Type}

/-- `_init_target`: deep_actor_critic.py L87-90. A regressor is the list of its models (one, or those of an ensemble); the
loop runs over the models of the target. -/
def initTarget : List (ι → ℝ) → List (ι → ℝ) → List (ι → ℝ)
  | o :: os, _ :: ts => o :: initTarget os ts
  | _, ts => ts

/-- `_update_target`: deep_actor_critic.py L92-96. `self._tau()` advances the scheduled coefficient once per model; the
second read uses `get_value`. -/
def updateTarget (tau : Param) : List (ι → ℝ) → List (ι → ℝ) → Param × List (ι → ℝ)
  | o :: os, t :: ts =>
    let c := tau.call []
    let w := fun i => c.2 * o i + (1 - c.1.getValue []) * t i
    let rest := updateTarget c.1 os ts
    (rest.1, w :: rest.2)
  | _, ts => (tau, ts)

end weights

/-! ### Targets of the critic -/

/-- `q *= 1 - absorbing`: ddpg.py L137, td3.py L92, sac.py L313. -/
def mask (batch : List (Trans S A)) (q : List ℝ) : List ℝ := List.zipWith (fun t v => v * alive t.absorbing) batch q

/-- `q = reward + self.mdp_info.gamma * q_next`: ddpg.py L102, sac.py L277. -/
def bellman (γ : ℝ) (batch : List (Trans S A)) (qNext : List ℝ) : List ℝ :=
  List.zipWith (fun t v => t.reward + γ * v) batch qNext

/-- `DDPG._next_q`: ddpg.py L134-139; `critic` and `actor` are the predictions of the target networks. -/
def ddpgNext (critic : S → A → ℝ) (actor : S → A) (batch : List (Trans S A)) : List ℝ :=
  mask batch (batch.map (fun t => critic t.next (actor t.next)))

/-- `np.clip(x, lo, hi)`. -/
def clip (x lo hi : ℝ) : ℝ := min (max x lo) hi

/-- The smoothed action of `TD3._next_q`: td3.py L84-88; `eps` is the sample of the normal distribution. -/
def smooth {d : ℕ} (noiseClip : ℝ) (low high a eps : Fin d → ℝ) : Fin d → ℝ :=
  fun j => clip (a j + clip (eps j) (-noiseClip) noiseClip) (low j) (high j)

/-- The prediction `'min'` of an ensemble: ensemble.py L74-103. -/
def minOf : List ℝ → ℝ
  | [] => 0
  | [x] => x
  | x :: y :: l => min x (minOf (y :: l))

/-- `TD3._next_q`: td3.py L82-94. `eps` has one sample per transition, `critics` the predictions of the models. -/
def td3Next {d : ℕ} (critics : List (S → (Fin d → ℝ) → ℝ)) (actor : S → Fin d → ℝ) (noiseClip : ℝ)
    (low high : Fin d → ℝ) (batch : List (Trans S A)) (eps : List (Fin d → ℝ)) : List ℝ :=
  mask batch (List.zipWith (fun t e =>
    minOf (critics.map (fun c => c t.next (smooth noiseClip low high (actor t.next) e)))) batch eps)

/-- `SAC._next_q`: sac.py L310-315; `samples` holds, for every transition, the action and the log-probability returned by the
policy in the next state. `_alpha` is the exponential of `_log_alpha`: sac.py L325-327. -/
def sacNext {B : Type} (critics : List (S → B → ℝ)) (logAlpha : ℝ) (batch : List (Trans S A)) (samples : List (B × ℝ)) :
    List ℝ :=
  mask batch (List.zipWith (fun t s =>
    minOf (critics.map (fun c => c t.next s.1)) - Real.exp logAlpha * s.2) batch samples)

/-! ### DDPG and TD3: the fit -/

/-- State of a `DDPG` or `TD3` agent: ddpg.py L56-78. -/
structure Ddpg (M ι κ : Type) where
  memory : M
  critic : List (ι → ℝ)
  targetCritic : List (ι → ℝ)
  actor : List (κ → ℝ)
  targetActor : List (κ → ℝ)
  tau : Param
  fitCount : ℕ

/-- What the agent is made of. `policy_delay` is a constant parameter. -/
structure DdpgSys (S A D M ι κ : Type) where
  /-- `_replay_memory.add(dataset)` -/
  add : M → D → M
  /-- `_replay_memory.initialized` -/
  initialized : M → Bool
  /-- `_replay_memory.get(batch_size)` -/
  get : M → M × List (Trans S A)
  /-- `_next_q`, from the weights of the target critic and of the target actor; the noise comes with the memory -/
  nextQ : M → List (ι → ℝ) → List (κ → ℝ) → List (Trans S A) → List ℝ
  /-- `_critic_approximator.fit(state, action, q)` -/
  fitCritic : M → List (ι → ℝ) → List (Trans S A) → List ℝ → List (ι → ℝ)
  /-- `_optimize_actor_parameters(self._loss(state))` -/
  fitActor : M → List (κ → ℝ) → List (ι → ℝ) → List (Trans S A) → List (κ → ℝ)
  gamma : ℝ
  /-- `policy_delay` -/
  delay : ℕ

variable {D M ι κ : Type}

/-- `DDPG.__init__`: ddpg.py L56-65, L74-78: the target networks are copies of the online networks. `tc` and `ta` are the freshly
built target networks. -/
def ddpgInit (m : M) (critic tc : List (ι → ℝ)) (actor ta : List (κ → ℝ)) (tau : Param) : Ddpg M ι κ :=
  { memory := m, critic := critic, targetCritic := initTarget critic tc, actor := actor
    targetActor := initTarget actor ta, tau := tau, fitCount := 0 }

/-- One update, after `_replay_memory.initialized`: ddpg.py L99-113. `none` is the ZeroDivisionError for `policy_delay = 0`. -/
def ddpgUpdate (y : DdpgSys S A D M ι κ) (g : Ddpg M ι κ) : Option (Ddpg M ι κ) :=
  let b := y.get g.memory
  let q := bellman y.gamma b.2 (y.nextQ b.1 g.targetCritic g.targetActor b.2)
  let critic := y.fitCritic b.1 g.critic b.2 q
  if y.delay = 0 then none
  else
    let actor := if g.fitCount % y.delay = 0 then y.fitActor b.1 g.actor critic b.2 else g.actor
    let uc := updateTarget g.tau critic g.targetCritic
    let ua := updateTarget uc.1 actor g.targetActor
    some { memory := b.1, critic := critic, targetCritic := uc.2, actor := actor, targetActor := ua.2, tau := ua.1
           fitCount := g.fitCount + 1 }

/-- `DDPG.fit`: ddpg.py L96-113. -/
def ddpgFit (y : DdpgSys S A D M ι κ) (g : Ddpg M ι κ) (d : D) : Option (Ddpg M ι κ) :=
  let m := y.add g.memory d
  if y.initialized m then ddpgUpdate y { g with memory := m } else some { g with memory := m }

/-- A sequence of calls of `fit`: the states reached, one per call. -/
def ddpgRun (y : DdpgSys S A D M ι κ) (g : Ddpg M ι κ) : List D → Option (List (Ddpg M ι κ))
  | [] => some []
  | d :: ds => (ddpgFit y g d).bind (fun g' => (ddpgRun y g' ds).map (fun l => g' :: l))

/-! ### SAC: the policy and the temperature -/

/-- `SACPolicy.__init__` and the action of `compute_action_and_log_prob_t`: sac.py L44-45, L97-98; `raw` is the sample of the
normal distribution. -/
def squash {d : ℕ} (minA maxA raw : Fin d → ℝ) : Fin d → ℝ :=
  fun j => Real.tanh (raw j) * ((1 / 2) * (maxA j - minA j)) + (1 / 2) * (maxA j + minA j)

/-- `torch.distributions.Normal(mu, sigma).log_prob(x)`. -/
def normalLogProb (mu sigma x : ℝ) : ℝ :=
  -((x - mu) ^ 2) / (2 * sigma ^ 2) - Real.log sigma - Real.log (Real.sqrt (2 * Real.pi))

/-- `distribution`: the standard deviations, sac.py L118-122. -/
def sacSigma {d : ℕ} (logMin logMax : ℝ) (logSigma : Fin d → ℝ) : Fin d → ℝ :=
  fun j => Real.exp (clip (logSigma j) logMin logMax)

/-- The log-probability of `compute_action_and_log_prob_t`: sac.py L101-102; `eps` is `_eps_log_prob`. -/
def sacLogProb {d : ℕ} (eps : ℝ) (mu sigma raw : Fin d → ℝ) : ℝ :=
  (∑ j, normalLogProb (mu j) (sigma j) (raw j)) - ∑ j, Real.log (1 - Real.tanh (raw j) ^ 2 + eps)

/-- Mean of a list. -/
def meanOf (l : List ℝ) : ℝ := l.sum / (l.length : ℝ)

/-- `_update_alpha`: the loss as a function of `_log_alpha`, sac.py L292-295. -/
def alphaLoss (useLog : Bool) (targetEntropy : ℝ) (logProbs : List ℝ) (logAlpha : ℝ) : ℝ :=
  if useLog then -meanOf (logProbs.map (fun l => logAlpha * (l + targetEntropy)))
  else -meanOf (logProbs.map (fun l => Real.exp logAlpha * (l + targetEntropy)))

/-- `target_entropy=None`: sac.py L218-221, for an action space with `d` components. -/
def defaultEntropy (d : ℕ) : ℝ := -(d : ℝ)

/-! ### TRPO -/

section trpo

variable {n : ℕ}

open Matrix

/-- Variables of `_conjugate_gradient`: trpo.py L134-137. `b.detach()` shares the storage of `b`, so `p`, `r` and the argument `b`
are one storage until line 146 rebinds `p`. `store` is that storage, `p = none` means that `p` still is the same storage. -/
structure Cg (n : ℕ) where
  store : Fin n → ℝ
  p : Option (Fin n → ℝ)
  x : Fin n → ℝ
  r2 : ℝ

/-- trpo.py L134-137. -/
def cgInit (b : Fin n → ℝ) : Cg n := { store := b, p := none, x := 0, r2 := b ⬝ᵥ b }

/-- What `p` reads. -/
def Cg.dir (c : Cg n) : Fin n → ℝ := match c.p with
  | none => c.store
  | some p => p

/-- The body of the loop: trpo.py L140-148. `F` is the Fisher matrix plus damping (`_fisher_vector_product`), `r -= v * z` writes
the storage in place. -/
def cgStep (F : Matrix (Fin n) (Fin n) ℝ) (c : Cg n) : Cg n :=
  let z := F *ᵥ c.dir
  let v := c.r2 / (c.dir ⬝ᵥ z)
  let x := c.x + v • c.dir
  let c := { c with x := x, store := c.store - v • z }
  let r2New := c.store ⬝ᵥ c.store
  let mu := r2New / c.r2
  { c with p := some (c.store + mu • c.dir), r2 := r2New }

/-- The loop: trpo.py L139-150. -/
def cgLoop (F : Matrix (Fin n) (Fin n) ℝ) (tol : ℝ) : ℕ → Cg n → Cg n
  | 0, c => c
  | k + 1, c =>
    let c' := cgStep F c
    if c'.r2 < tol then c' else cgLoop F tol k c'

/-- `_conjugate_gradient`: trpo.py L133-151. Returns the result and what the argument `b` holds afterwards. -/
def conjugateGradient (F : Matrix (Fin n) (Fin n) ℝ) (tol : ℝ) (iters : ℕ) (b : Fin n → ℝ) :
    (Fin n → ℝ) × (Fin n → ℝ) :=
  let c := cgLoop F tol iters (cgInit b)
  (c.x, c.store)

/-- `full_step`: trpo.py L155-158. -/
def fullStep (F : Matrix (Fin n) (Fin n) ℝ) (maxKl : ℝ) (dir : Fin n → ℝ) : Fin n → ℝ :=
  let shs := (1 / 2) * (dir ⬝ᵥ (F *ᵥ dir))
  let lm := Real.sqrt (shs / maxKl)
  (1 / lm) • dir

/-- `x <= y` where `x` may be NaN (`none`). -/
def nanLe : Option ℝ → ℝ → Prop
  | none, _ => False
  | some x, y => x ≤ y

/-- `x >= y` where `x` may be NaN (`none`). -/
def nanGe : Option ℝ → ℝ → Prop
  | none, _ => False
  | some x, y => y ≤ x

/-- The loop of the line search: trpo.py L167-180. `loss` and `kl` are the surrogate and the divergence as functions of the policy
weights, `none` for NaN. Returns the weights the policy is left with. -/
def searchLoop (loss kl : (Fin n → ℝ) → Option ℝ) (prev maxKl : ℝ) (old full : Fin n → ℝ) :
    ℕ → ℝ → (Fin n → ℝ)
  | 0, _ => old
  | k + 1, stepsize =>
    let new := old + stepsize • full
    open Classical in
    if nanLe (kl new) (maxKl * (3 / 2)) ∧ nanGe ((loss new).map (· - prev)) 0 then new
    else searchLoop loss kl prev maxKl old full k (stepsize * (1 / 2))

/-- `_line_search`: trpo.py L153-180. -/
def lineSearch (F : Matrix (Fin n) (Fin n) ℝ) (loss kl : (Fin n → ℝ) → Option ℝ) (prev maxKl : ℝ) (iters : ℕ)
    (old dir : Fin n → ℝ) : Fin n → ℝ :=
  searchLoop loss kl prev maxKl old (fullStep F maxKl dir) iters 1

end trpo

/-! ### PPO, A2C -/

/-- `torch.clamp(ratio, 1 - eps, 1 + eps)`: ppo.py L101. -/
def clampRatio (eps ratio : ℝ) : ℝ := min (max ratio (1 - eps)) (1 + eps)

/-- One sample of the surrogate: `torch.min(prob_ratio * adv_i, clipped_ratio * adv_i)`: ppo.py L102. -/
def surrogate (eps ratio adv : ℝ) : ℝ := min (ratio * adv) (clampRatio eps ratio * adv)

/-- A sample of the minibatch: new and old log-probability, advantage. -/
structure Sample where
  logp : ℝ
  oldLogp : ℝ
  adv : ℝ

/-- `prob_ratio`: ppo.py L100. -/
def Sample.ratio (s : Sample) : ℝ := Real.exp (s.logp - s.oldLogp)

/-- The loss of a minibatch: ppo.py L102-103, ppo_bptt.py L157-162. -/
def ppoLoss (eps entCoeff entropy : ℝ) (batch : List Sample) : ℝ :=
  -meanOf (batch.map (fun s => surrogate eps s.ratio s.adv)) - entCoeff * entropy

/-- `_compute_loss` of TRPO: trpo.py L186-190. -/
def trpoLoss (entCoeff entropy : ℝ) (batch : List Sample) : ℝ :=
  meanOf (batch.map (fun s => s.ratio * s.adv)) + entCoeff * entropy

/-- `_loss` of A2C: a2c.py L70-74. -/
def a2cLoss (entCoeff entropy : ℝ) (batch : List Sample) : ℝ :=
  -meanOf (batch.map (fun s => s.logp * s.adv)) + entCoeff * (-entropy)

/-- `torch.std`: the unbiased standard deviation; `none` (NaN) for fewer than two values. -/
def torchStd (l : List ℝ) : Option ℝ :=
  if l.length < 2 then none
  else some (Real.sqrt ((l.map (fun x => (x - meanOf l) ^ 2)).sum / ((l.length : ℝ) - 1)))

/-- `adv = (adv - torch.mean(adv)) / (torch.std(adv) + 1e-8)`: ppo.py L79, trpo.py L90. -/
def standardise (l : List ℝ) : Option (List ℝ) :=
  (torchStd l).map (fun s => l.map (fun x => (x - meanOf l) / (s + 1 / 100000000)))

end

end Verif.ActorCritic
