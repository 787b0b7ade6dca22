/-
Model of whole calls of `PPO.fit`.

Files: mushroom_rl/algorithms/actor_critic/deep_actor_critic/{ppo,deep_actor_critic}.py, mushroom_rl/core/agent.py (preprocessors),
mushroom_rl/utils/minibatches.py, mushroom_rl/rl_utils/{value_functions,parameters}.py.

The critic, its fit, the policy, its entropy, the optimiser, automatic differentiation and the random generator are arbitrary functions. The critic returns one
column (C135 treats the shapes). A dataset of `n` transitions is a function on indices, of which only those below `n` are meaningful.
-/
import Verif.ActorCritic.ModelSac
import Verif.ValueFn.Model
import Verif.Utils.Model

namespace Verif.ActorCritic.Proximal

open Verif.Policy (Param)
open Verif.ActorCritic.Soft (Net)
open Verif.Utils (batchIndexes)
open Verif.ValueFn (Data computeGae)

noncomputable section

variable {S A P V R κ O : Type}

/-- How a call fails: a number of epochs or a size of minibatches that is not an integer (TypeError in `range` or in the slices), a size that is not positive
(0 raises ZeroDivisionError; a negative one, for which no batch is made, is not modelled), or advantages that are NaN, which make the weights of the policy NaN
without an exception. -/
inductive Err
  | type
  | size
  | nan

/-- A transition of the dataset. -/
structure Row (S A : Type) where
  state : S
  action : A
  reward : ℝ
  next : S
  absorbing : Bool
  last : Bool

/-- State of a `PPO` agent: ppo.py L44-58. -/
structure Ppo (P V R κ O : Type) where
  pre : List P
  critic : V
  actor : Net κ O
  nEpochs : Param
  batchSize : Param
  eps : Param
  lam : Param
  ent : Param
  iter : ℕ
  rng : R

/-- What the agent is made of. -/
structure PpoSys (S A P V R κ O : Type) where
  /-- a preprocessor, applied to a state -/
  pre : P → S → S
  /-- `preprocessor.update(states)` -/
  upd : P → List S → P
  /-- prediction of the critic -/
  value : V → S → ℝ
  /-- `_V.fit(state, v_target, **critic_fit_params)` -/
  fitCritic : R → V → List (S × ℝ) → R × V
  /-- log-probability of an action, for the policy with these weights -/
  logp : (κ → ℝ) → S → A → ℝ
  /-- `entropy_t` of the policy with these weights -/
  entropy : (κ → ℝ) → List S → ℝ
  /-- gradient of a function of the weights of the policy -/
  grad : ((κ → ℝ) → ℝ) → (κ → ℝ) → κ → ℝ
  step : O → (κ → ℝ) → (κ → ℝ) → O × (κ → ℝ)
  /-- `np.random.shuffle` of the indices below `n` -/
  shuffle : R → ℕ → R × List ℕ
  gamma : ℝ

/-- `_agent_preprocess`: agent.py L189-202. -/
def preAll (y : PpoSys S A P V R κ O) (ps : List P) (s : S) : S := ps.foldl (fun s p => y.pre p s) s

/-- `_update_agent_preprocessor`: agent.py L204-215. -/
def updAll (y : PpoSys S A P V R κ O) : List P → List S → List P
  | [], _ => []
  | p :: ps, ss => y.upd p ss :: updAll y ps (if ps ≠ [] then ss.map (y.pre (y.upd p ss)) else ss)

/-- The arrays that `_update_policy` receives: ppo.py L94. -/
structure Arrays (S A : Type) where
  obs : ℕ → S
  act : ℕ → A
  adv : ℕ → ℝ
  old : ℕ → ℝ

/-- The loss of the minibatch with the rows `idx`, for the clipping bounds `1 - lo` and `1 + hi`: ppo.py L99-103. -/
def lossOf (y : PpoSys S A P V R κ O) (c : Arrays S A) (lo hi ent : ℝ) (idx : List ℕ) (θ : κ → ℝ) : ℝ :=
  let obs := idx.map c.obs
  let adv := idx.map c.adv
  let logp := List.zipWith (y.logp θ) obs (idx.map c.act)
  let ratio := (List.zipWith (fun l o => l - o) logp (idx.map c.old)).map Real.exp
  let clipped := ratio.map (fun r => min (max r (1 - lo)) (1 + hi))
  let loss := -meanOf (List.zipWith min (List.zipWith (· * ·) ratio adv) (List.zipWith (· * ·) clipped adv))
  loss - ent * y.entropy θ obs

/-- The body of the inner loop of `_update_policy`: ppo.py L98-105. The first bound calls the parameter, the second one reads it. -/
def batchStep (y : PpoSys S A P V R κ O) (c : Arrays S A) (g : Ppo P V R κ O) (idx : List ℕ) : Ppo P V R κ O :=
  let e := g.eps.call []
  let hi := e.1.getValue []
  let n := g.ent.call []
  { g with
    eps := e.1, ent := n.1
    actor := ((g.actor.zeroGrad).backward (y.grad (lossOf y c e.2 hi n.2 idx) g.actor.weights)).step y.step }

open Classical in
/-- The value of a parameter where Python needs an integer. The value of a constant is the number the user gave; those of the other parameters are floats, also
when they are whole numbers: parameters.py L75-88, L152, L186-188. Real numbers do not tell 3 from 3.0: a whole constant is taken for an integer. -/
def asInt (p : Param) (x : ℝ) : Option ℤ := if p.kind = .constant ∧ (∃ z : ℤ, (z : ℝ) = x) then some ⌊x⌋ else none

/-- One epoch of `_update_policy`: ppo.py L96-105. -/
def epoch (y : PpoSys S A P V R κ O) (c : Arrays S A) (n : ℕ) (g : Ppo P V R κ O) : Except Err (Ppo P V R κ O) :=
  let b := g.batchSize.call []
  match asInt b.1 b.2 with
  | none => .error .type
  | some z =>
    if 0 < z then
      let s := y.shuffle g.rng n
      .ok ((batchIndexes n z.toNat s.2).foldl (batchStep y c) { g with batchSize := b.1, rng := s.1 })
    else .error .size

/-- The outer loop of `_update_policy`: ppo.py L95. -/
def epochs (y : PpoSys S A P V R κ O) (c : Arrays S A) (n : ℕ) : ℕ → Ppo P V R κ O → Except Err (Ppo P V R κ O)
  | 0, g => .ok g
  | k + 1, g => match epoch y c n g with
    | .error e => .error e
    | .ok g => epochs y c n k g

/-- `_update_policy`: ppo.py L94-105. -/
def updatePolicy (y : PpoSys S A P V R κ O) (c : Arrays S A) (n : ℕ) (g : Ppo P V R κ O) : Except Err (Ppo P V R κ O) :=
  let e := g.nEpochs.call []
  match asInt e.1 e.2 with
  | none => .error .type
  | some z => epochs y c n z.toNat { g with nEpochs := e.1 }

/-- `PPO.fit` for a dataset of `n` transitions: ppo.py L73-92, with `_preprocess_state` (deep_actor_critic.py L6-19). `g0` is the content of the uninitialised
array of `compute_gae`. NaN advantages are reported before an exception of `_update_policy`. `_log_info` only prints. -/
def fit (y : PpoSys S A P V R κ O) (g0 : ℕ → ℝ) (g : Ppo P V R κ O) (n : ℕ) (d : ℕ → Row S A) : Except Err (Ppo P V R κ O) :=
  let stateOld := fun i => preAll y g.pre (d i).state
  let pre := updAll y g.pre ((List.range n).map (fun i => (d i).state))
  let state := fun i => preAll y pre (d i).state
  let next := fun i => preAll y pre (d i).next
  let lam := g.lam.call []
  let gae := computeGae ⟨fun i => (d i).reward, fun i => y.value g.critic (state i), fun i => y.value g.critic (next i),
    fun i => (d i).absorbing, fun i => (d i).last⟩ y.gamma lam.2 n g0
  match standardise ((List.range n).map gae.2) with
  | none => .error .nan
  | some adv =>
    let oldLogp := fun i => y.logp g.actor.weights (stateOld i) (d i).action
    let f := y.fitCritic g.rng g.critic ((List.range n).map (fun i => (state i, gae.1 i)))
    (updatePolicy y ⟨state, fun i => (d i).action, fun i => adv.getD i 0, oldLogp⟩ n { g with pre := pre, lam := lam.1, rng := f.1, critic := f.2 }).map
      (fun g => { g with iter := g.iter + 1 })

end

end Verif.ActorCritic.Proximal
