/-
Model of what a logger given with `set_logger` does while an agent learns.

Files: mushroom_rl/core/agent.py (set_logger), mushroom_rl/algorithms/actor_critic/deep_actor_critic/{ppo,trpo,ppo_bptt}.py (_log_info),
mushroom_rl/algorithms/value/dqn/abstract_dqn.py (set_logger), mushroom_rl/approximators/regressor.py (set_logger, _log, __len__),
mushroom_rl/approximators/{ensemble.py,parametric/torch_approximator.py} (predict with `idx`), mushroom_rl/core/logger/data_logger.py (log_numpy).

A message is the record of the numbers that are printed. Formatting and the console are in Misc/ModelConsole.lean.
-/
import Verif.ActorCritic.ModelTRPO
import Verif.Approx.ModelRegressor
import Verif.DQN.Model

namespace Verif.Logging

open Verif.ActorCritic (meanOf)
open Verif.ActorCritic.Proximal (Row preAll updAll Ppo)
open Verif.ActorCritic.Trust (TrpoSys Trpo)
open Verif.ValueFn (computeGae)

noncomputable section

/-- The exceptions of the logging code. -/
inductive LogErr
  | type
  | index
  deriving DecidableEq

/-- How a call of `fit` ends: with an exception of the algorithm, with an exception of the logging code, which leaves the agent in the given state, or well, with
the message that was logged. -/
inductive Outcome (E G Msg : Type) where
  | failed (e : E)
  | raised (e : LogErr) (g : G)
  | done (g : G) (msg : Option Msg)

/-- The numbers printed by `_log_info`: ppo.py L120-121, trpo.py L207-208. -/
structure Message where
  iteration : ℕ
  rewards : ℝ
  vfLoss : List ℝ
  entropy : ℝ
  kl : ℝ

section critic

variable {S A P V R κ O : Type} [Fintype κ]

/-- A critic: `n_models`, whether the network of a critic without `n_models` accepts the keyword `idx`, and the prediction of one model. -/
structure Critic (V S : Type) where
  nModels : Option ℕ
  acceptsIdx : Bool
  value : V → ℕ → S → ℝ

/-- `self._V(x, idx=idx)`. Without `n_models` the keyword goes through `GenericRegressor.predict` and `TorchApproximator.predict` to the network
(regressor.py L129-138, generic_regressor.py L41-54, torch_approximator.py L87-88); an ensemble takes the model of this number (ensemble.py L75-92). -/
def predictIdx (c : Critic V S) (v : V) (idx : ℕ) : Except LogErr (S → ℝ) :=
  match c.nModels with
  | none => if c.acceptsIdx then .ok (c.value v 0) else .error .type
  | some n => if idx < n then .ok (c.value v idx) else .error .index

/-- `F.mse_loss(v_pred, v_target)`. -/
def mse (pred target : List ℝ) : ℝ := meanOf (List.zipWith (fun p t => (p - t) ^ 2) pred target)

/-- The loop over the models: ppo.py L111-114, trpo.py L196-199; `len(self._V)`: regressor.py L230-231. -/
def valueErrors (c : Critic V S) (v : V) (x : List S) (target : List ℝ) : Except LogErr (List ℝ) :=
  (List.range (Approx.Reg.len c.nModels)).mapM fun idx => do
    let f ← predictIdx c v idx
    return mse (x.map f) target

/-- The states of the dataset as these preprocessors show them. -/
def statesOf (y : TrpoSys S A P V R κ O) (pre : List P) (n : ℕ) (d : ℕ → Row S A) : List S := (List.range n).map fun i => preAll y.toPpoSys pre (d i).state

/-- `v_target`: ppo.py L77-82, trpo.py L88-93. -/
def targetsOf (y : TrpoSys S A P V R κ O) (g0 : ℕ → ℝ) (critic : V) (pre : List P) (lam : ℝ) (n : ℕ) (d : ℕ → Row S A) : List ℝ :=
  (List.range n).map (computeGae ⟨fun i => (d i).reward, fun i => y.value critic (preAll y.toPpoSys pre (d i).state),
    fun i => y.value critic (preAll y.toPpoSys pre (d i).next), fun i => (d i).absorbing, fun i => (d i).last⟩ y.gamma lam n g0).1

/-- `fit` of an agent with or without logger: the message is made after everything has been updated and before `_iter` is incremented (ppo.py L90-92,
trpo.py L118-121). `fit` is the result of the call without logger, `before` takes the increment back. -/
def withLog {E G Msg : Type} (logger : Bool) (fit : Except E G) (before : G → G) (info : G → Except LogErr Msg) : Outcome E G Msg :=
  match fit with
  | .error e => .failed e
  | .ok g => if logger then match info (before g) with
      | .error e => .raised e (before g)
      | .ok m => .done g (some m)
    else .done g none

/-- `PPO._log_info`: ppo.py L107-124, for the agent `g` before the call and `g'` after the updates. `ret` is the mean undiscounted return of the dataset. The
divergence is that of the old policy from the NEW one. -/
def ppoInfo (y : TrpoSys S A P V R κ O) (c : Critic V S) (ret : (ℕ → Row S A) → ℕ → ℝ) (g0 : ℕ → ℝ) (g : Ppo P V R κ O) (n : ℕ) (d : ℕ → Row S A)
    (g' : Ppo P V R κ O) : Except LogErr Message := do
  let x := statesOf y g'.pre n d
  let errs ← valueErrors c g'.critic x (targetsOf y g0 g.critic g'.pre (g.lam.call []).2 n d)
  return { iteration := g'.iter, rewards := ret d n, vfLoss := errs, entropy := y.entropy g'.actor.weights x
           kl := y.kl g'.actor.weights x g.actor.weights (statesOf y g.pre n d) }

/-- `PPO.fit` with its logger: ppo.py L73-92. -/
def ppoFit (y : TrpoSys S A P V R κ O) (c : Critic V S) (ret : (ℕ → Row S A) → ℕ → ℝ) (logger : Bool) (g0 : ℕ → ℝ) (g : Ppo P V R κ O) (n : ℕ)
    (d : ℕ → Row S A) : Outcome ActorCritic.Proximal.Err (Ppo P V R κ O) Message :=
  withLog logger (ActorCritic.Proximal.fit y.toPpoSys g0 g n d) (fun g' => { g' with iter := g.iter }) (ppoInfo y c ret g0 g n d)

/-- `TRPO._log_info`: trpo.py L192-211. The divergence is that of the new policy from the OLD one. -/
def trpoInfo (y : TrpoSys S A P V R κ O) (c : Critic V S) (ret : (ℕ → Row S A) → ℕ → ℝ) (g0 : ℕ → ℝ) (g : Trpo P V R κ) (n : ℕ) (d : ℕ → Row S A)
    (g' : Trpo P V R κ) : Except LogErr Message := do
  let x := statesOf y g'.pre n d
  let errs ← valueErrors c g'.critic x (targetsOf y g0 g.critic g'.pre (g.lam.call []).2 n d)
  return { iteration := g'.iter, rewards := ret d n, vfLoss := errs, entropy := y.entropy g'.weights x
           kl := y.kl g.weights (statesOf y g.pre n d) g'.weights x }

/-- `TRPO.fit` with its logger: trpo.py L84-121. -/
def trpoFit (y : TrpoSys S A P V R κ O) (c : Critic V S) (ret : (ℕ → Row S A) → ℕ → ℝ) (logger : Bool) (g0 : ℕ → ℝ) (g : Trpo P V R κ) (n : ℕ)
    (d : ℕ → Row S A) : Outcome ActorCritic.Proximal.Err (Trpo P V R κ) Message :=
  withLog logger (ActorCritic.Trust.fit y g0 g n d) (fun g' => { g' with iter := g.iter }) (trpoInfo y c ret g0 g n d)

end critic

/-! ### Runs -/

/-- A sequence of calls: the agents after each call that returned, the messages, and the exception that ended the sequence with the state it left. -/
structure Trail (E G Msg : Type) where
  agents : List G
  messages : List Msg
  stop : Option (E ⊕ LogErr × G)

/-- Calls of `fit`, until one raises. -/
def calls {E G D Msg : Type} (f : G → D → Outcome E G Msg) : G → List D → Trail E G Msg
  | _, [] => ⟨[], [], none⟩
  | g, d :: ds => match f g d with
    | .failed e => ⟨[], [], some (.inl e)⟩
    | .raised e g' => ⟨[], [], some (.inr (e, g'))⟩
    | .done g' m => let t := calls f g' ds
      ⟨g' :: t.agents, m.toList ++ t.messages, t.stop⟩

/-! ### DQN -/

section dqn

variable {S A D M W T L : Type}

/-- A regressor with the logger that `AbstractDQN.set_logger` gives to it (abstract_dqn.py L156-165, regressor.py L239-249): its networks, and the rows of the file of
losses. -/
structure Logged (W L : Type) where
  net : W
  file : List L

/-- The agent with a logger: `approximator.fit` ends with `_log`, which appends the losses of the models (regressor.py L100-115, L251-269); the target networks
have no logger. `losses` reads the losses of the last fit. -/
def loggedSys (y : DQN.Sys S A D M W T) (losses : W → L) : DQN.Sys S A D M (Logged W L) T where
  add := y.add
  initialized := y.initialized
  get := y.get
  targets w t b := y.targets w.net t b
  update m b w q := y.update m b w.net q
  fitNet m w b q :=
    let net := y.fitNet m w.net b q
    ⟨net, w.file ++ [losses net]⟩
  sync n w t := y.sync n w.net t
  freq := y.freq

/-- `AbstractDQN.fit` with a logger made with or without a directory: without one, `self._results_dir / filename` is a TypeError (data_logger.py L50-51, logger.py
L45-51), after the network has been fitted and before `_n_updates` is incremented. abstract_dqn.py L83-88. -/
def dqnFit (y : DQN.Sys S A D M W T) (losses : W → L) (directory : Bool) (g : DQN.Agent M (Logged W L) T) (d : D) :
    Outcome Unit (DQN.Agent M (Logged W L) T) Unit :=
  if y.initialized (y.add g.memory d) ∧ ¬ directory then
    let g' := DQN.innerFit (loggedSys y losses) g d
    .raised .type { g' with online := ⟨g'.online.net, g.online.file⟩ }
  else match DQN.fit (loggedSys y losses) g d with
    | none => .failed ()
    | some g' => .done g' none

end dqn

end

end Verif.Logging
