/-
Whole experiments: the loop of `Core` (Verif.Core) with a deep Q-learning agent (Verif.DQN) that keeps its transitions in a replay memory (Verif.Memory),
and the datasets that the loop gives to on-policy and episodic agents (Verif.ValueFn, Verif.Dataset).

Files: mushroom_rl/core/core.py, mushroom_rl/algorithms/value/dqn/abstract_dqn.py, rainbow.py, mushroom_rl/rl_utils/replay_memory.py.

The parts are the models of those areas; here they are put together. Environment, policy, preprocessors and callbacks are arbitrary.
-/
import Verif.Core.Model
import Verif.DQN.Model
import Verif.Memory.ModelPER
import Verif.ValueFn.Model

namespace Verif.System

noncomputable section

open Verif.Core (Sample)
open Verif.Dataset (Row)

variable {E G X A R P T : Type}

/-- An experiment: `E` is the state of everything but the agent, `G` that of the agent, which only `fit` changes. The policy and the callbacks may read the
agent. core.py L103-124. -/
structure Experiment (E G X A R P T : Type) where
  horizon : Option ℕ
  isEpisodic : Bool
  envReset : E → Option X → E × X
  episodeStart : E → G → X → E × (Option P × T)
  envStep : E → A → E × (X × R × Bool)
  policyDraw : E → G → X → Option P → E × (A × Option P)
  fit : G → List (Sample X A R P) → List T → G
  corePre : List (Core.Preproc E X)
  agentPre : List (E → X → X)
  callbackStep : E → G → Sample X A R P → E
  callbacksFit : List (E → G → List (Sample X A R P) → E)

/-- The experiment as a user of `Core`. The agents here leave `next_action` alone. core.py L103-124. -/
def Experiment.sys (x : Experiment E G X A R P T) : Core.Sys (E × G) X A R P T where
  horizon := x.horizon
  isEpisodic := x.isEpisodic
  envReset := fun w s => (((x.envReset w.1 s).1, w.2), (x.envReset w.1 s).2)
  episodeStart := fun w s => (((x.episodeStart w.1 w.2 s).1, w.2), (x.episodeStart w.1 w.2 s).2)
  envStep := fun w a => (((x.envStep w.1 a).1, w.2), (x.envStep w.1 a).2)
  policyDraw := fun w s p => (((x.policyDraw w.1 w.2 s p).1, w.2), (x.policyDraw w.1 w.2 s p).2)
  fit := fun w next rows ths => ((w.1, x.fit w.2 rows ths), next)
  corePre := x.corePre.map fun p => { update := fun w s => (p.update w.1 s, w.2), apply := fun w s => p.apply w.1 s }
  agentPre := x.agentPre.map fun f => fun w s => f w.1 s
  callbackStep := fun w s => (x.callbackStep w.1 w.2 s, w.2)
  callbacksFit := x.callbacksFit.map fun f => fun w b => (f w.1 w.2 b, w.2)

/-- A row of the dataset. core.py L113, L166. -/
def toRow (s : Sample X A R P) : Row X A R (Option P) :=
  { state := s.state, action := s.action, reward := s.reward, nextState := s.nextState, absorbing := s.absorbing, last := s.last,
    policyState := s.policyState, policyNextState := s.policyNextState }

/-- What the agent uses of a row of the memory. abstract_dqn.py L93. -/
def trans (r : Row X A ℝ (Option P)) : TD.Trans X A :=
  { state := r.state, action := r.action, reward := r.reward, next := r.nextState, absorbing := r.absorbing }

/-- The replay memory of an agent, or the exception that it raised, with the generator of its random indices. -/
structure Store (Rng M : Type) where
  mem : Except Memory.Err M
  rng : Rng

/-- What a DQN agent is made of besides its memory: the draw of the indices (`randint(0, len, batch_size)`), the targets, the regression and
`target_update_frequency`. abstract_dqn.py L12-78. -/
structure Parts (Rng X A W : Type) where
  draw : Rng → ℕ → Rng × List ℕ
  targets : W → W → List (TD.Trans X A) → List ℝ
  fitNet : W → List (TD.Trans X A) → List ℝ → W
  freq : ℕ

/-- An agent with a `ReplayMemory`, to which `add(dataset)` adds one-step transitions. abstract_dqn.py L90-101. -/
def dqn {Rng W : Type} (p : Parts Rng X A W) :
    DQN.Sys X A (List (Sample X A ℝ P)) (Store Rng (Memory.Mem X A ℝ (Option P))) W W where
  add := fun s d => { s with mem := s.mem.bind fun m => (m.add (d.map toRow) 1 1).map (·.1) }
  initialized := fun s => match s.mem with
    | .ok m => m.initialized
    | .error _ => false
  get := fun s => match s.mem with
    | .error _ => (s, [])
    | .ok m =>
      match m.get (p.draw s.rng m.buf.length).2 with
      | .error e => (⟨.error e, (p.draw s.rng m.buf.length).1⟩, [])
      | .ok rows => ({ s with rng := (p.draw s.rng m.buf.length).1 }, rows.map trans)
  targets := p.targets
  update := fun m _ _ _ => m
  fitNet := fun _ w b q => p.fitNet w b q
  sync := DQN.copyOnline
  freq := p.freq

/-- `Rainbow`: a `PrioritizedReplayMemory`, to which transitions of `n` steps are added with the largest priority; `use` are the sampled transitions, `rank`
the new priorities. An exception stays. rainbow.py L123-165. -/
def rainbow {Rng W : Type} (n : ℕ) (γ : ℝ) (p : Parts Rng X A W)
    (use : Rng → Memory.PER X A (Option P) → Rng × Except Memory.Err (List (TD.Trans X A)))
    (rank : W → List (TD.Trans X A) → Memory.PER X A (Option P) → Except Memory.Err (Memory.PER X A (Option P))) :
    DQN.Sys X A (List (Sample X A ℝ P)) (Store Rng (Memory.PER X A (Option P))) W W where
  add := fun s d => { s with mem := s.mem.bind fun m =>
    match m.maxPriority with
    | none => .error .index
    | some top => (m.tree.add (d.map toRow) (List.replicate d.length (1 * top)) n γ).map fun t => { m with tree := t.1 } }
  initialized := fun s => match s.mem with
    | .ok m => m.initialized
    | .error _ => false
  get := fun s => match s.mem with
    | .error _ => (s, [])
    | .ok m =>
      match (use s.rng m).2 with
      | .error e => (⟨.error e, (use s.rng m).1⟩, [])
      | .ok ts => ({ s with rng := (use s.rng m).1 }, ts)
  targets := p.targets
  update := fun s b w _ => { s with mem := s.mem.bind (rank w b) }
  fitNet := fun _ w b q => p.fitNet w b q
  sync := DQN.copyOnline
  freq := p.freq

/-- The data of `compute_gae` for a dataset and the value function `v`, beyond the end of the dataset anything. value_functions.py L97-109. -/
def gaeData (v : X → ℝ) (rows : List (Sample X A ℝ P)) : ValueFn.Data where
  r := fun i => ((rows[i]?).map (·.reward)).getD 0
  v := fun i => ((rows[i]?).map fun s => v s.state).getD 0
  vNext := fun i => ((rows[i]?).map fun s => v s.nextState).getD 0
  absorbing := fun i => ((rows[i]?).map (·.absorbing)).getD false
  last := fun i => ((rows[i]?).map (·.last)).getD false

end

end Verif.System
