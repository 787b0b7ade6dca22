/-
The deep Q-learning agents as systems with common parts.

Files: mushroom_rl/algorithms/value/dqn/{abstract_dqn,dqn,double_dqn,averaged_dqn}.py.
-/
import Verif.DQN.Model

namespace Verif.DQN

open Verif.TD (Trans rowMax)

noncomputable section

variable {S A D M W : Type}

/-- What the user gives to the constructor of one of the agents, whichever class it is: abstract_dqn.py L14-16, L43-64. The
memory contains the random generator. -/
structure Parts (S A D M W : Type) where
  /-- `_replay_memory.add(dataset, ..)` -/
  add : M → D → M
  /-- `_replay_memory.initialized` -/
  initialized : M → Bool
  /-- `_replay_memory.get(batch_size)` -/
  get : M → M × List (Trans S A)
  /-- `approximator.predict` as a function of the weights -/
  predict : W → S → A → ℝ
  /-- `_replay_memory.update(td_error, idxs)`, L117; the identity for `_fit_standard` -/
  update : M → List (Trans S A) → W → List ℝ → M
  /-- `approximator.fit(state, action, q, ..)` -/
  fitNet : M → W → List (Trans S A) → List ℝ → W
  /-- `target_update_frequency` -/
  freq : ℕ
  /-- `mdp_info.gamma` -/
  gamma : ℝ
  /-- `clip_reward` -/
  clip : Bool

variable [Fintype A] [Nonempty A]

/-- `DQN`: dqn.py L4-16, abstract_dqn.py L83-132. -/
def dqn (p : Parts S A D M W) : Sys S A D M W W where
  add := p.add
  initialized := p.initialized
  get := p.get
  targets := fun _ t b => targets p.gamma p.clip b (dqnNext (p.predict t) b)
  update := p.update
  fitNet := p.fitNet
  sync := copyOnline
  freq := p.freq

/-- `DoubleDQN`: double_dqn.py L6-21, abstract_dqn.py L83-132. -/
def doubleDqn (argmax : (A → ℝ) → A) (p : Parts S A D M W) : Sys S A D M W W where
  add := p.add
  initialized := p.initialized
  get := p.get
  targets := fun w t b => targets p.gamma p.clip b (doubleNext argmax (p.predict w) (p.predict t) b)
  update := p.update
  fitNet := p.fitNet
  sync := copyOnline
  freq := p.freq

/-- `AveragedDQN` with `n` approximators: averaged_dqn.py L7-62, abstract_dqn.py L83-120. -/
def averagedDqn (n : ℕ) (p : Parts S A D M W) : Sys S A D M W (Snapshots W) where
  add := p.add
  initialized := p.initialized
  get := p.get
  targets := fun _ t b => targets p.gamma p.clip b (averagedNext t.fitted (fun i => p.predict (t.models i)) b)
  update := p.update
  fitNet := p.fitNet
  sync := averagedSync n p.freq
  freq := p.freq

end

end Verif.DQN
