/-
What an exception leaves behind: the states in which `Core` can be when an exception of a plugged-in part (or of the
user: `KeyboardInterrupt`) escapes from `Core._run`.

Files: mushroom_rl/core/core.py, mushroom_rl/core/_impl/core_logic.py, mushroom_rl/core/agent.py.
-/
import Verif.Core.Model

namespace Verif.Core

variable {W X A R P T : Type}

/-- core.py L103-106: the state in which `_step` is called: `_reset` was called, if the last step ended an episode. -/
def begun (sys : Sys W X A R P T) (c : Cfg X) (s : St W X A R P T) : Except Err (St W X A R P T) :=
  if s.last then reset sys c s else .ok s

/-- The assignments that were done when an exception escapes from an iteration of the loop of `_run` (core.py L102-124)
that began in `s`. The part that raises may have changed the world (agent, environment, preprocessors, callbacks) in
any way: `w` is arbitrary. The events are those that had been completed. The dataset is a local variable of `_run`; it is listed
in the state but nobody can reach it any more. Not modelled: the handles of windows, videos (see `Verif.Record`) and progress bars. -/
inductive Left (sys : Sys W X A R P T) (c : Cfg X) (s : St W X A R P T) : St W X A R P T → Prop
  /-- core.py L173-176: `get_initial_state`, `env.reset` or `agent.episode_start` raises. -/
  | reset (w : W) (h : s.last = true) : Left sys c s { s with world := w }
  /-- core.py L177: a preprocessor raises in `_reset`; `_policy_state` and `_current_theta` (L176) are already those of the new
  episode, `_state`, `agent.next_action` and `_episode_steps` still the old ones. -/
  | resetPreprocess (w : W) (h : s.last = true) (req : Option X) (hreq : getInitialState c s = .ok req) :
    Left sys c s { s with
      world := w
      policyState := (sys.episodeStart (sys.envReset s.world req).1 (sys.envReset s.world req).2).2.1
      theta := some (sys.episodeStart (sys.envReset s.world req).1 (sys.envReset s.world req).2).2.2 }
  /-- core.py L147: `agent.draw_action` raises. -/
  | draw (w : W) (s1 : St W X A R P T) (h : begun sys c s = .ok s1) : Left sys c s { s1 with world := w }
  /-- core.py L148-154: `env.step` or `env.render` raises; agent.py L102 has forgotten the pending action. -/
  | envStep (w : W) (s1 : St W X A R P T) (h : begun sys c s = .ok s1) : Left sys c s { s1 with world := w, nextAction := none }
  /-- core.py L162: a preprocessor raises in `_step`, after `_episode_steps += 1` (L156). -/
  | stepPreprocess (w : W) (s1 : St W X A R P T) (h : begun sys c s = .ok s1) :
    Left sys c s { s1 with world := w, nextAction := none, episodeSteps := s1.episodeSteps + 1 }
  /-- core.py L110: `callback_step` raises: `_step` has returned, but `CoreLogic.after_step` (L111) has not counted the step. -/
  | callbackStep (w : W) (s1 s2 : St W X A R P T) (x : X) (h : begun sys c s = .ok s1) (hx : s1.state = some x) (h2 : step sys c s1 x = .ok s2) :
    Left sys c s { s1 with
      world := w
      state := s2.state
      policyState := s2.policyState
      nextAction := none
      episodeSteps := s2.episodeSteps
      trace := s2.trace }
  /-- core.py L113: `dataset.append` raises (for instance because of a step info with new keys): the step is counted. -/
  | append (w : W) (s1 s2 : St W X A R P T) (x : X) (h : begun sys c s = .ok s1) (hx : s1.state = some x) (h2 : step sys c s1 x = .ok s2) :
    Left sys c s { s2 with world := w, rows := s1.rows, last := s1.last }
  /-- core.py L116: `agent.fit` raises: the counters of `CoreLogic` still ask for a fit; the learning rule may have left any pending action. -/
  | fit (w : W) (next : Option A) (s1 s2 : St W X A R P T) (x : X) (h : begun sys c s = .ok s1) (hx : s1.state = some x)
    (h2 : step sys c s1 x = .ok s2) (hf : fitRequired c.fitMode s2 = true) :
    Left sys c s { s2 with world := w, nextAction := next, last := s1.last }
  /-- core.py L119-122: a fit callback (or `dataset.clear`) raises, after `after_fit` (L117). -/
  | callbacksFit (w : W) (s1 s2 : St W X A R P T) (x : X) (h : begun sys c s = .ok s1) (hx : s1.state = some x)
    (h2 : step sys c s1 x = .ok s2) (hf : fitRequired c.fitMode s2 = true) :
    Left sys c s { fitPhase sys c s2 with world := w, rows := s2.rows, thetas := s2.thetas, last := s1.last }

/-- core.py L31-36, core_logic.py L5-20: a `Core` that was just built, with the agent, the environment and the callbacks in the given
state. (The counters are `None`; they are written before they are read.) `next` is `agent.next_action`. -/
def builtCore (w : W) (next : Option A) : St W X A R P T where
  world := w
  state := none
  policyState := none
  theta := none
  episodeSteps := 0
  nextAction := next
  totalEpisodes := 0
  totalSteps := 0
  currentEpisodes := 0
  currentSteps := 0
  last := true
  rows := []
  thetas := []
  trace := []

end Verif.Core
