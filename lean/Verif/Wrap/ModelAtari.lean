/-
Model of /repo/mushroom_rl/environments/atari.py and gymnasium_atari.py, with `LazyFrames` of utils/frames.py.

The game (gym environment without the wrappers of the library) is an arbitrary state machine; its frames and the preprocessed frames are of
arbitrary types. The number of no-op actions that is drawn is an argument. `none` stands for an exception. The time limit of gym
is part of the game. Actions are integers, `action[0]` is taken by the caller.
-/
import Mathlib.Data.Real.Basic
import Mathlib.Data.List.Basic

namespace Verif.Wrap

/-- What the game returns for an action: its next state, the frame, the reward, whether the game is over, and the lives left. -/
structure Out (G F : Type) where
  game : G
  frame : F
  reward : ℝ
  over : Bool
  lives : ℕ

/-- A game, and whether its second action is 'FIRE'. -/
structure Game (G F : Type) where
  reset : G → G × F
  step : G → ℕ → Out G F
  fire : Bool

/-- The settings of the environment: number of skipped frames (`none` without `MaxAndSkip`), the pooling of two frames, the
preprocessing, the length of the history, and the number of lives of a new game. `ends_at_life` can be changed and is part of the state.
atari.py L51-97. -/
structure Config (F P : Type) where
  skip : Option ℕ
  pool : F → F → F
  prep : F → P
  history : ℕ
  maxLives : ℕ

/-- The state of the environment. atari.py L76-84. -/
structure Atari (G F P : Type) where
  game : G
  buffer : F × F
  state : List P
  lives : ℕ
  forceFire : Bool
  realReset : Bool
  noOp : ℕ
  endsAtLife : Bool

variable {G F P : Type}

/-- The constructor; `zero` is the frame of zeros and there is no history yet. atari.py L51-97. -/
def Atari.new (c : Config F P) (g : G) (zero : F) (endsAtLife : Bool) : Atari G F P :=
  ⟨g, (zero, zero), [], c.maxLives, false, true, 0, endsAtLife⟩

/-- The loop of `MaxAndSkip.step` with `remaining` iterations left, `i` done. Nothing is defined after an empty loop. atari.py
L22-38. -/
def skipLoop (e : Game G F) (action skip : ℕ) : ℕ → ℕ → G → F × F → ℝ → Option (Out G F × (F × F) × ℝ)
  | 0, _, _, _, _ => none
  | remaining + 1, i, g, buffer, total =>
    let o := e.step g action
    let buffer := if i + 2 = skip then (o.frame, buffer.2) else buffer
    let buffer := if i + 1 = skip then (buffer.1, o.frame) else buffer
    let total := total + o.reward
    if o.over || remaining = 0 then some (o, buffer, total)
    else skipLoop e action skip remaining (i + 1) o.game buffer total

/-- `self.env.step(action)`: the last output of the game with the pooled frame and the total reward, and the frame buffer. atari.py L22-38,
L125. -/
def envStep (c : Config F P) (e : Game G F) (buffer : F × F) (g : G) (action : ℕ) : Option (Out G F × (F × F)) :=
  match c.skip with
  | none => some (e.step g action, buffer)
  | some k => (skipLoop e action k k 0 g buffer 0).map
      (fun r => ({ r.1 with frame := c.pool r.2.1.1 r.2.1.2, reward := r.2.2 }, r.2.1))

/-- `deque.append` of a deque with `maxlen`. -/
def push (maxlen : ℕ) (l : List P) (x : P) : List P := (l ++ [x]).drop (l.length + 1 - maxlen)

/-- `LazyFrames(frames, history_length)`: asserts the length. frames.py L18-21. -/
def lazyFrames (history : ℕ) (l : List P) : Option (List P) := if l.length = history then some l else none

/-- The frames and flags that `reset` sets; `first` is the frame of a new game. atari.py L100-110. -/
def Atari.restart (c : Config F P) (e : Game G F) (s : Atari G F P) (noOp : ℕ) : Atari G F P :=
  let s := if s.realReset then
      let r := e.reset s.game
      { s with game := r.1, state := List.replicate c.history (c.prep r.2), lives := c.maxLives }
    else s
  { s with forceFire := e.fire, noOp := noOp }

/-- `Atari.reset`. atari.py L99-112. -/
def Atari.reset (c : Config F P) (e : Game G F) (s : Atari G F P) (noOp : ℕ) : Option (Atari G F P × List P) :=
  let s := s.restart c e noOp
  (lazyFrames c.history s.state).map (fun l => (s, l))

/-- `GymnasiumAtari.reset`: `info` is only assigned if the game is restarted. gymnasium_atari.py L104-118. -/
def Atari.resetGymnasium (c : Config F P) (e : Game G F) (s : Atari G F P) (noOp : ℕ) : Option (Atari G F P × List P) :=
  if s.realReset then s.reset c e noOp else none

/-- The actions before the first action of an episode, of which everything but the state of the game is ignored. atari.py L117-123. -/
def prelude (e : Game G F) (forceFire : Bool) (noOp : ℕ) (g : G) : G :=
  let g := if forceFire then (e.step g 1).game else g
  (fun g => (e.step g 0).game)^[noOp] g

/-- What `step` does with the output of the game. atari.py L126-136. -/
def Atari.finish (c : Config F P) (e : Game G F) (s : Atari G F P) (o : Out G F) (buffer : F × F) : Atari G F P × Bool :=
  let changed := o.lives != s.lives
  ({ s with game := o.game, buffer := buffer, state := push c.history s.state (c.prep o.frame),
            lives := if changed then o.lives else s.lives,
            forceFire := if changed then e.fire else false, realReset := o.over, noOp := 0 },
    if changed && s.endsAtLife then true else o.over)

/-- `Atari.step`: the frames, the reward and the absorbing flag. atari.py L114-136. -/
def Atari.step (c : Config F P) (e : Game G F) (s : Atari G F P) (action : ℕ) : Option (Atari G F P × List P × ℝ × Bool) :=
  match envStep c e s.buffer (prelude e s.forceFire s.noOp s.game) action with
  | none => none
  | some (o, buffer) =>
    let r := s.finish c e o buffer
    (lazyFrames c.history r.1.state).map (fun l => (r.1, l, o.reward, r.2))

/-- `GymnasiumAtari.step`: `MaxAndSkip.step` returns four values where five are expected. gymnasium_atari.py L38, L120-142. -/
def Atari.stepGymnasium (c : Config F P) (e : Game G F) (s : Atari G F P) (action : ℕ) : Option (Atari G F P × List P × ℝ × Bool) :=
  match c.skip with
  | some _ => none
  | none => s.step c e action

/-- `stop`. atari.py L146-148. -/
def Atari.stop (s : Atari G F P) : Atari G F P := { s with realReset := true }

/-- `set_episode_end`. atari.py L150-159. -/
def Atari.setEpisodeEnd (s : Atari G F P) (endsAtLife : Bool) : Atari G F P := { s with endsAtLife := endsAtLife }

/-- The calls of an environment. -/
inductive Call
  | reset (noOp : ℕ)
  | step (action : ℕ)
  | stop
  | setEpisodeEnd (endsAtLife : Bool)

/-- What a call returns. -/
inductive Ret (P : Type)
  | frames (l : List P)
  | transition (l : List P) (reward : ℝ) (absorbing : Bool)
  | nothing

/-- A call. -/
def Atari.call (c : Config F P) (e : Game G F) (s : Atari G F P) : Call → Option (Atari G F P × Ret P)
  | .reset noOp => (s.reset c e noOp).map (fun r => (r.1, .frames r.2))
  | .step action => (s.step c e action).map (fun r => (r.1, .transition r.2.1 r.2.2.1 r.2.2.2))
  | .stop => some (s.stop, .nothing)
  | .setEpisodeEnd b => some (s.setEpisodeEnd b, .nothing)

/-- A sequence of calls. -/
def Atari.calls (c : Config F P) (e : Game G F) : Atari G F P → List Call → Option (Atari G F P × List (Ret P))
  | s, [] => some (s, [])
  | s, a :: rest =>
    match s.call c e a with
    | none => none
    | some (s, r) => (Atari.calls c e s rest).map (fun q => (q.1, r :: q.2))

end Verif.Wrap
