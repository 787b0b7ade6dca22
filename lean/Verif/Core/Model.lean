/-
Model of the experiment loop: `Core`, `CoreLogic` and the parts of `Agent` it talks to.

Files: mushroom_rl/core/core.py, mushroom_rl/core/_impl/core_logic.py, mushroom_rl/core/agent.py,
mushroom_rl/core/dataset.py (sizes only; the storage itself is modelled in `Verif.Dataset`).

Everything a user plugs in (environment, policy, learning rule, preprocessors, callbacks) is an arbitrary
function on an arbitrary world state `W`; no assumption is made on any of them.
Not modelled: rendering / video recording, progress bars, backend conversion of arrays (identity here),
step infos and episode infos.
-/
namespace Verif.Core

/-- The 8-tuple built by `Core._step` (core.py L166).
`policyState`/`policyNextState` are `None` when the agent supplied the action itself (agent.py L99-102). -/
structure Sample (X A R P : Type) where
  state : X
  action : A
  reward : R
  nextState : X
  absorbing : Bool
  last : Bool
  policyState : Option P
  policyNextState : Option P
deriving DecidableEq, Repr

/-- A preprocessor: `update` then `__call__` (core.py L204-206; agent.py L200-202).
`update` may change the world (its own statistics), `__call__` reads it. -/
structure Preproc (W X : Type) where
  update : W → X → W
  apply : W → X → X

/-- What is observable of a run, in order of occurrence. -/
inductive Event (X A R P T : Type) where
  /-- `env.reset(req)` returned the observation `obs`; the agent starts from `start` with policy state `ps` and
  parameters `theta`. -/
  | reset (req : Option X) (obs : X) (start : X) (ps : Option P) (theta : T)
  /-- One interaction: if the policy was asked for an action, `asked = some (x, ps)` with the state and policy state
  it was given;
  `env.step(act)` returned `(obs, rew, abs)`; `s` is the stored sample. -/
  | step (asked : Option (X × Option P)) (act : A) (obs : X) (rew : R) (abs : Bool) (s : Sample X A R P)
  /-- `agent.fit(dataset)` with the rows and theta list of the dataset; `next` is the value of
  `agent.next_action` when it returned. -/
  | fit (batch : List (Sample X A R P)) (thetas : List T) (next : Option A)
deriving DecidableEq, Repr

/-- Everything the user supplies. `horizon = none` is `np.inf`. -/
structure Sys (W X A R P T : Type) where
  horizon : Option Nat
  isEpisodic : Bool
  /-- `env.reset(initial_state)` -/
  envReset : W → Option X → W × X
  /-- `agent.episode_start(state, episode_info)`: policy initial state and policy parameters -/
  episodeStart : W → X → W × (Option P × T)
  /-- `env.step(action)` -/
  envStep : W → A → W × (X × R × Bool)
  /-- `policy.draw_action(state, policy_state)` -/
  policyDraw : W → X → Option P → W × (A × Option P)
  /-- `agent.fit(dataset)`: given the current `next_action`, returns the new one -/
  fit : W → Option A → List (Sample X A R P) → List T → W × Option A
  corePre : List (Preproc W X)
  agentPre : List (W → X → X)
  callbackStep : W → Sample X A R P → W
  callbacksFit : List (W → List (Sample X A R P) → W)

/-- `n_steps` / `n_episodes` (core_logic.py L42-51): which `move_required` condition is installed. -/
inductive Budget where
  | steps (n : Nat)
  | episodes (n : Nat)
deriving DecidableEq, Repr

/-- Which `fit_required` condition is installed (core_logic.py L29-32, L35). -/
inductive FitMode where
  | never
  | steps (k : Nat)
  | episodes (k : Nat)
deriving DecidableEq, Repr

inductive Err where
  | assertion    -- AssertionError
  | index        -- IndexError
deriving DecidableEq, Repr

/-- Arguments of `_run` once validated, plus the number of rows allocated for the dataset
(`none`: the list backend, which is unbounded). -/
structure Cfg (X : Type) where
  budget : Budget
  fitMode : FitMode
  initialStates : Option (List X)
  capacity : Option Nat

/-- State of `Core` + `CoreLogic` + dataset + the trace of observable events. -/
structure St (W X A R P T : Type) where
  world : W
  state : Option X            -- core._state
  policyState : Option P      -- core._policy_state
  theta : Option T            -- core._current_theta
  episodeSteps : Nat          -- core._episode_steps
  nextAction : Option A       -- agent.next_action
  totalEpisodes : Nat
  totalSteps : Nat
  currentEpisodes : Nat
  currentSteps : Nat
  last : Bool                 -- local variable `last` of `_run`
  rows : List (Sample X A R P)   -- dataset, oldest first
  thetas : List T                -- dataset._theta_list
  trace : List (Event X A R P T)  -- oldest first

variable {W X A R P T : Type}

/-- core_logic.py L88-89 and L94-95: `move_required`. -/
def moveRequired (b : Budget) (s : St W X A R P T) : Bool :=
  match b with
  | .steps n => decide (s.totalSteps < n)
  | .episodes n => decide (s.totalEpisodes < n)

/-- core_logic.py L91-92, L97-98 and L35: `fit_required`. -/
def fitRequired (f : FitMode) (s : St W X A R P T) : Bool :=
  match f with
  | .never => false
  | .steps k => decide (k ≤ s.currentSteps)
  | .episodes k => decide (k ≤ s.currentEpisodes)

/-- core_logic.py L43: `_n_episodes = len(initial_states) if initial_states is not None else n_episodes`
is folded in `Cfg.budget` by `evaluate` below; L58-62: `get_initial_state`. Python indexing out of range raises. -/
def getInitialState (c : Cfg X) (s : St W X A R P T) : Except Err (Option X) :=
  match c.initialStates with
  | none => .ok none
  | some xs =>
    if c.budget = .episodes s.totalEpisodes then .ok none
    else match xs[s.totalEpisodes]? with
      | some x => .ok (some x)
      | none => .error .index

/-- core.py L193-208: `_preprocess`; for each preprocessor `update`, then `__call__`. -/
def preprocess (ps : List (Preproc W X)) (w : W) (x : X) : W × X :=
  match ps with
  | [] => (w, x)
  | p :: ps =>
    let w := p.update w x
    preprocess ps w (p.apply w x)

/-- agent.py L189-202: `_agent_preprocess`. -/
def agentPreprocess (ps : List (W → X → X)) (w : W) (x : X) : X :=
  match ps with
  | [] => x
  | p :: ps => agentPreprocess ps w (p w x)

/-- core.py L168-180: `_reset`. -/
def reset (sys : Sys W X A R P T) (c : Cfg X) (s : St W X A R P T) : Except Err (St W X A R P T) :=
  match getInitialState c s with
  | .error e => .error e
  | .ok req =>
    let (w, obs) := sys.envReset s.world req
    let (w, ps, theta) := sys.episodeStart w obs
    let (w, x) := preprocess sys.corePre w obs
    .ok { s with
      world := w
      policyState := ps
      theta := some theta
      state := some x
      nextAction := none
      episodeSteps := 0
      -- L105-106 of core.py: `if agent.info.is_episodic: dataset.append_theta(current_theta)`
      thetas := if sys.isEpisodic then s.thetas ++ [theta] else s.thetas
      trace := s.trace ++ [.reset req obs x ps theta] }

/-- agent.py L80-104: `draw_action`. Also returns the state given to the policy, if it was asked. -/
def drawAction (sys : Sys W X A R P T) (w : W) (next : Option A) (x : X) (ps : Option P) :
    W × Option (X × Option P) × A × Option P :=
  match next with
  | none =>
    let x := agentPreprocess sys.agentPre w x
    let (w, a, ps') := sys.policyDraw w x ps
    (w, some (x, ps), a, ps')
  | some a => (w, none, a, none)

/-- core.py L158: `last = self._episode_steps >= self.env.info.horizon or absorbing`. -/
def isLast (horizon : Option Nat) (episodeSteps : Nat) (absorbing : Bool) : Bool :=
  (match horizon with
   | none => false
   | some h => decide (h ≤ episodeSteps)) || absorbing

/-- Whether all the allocated rows are used: writing row `n` would raise `IndexError` (numpy_dataset.py L115-122). -/
def isFull (capacity : Option Nat) (n : Nat) : Bool :=
  match capacity with
  | none => false
  | some cap => decide (cap ≤ n)

/-- core.py L135-166: `_step`, L110: `callback_step`, L111 + core_logic.py L64-72: `after_step`,
L113: `dataset.append` (numpy_dataset.py L113-133: writing beyond the allocated rows is an `IndexError`). -/
def step (sys : Sys W X A R P T) (c : Cfg X) (s : St W X A R P T) (x : X) :
    Except Err (St W X A R P T) :=
  let (w, asked, a, ps') := drawAction sys s.world s.nextAction x s.policyState
  let (w, obs, r, absorbing) := sys.envStep w a
  let n := s.episodeSteps + 1
  let last := isLast sys.horizon n absorbing
  let (w, x') := preprocess sys.corePre w obs
  let sample : Sample X A R P :=
    { state := x, action := a, reward := r, nextState := x', absorbing := absorbing, last := last,
      policyState := s.policyState, policyNextState := ps' }
  let w := sys.callbackStep w sample
  if isFull c.capacity s.rows.length then .error .index
  else .ok { s with
    world := w
    state := some x'
    policyState := ps'
    nextAction := none
    episodeSteps := n
    totalSteps := s.totalSteps + 1
    currentSteps := s.currentSteps + 1
    totalEpisodes := if last then s.totalEpisodes + 1 else s.totalEpisodes
    currentEpisodes := if last then s.currentEpisodes + 1 else s.currentEpisodes
    rows := s.rows ++ [sample]
    last := last
    trace := s.trace ++ [.step asked a obs r absorbing sample] }

/-- core.py L115-122: `agent.fit(dataset)`, `after_fit` (core_logic.py L74-76), the fit callbacks, `dataset.clear()`
(dataset.py L246-251, which also drops the theta list). -/
def fitPhase (sys : Sys W X A R P T) (c : Cfg X) (s : St W X A R P T) : St W X A R P T :=
  if fitRequired c.fitMode s then
    let (w, next) := sys.fit s.world s.nextAction s.rows s.thetas
    { s with
      world := sys.callbacksFit.foldl (fun w cb => cb w s.rows) w
      nextAction := next
      currentEpisodes := 0
      currentSteps := 0
      rows := []
      thetas := []
      trace := s.trace ++ [.fit s.rows s.thetas next] }
  else s

/-- core.py L103-124: one iteration of the loop of `_run`. -/
def iter (sys : Sys W X A R P T) (c : Cfg X) (s : St W X A R P T) : Except Err (St W X A R P T) :=
  let r := if s.last then reset sys c s else .ok s
  match r with
  | .error e => .error e
  | .ok s =>
    match s.state with
    | none => .error .assertion   -- unreachable: `_state` is set by `_reset`
    | some x =>
      match step sys c s x with
      | .error e => .error e
      | .ok s => .ok (fitPhase sys c s)

/-- core.py L102: `while self._core_logic.move_required()`. `none`: the given fuel was not enough. -/
def loop (sys : Sys W X A R P T) (c : Cfg X) : Nat → St W X A R P T → Option (Except Err (St W X A R P T))
  | 0, s => if moveRequired c.budget s then none else some (.ok s)
  | fuel + 1, s =>
    if moveRequired c.budget s then
      match iter sys c s with
      | .error e => some (.error e)
      | .ok s' => loop sys c fuel s'
    else some (.ok s)

/-- core_logic.py L82-86 and core.py L99-101: state at the beginning of `_run`; `prev` is whatever the previous
calls on the same `Core` left behind. The dataset is new and the trace starts here. -/
def start (prev : St W X A R P T) : St W X A R P T :=
  { prev with
    totalEpisodes := 0, totalSteps := 0, currentEpisodes := 0, currentSteps := 0
    last := true, rows := [], thetas := [], trace := [] }

/-- dataset.py L79-89: number of rows allocated by `Dataset.__init__`. -/
def datasetCapacity (horizon : Option Nat) (nSteps nEpisodes : Option Nat) : Except Err Nat :=
  match nSteps, nEpisodes with
  | some n, none => .ok n
  | none, some e =>
    match horizon with
    | none => .error .assertion
    | some h => .ok (h * e)
  | _, _ => .error .assertion

/-- core_logic.py L22-32: `initialize_learn`. -/
def initializeLearn (nStepsPerFit nEpisodesPerFit : Option Nat) : Except Err FitMode :=
  match nStepsPerFit, nEpisodesPerFit with
  | none, some k => .ok (.episodes k)
  | some k, none => .ok (.steps k)
  | _, _ => .error .assertion

/-- core_logic.py L37-54: `initialize_run`. -/
def initializeRun (nSteps nEpisodes : Option Nat) (initialStates : Option (List X)) : Except Err Budget :=
  match nSteps, nEpisodes, initialStates with
  | none, some n, none => .ok (.episodes n)
  | some n, none, none => .ok (.steps n)
  | none, none, some xs => .ok (.episodes xs.length)
  | _, _, _ => .error .assertion

/-- core.py L42-68: `learn`, up to the call of the loop: either an exception or the configuration of the run. -/
def learnCfg (sys : Sys W X A R P T) (nSteps nEpisodes nStepsPerFit nEpisodesPerFit : Option Nat) :
    Except Err (Cfg X) :=
  match initializeLearn nStepsPerFit nEpisodesPerFit with
  | .error e => .error e
  | .ok f =>
    match datasetCapacity sys.horizon nStepsPerFit nEpisodesPerFit with
    | .error e => .error e
    | .ok cap =>
      match initializeRun (X := X) nSteps nEpisodes none with
      | .error e => .error e
      | .ok b => .ok { budget := b, fitMode := f, initialStates := none, capacity := some cap }

/-- core.py L70-96: `evaluate`, up to the call of the loop. -/
def evaluateCfg (sys : Sys W X A R P T) (initialStates : Option (List X)) (nSteps nEpisodes : Option Nat) :
    Except Err (Cfg X) :=
  let nEpisodesDataset := match initialStates with | some xs => some xs.length | none => nEpisodes
  match datasetCapacity sys.horizon nSteps nEpisodesDataset with
  | .error e => .error e
  | .ok cap =>
    match initializeRun nSteps nEpisodes initialStates with
    | .error e => .error e
    | .ok b => .ok { budget := b, fitMode := .never, initialStates := initialStates, capacity := some cap }

/-- `Core.learn` (core.py L42-68) with the given fuel. -/
def learn (sys : Sys W X A R P T) (fuel : Nat) (prev : St W X A R P T)
    (nSteps nEpisodes nStepsPerFit nEpisodesPerFit : Option Nat) : Option (Except Err (St W X A R P T)) :=
  match learnCfg sys nSteps nEpisodes nStepsPerFit nEpisodesPerFit with
  | .error e => some (.error e)
  | .ok c => loop sys c fuel (start prev)

/-- `Core.evaluate` (core.py L70-96) with the given fuel; the returned dataset is the field `rows`. -/
def evaluate (sys : Sys W X A R P T) (fuel : Nat) (prev : St W X A R P T)
    (initialStates : Option (List X)) (nSteps nEpisodes : Option Nat) : Option (Except Err (St W X A R P T)) :=
  match evaluateCfg sys initialStates nSteps nEpisodes with
  | .error e => some (.error e)
  | .ok c => loop sys c fuel (start prev)

end Verif.Core
