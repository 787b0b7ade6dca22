/-
Model of the time limits, the initial states and the shapes of the environments that wrap other libraries:
/repo/mushroom_rl/environments/{gym_env,gymnasium_env,dm_control_env,minigrid_env,igibson_env,habitat_env}.py.

The behaviour of the other libraries is assumed: the `TimeLimit` wrapper of gym, which counts the steps since the last reset and
reports the end of the episode when its limit is reached (gymnasium: in a separate flag); wrappers whose attributes are read through
to the wrapped object but set on the wrapper; tasks with a limit of their own, which end at the step that reaches it.
-/
import Verif.Wrap.ModelAtari
import Mathlib.Data.Real.Basic
import Mathlib.Data.List.Basic
import Mathlib.Algebra.BigOperators.Group.List.Basic

namespace Verif.Wrap

/-! ### gym_env.py, gymnasium_env.py -/

/-- A `TimeLimit` wrapper: `_max_episode_steps` (`none` is infinity) and `_elapsed_steps`. -/
structure TL where
  max : Option ℕ
  elapsed : ℕ

/-- The environment without wrappers: its initial state and its transitions with reward and end flag. -/
structure Task (S A : Type) where
  init : S
  step : S → A → S × ℝ × Bool

/-- An environment of gym: its wrappers from the outermost on (`none` for one without a limit), and its state. -/
structure Stack (S : Type) where
  layers : List (Option TL)
  state : S

/-- The limit of the outermost `TimeLimit`: where the loop of `_set_horizon` ends. gym_env.py L121-122, gymnasium_env.py L133-134. -/
def firstLimit : List (Option TL) → Option TL
  | [] => none
  | some t :: _ => some t
  | none :: rest => firstLimit rest

/-- Sets the limit there. gym_env.py L129-130, gymnasium_env.py L144-145. -/
def setFirst (m : Option ℕ) : List (Option TL) → List (Option TL)
  | [] => []
  | some t :: rest => some { t with max := m } :: rest
  | none :: rest => none :: setFirst m rest

/-- `_set_horizon`: the horizon and the wrappers. An environment without any wrapper has no attribute `env`. gym_env.py L118-132. -/
def setHorizonGym (layers : List (Option TL)) (horizon : Option ℕ) : Option (Option ℕ × List (Option TL)) :=
  if layers = [] then none
  else
    match horizon with
    | some h => some (some h, setFirst none layers)
    | none => (firstLimit layers).map (fun t => (t.max, setFirst none layers))

/-- `_set_horizon` for gymnasium. gymnasium_env.py L130-147. -/
def setHorizonGymnasium (layers : List (Option TL)) (horizon : Option ℕ) : Option (ℕ × List (Option TL)) :=
  if layers = [] then none
  else
    match horizon with
    | some h => some (h, setFirst (some h) layers)
    | none => (firstLimit layers).map (fun t => (t.max.getD 10000, setFirst (some (t.max.getD 10000)) layers))

/-- A step of a wrapper: one step more has elapsed, and whether the limit is reached. -/
def tickLayer : Option TL → Option TL × Bool
  | none => (none, false)
  | some t => (some { t with elapsed := t.elapsed + 1 }, match t.max with | none => false | some m => decide (m ≤ t.elapsed + 1))

/-- `self.env.step(action)`: the next state, the reward, the end of the task, and whether some limit is reached. -/
def Stack.step {S A : Type} (t : Task S A) (s : Stack S) (a : A) : Stack S × ℝ × Bool × Bool :=
  let r := t.step s.state a
  (⟨s.layers.map (fun l => (tickLayer l).1), r.1⟩, r.2.1, r.2.2, s.layers.any (fun l => (tickLayer l).2))

/-- `self.env.reset()`. -/
def Stack.reset {S A : Type} (t : Task S A) (s : Stack S) : Stack S := ⟨s.layers.map (fun l => l.map (fun t => { t with elapsed := 0 })), t.init⟩

/-- `Gym.step`: `done` is reported as absorbing; the old interface of gym joins both flags. gym_env.py L91-95. -/
def gymStep {S A : Type} (t : Task S A) (s : Stack S) (a : A) : Stack S × ℝ × Bool :=
  let r := s.step t a
  (r.1, r.2.1, r.2.2.1 || r.2.2.2)

/-- `Gymnasium.step`: the second flag is ignored. gymnasium_env.py L96-100. -/
def gymnasiumStep {S A : Type} (t : Task S A) (s : Stack S) (a : A) : Stack S × ℝ × Bool :=
  let r := s.step t a
  (r.1, r.2.1, r.2.2.1)

/-- `reset(state)`, of both: the environment and what is returned (an observation is a state here). `self.env.state = state` sets an
attribute of the outermost wrapper; only an environment without wrappers has its state changed. gym_env.py L82-89, gymnasium_env.py
L86-94. -/
def gymReset {S A : Type} (t : Task S A) (s : Stack S) : Option S → Stack S × S
  | none => (s.reset t, t.init)
  | some x => (if s.layers = [] then ⟨[], x⟩ else s.reset t, x)

/-- The calls between which the flags are reported. -/
inductive GymCall (S A : Type)
  | reset (state : Option S)
  | step (a : A)

/-- The environment after some calls. -/
def gymCalls {S A : Type} (t : Task S A) (s : Stack S) (l : List (GymCall S A)) : Stack S :=
  l.foldl (fun s c => match c with | .reset x => (gymReset t s x).1 | .step a => (gymStep t s a).1) s

/-! ### Attributes of wrapped objects -/

/-- An object inside wrappers: the attributes of each wrapper from the outermost on, and those of the object. Values are limits, `none` is
infinity. -/
structure Obj where
  layers : List (List (String × Option ℕ))
  base : List (String × Option ℕ)

/-- `setattr`. -/
def Obj.set (o : Obj) (name : String) (v : Option ℕ) : Obj :=
  match o.layers with
  | [] => { o with base := (name, v) :: o.base }
  | l :: rest => { o with layers := ((name, v) :: l) :: rest }

/-- `getattr`, which is passed through by the wrappers. -/
def Obj.get (o : Obj) (name : String) : Option (Option ℕ) := (o.layers ++ [o.base]).findSome? (fun l => l.lookup name)

/-- Whether the object itself ends the episode for the time at step number `k`. -/
def Obj.expires (o : Obj) (name : String) (k : ℕ) : Bool :=
  match o.base.lookup name with
  | some (some m) => decide (m ≤ k)
  | _ => false

/-- `DMControl.__init__`. dm_control_env.py L48-53. -/
def dmControl (o : Obj) (horizon : Option ℕ) : Option (Option ℕ × Obj) :=
  let h := match horizon with | some h => some (some h) | none => o.get "_step_limit"
  h.map (fun h => (h, o.set "_step_limit" none))

/-- `MiniGrid.__init__`; an infinite limit cannot be incremented to a number. minigrid_env.py L62-70. -/
def miniGrid (o : Obj) (horizon : Option ℕ) : Option (ℕ × Obj) :=
  let h := match horizon with | some h => some h | none => (o.get "max_steps").join
  h.map (fun h => (h, o.set "max_steps" (some (h + 1))))

/-- `iGibson.__init__`: the configuration from which the environment is made. igibson_env.py L78-82. -/
def iGibson (o : Obj) (horizon : Option ℕ) : Option (ℕ × Obj) :=
  match horizon with
  | some h => some (h, o.set "max_step" (some h))
  | none => (o.get "max_step").join.map (fun h => (h, o.set "max_step" (some (h + 1))))

/-- `Habitat.__init__`: the configuration from which the environment is made. habitat_env.py L214-216. -/
def habitat (o : Obj) (horizon : Option ℕ) : Option (ℕ × Obj) :=
  let h := match horizon with | some h => some h | none => (o.get "MAX_EPISODE_STEPS").join
  h.map (fun h => (h, o.set "MAX_EPISODE_STEPS" (some (h + 1))))

/-! ### Shapes -/

/-- An array of dm_control: its shape and its entries in row-major order. -/
structure Arr where
  shape : List ℕ
  entries : List ℝ
  ok : entries.length = shape.prod

/-- `_convert_observation_vector`. dm_control_env.py L133-139. -/
def dmVector (obs : List (String × Arr)) : List ℝ :=
  (obs.foldl (fun acc p => acc ++ [p.2.entries]) ([] : List (List ℝ))).flatten

/-- The shape declared by `_convert_observation_space_vector`. dm_control_env.py L108-118. -/
def dmVectorShape (spec : List (String × List ℕ)) : ℕ :=
  spec.foldl (fun total p => total + p.2.foldl (fun var dim => var * dim) 1) 0

/-- An image: shape and entries by indices. -/
structure Img where
  shape : ℕ × ℕ × ℕ
  at_ : ℕ → ℕ → ℕ → ℝ

/-- `transpose((2, 0, 1))`. dm_control_env.py L141-143, igibson_env.py L137-139, habitat_env.py L276-278. -/
def transpose201 (i : Img) : Img := ⟨(i.shape.2.2, i.shape.1, i.shape.2.1), fun c y x => i.at_ y x c⟩

/-- The shape declared for images by DMControl. dm_control_env.py L120-124. -/
def dmPixelsShape (shape : ℕ × ℕ × ℕ) : ℕ × ℕ × ℕ := (3, shape.1, shape.2.1)

/-- The shape declared for images by iGibson and Habitat. igibson_env.py L94-100, habitat_env.py L233-239. -/
def simulatorShape (shape : ℕ × ℕ × ℕ) : ℕ × ℕ × ℕ := (3, shape.2.1, shape.1)

/-! ### MiniGrid -/

/-- `preprocess_frame`, without the colours: `cv2.resize` takes width and height, so that the shape of the result is the other way
round. frames.py L38-53. -/
def preprocessShape (size : ℕ × ℕ) : ℕ × ℕ := (size.2, size.1)

/-- The shape declared by MiniGrid for observations of the given height and width. minigrid_env.py L59, L68-69. -/
def miniGridShape (history : ℕ) (obs : ℕ × ℕ) : List ℕ := [history, obs.2, obs.1]

/-- `LazyFrames.shape`, for the shapes of the frames; the assertion of the constructor, and there must be a frame.
frames.py L18-21, L33-35. -/
def lazyShape (history : ℕ) (frames : List (ℕ × ℕ)) : Option (List ℕ) :=
  if frames.length = history then frames.head?.map (fun f => [frames.length, f.1, f.2]) else none

/-- The world inside: its first frame for a seed (`none` when not seeded) and its own random source, and its steps. -/
structure MiniWorld (W F Seed : Type) where
  reset : Option Seed → W → W × F
  step : W → ℕ → W × F × ℝ × Bool

/-- `MiniGrid.reset`: neither the state nor `fixed_seed` is used. minigrid_env.py L78-84. -/
def MiniWorld.restart {W F P Seed : Type} (m : MiniWorld W F Seed) (prep : F → P) (history : ℕ) (_fixedSeed : Option Seed)
    (_state : Option (List P)) (w : W) : W × List P :=
  let r := m.reset none w
  (r.1, List.replicate history (prep r.2))

/-- `MiniGrid.step`. minigrid_env.py L86-95. -/
noncomputable def MiniWorld.move {W F P Seed : Type} (m : MiniWorld W F Seed) (prep : F → P) (history : ℕ) (s : W × List P) (a : ℕ) :
    (W × List P) × ℝ × Bool :=
  let r := m.step s.1 a
  ((r.1, push history s.2 (prep r.2.1)), if 0 < r.2.2.1 then 1 else r.2.2.1, r.2.2.2)

end Verif.Wrap
