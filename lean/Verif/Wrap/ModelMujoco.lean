/-
Model of /repo/mushroom_rl/environments/mujoco.py.

The simulator is an arbitrary dynamical system. Its data are the controls of the actuators, the physical state and the clock; one substep moves the
state under the controls and adds the timestep of the model to the clock. The methods that a subclass may override are arguments and
are pure functions. `none` stands for an exception. Numbers are reals.
-/
import Mathlib.Data.Real.Basic
import Mathlib.Data.List.Basic
import Mathlib.Data.Nat.Log
import Mathlib.Data.Nat.Bits

namespace Verif.Wrap

/-- `MjData`. -/
structure Data (X : Type) where
  ctrl : ℕ → ℝ
  x : X
  time : ℝ

/-- `MjModel`: the state after `mj_resetData`, the dynamics, the timestep, and for every actuator its name and, if it is limited, its range. -/
structure Mj (X : Type) where
  init : X
  dynamics : X → (ℕ → ℝ) → X
  timestep : ℝ
  actuators : List (String × Option (ℝ × ℝ))

/-- `mj_resetData`: controls and clock are zero too. -/
def Mj.reset {X : Type} (m : Mj X) : Data X := ⟨fun _ => 0, m.init, 0⟩

/-- One substep of `mj_step`. -/
noncomputable def Mj.substep {X : Type} (m : Mj X) (d : Data X) : Data X := ⟨d.ctrl, m.dynamics d.x d.ctrl, d.time + m.timestep⟩

/-- `data.ctrl[indices] = values`: the lengths must agree, or there is one value for all. mujoco.py L138. -/
def setCtrl (indices : List ℕ) (values : List ℝ) (ctrl : ℕ → ℝ) : Option (ℕ → ℝ) :=
  match values with
  | [v] => some (indices.foldl (fun c i => Function.update c i v) ctrl)
  | _ => if values.length = indices.length then
      some ((indices.zip values).foldl (fun c p => Function.update c p.1 p.2) ctrl) else none

/-- The overridable methods and the settings of an environment. `O` are observations. `override` is whether `_compute_action` was overridden.
mujoco.py L106-111, L188-293, L393-421. -/
structure Env (X O : Type) where
  build : X → O
  create : O → O
  modify : O → O
  preprocess : List ℝ → List ℝ
  compute : O → List ℝ → List ℝ
  override : Bool
  pre : Data X → Data X
  post : Data X → Data X
  reward : O → List ℝ → O → Bool → ℝ
  absorbing : O → Bool
  setup : O → Data X → Data X
  indices : List ℕ
  substeps : ℕ
  intermediate : ℕ

/-- `_create_observation(self.obs_helper._build_obs(...))`. mujoco.py L122, L147, L150. -/
def Env.observe {X O : Type} (e : Env X O) (d : Data X) : O := e.create (e.build d.x)

/-- `_compute_action` as it runs: the identity unless it was overridden. mujoco.py L106-111, L251-264. -/
def Env.control {X O : Type} (e : Env X O) (obs : O) (action : List ℝ) : List ℝ :=
  if e.override then e.compute obs action else action

/-- The loop over the intermediate steps; `set` is `ctrl_action is not None`. mujoco.py L134-147. -/
noncomputable def Env.loop {X O : Type} (e : Env X O) (m : Mj X) (action : List ℝ) : ℕ → Bool → O → Data X → Option (O × Data X)
  | 0, _, obs, d => some (obs, d)
  | n + 1, set, obs, d =>
    let ctrl := if e.override || !set then setCtrl e.indices (e.control obs action) d.ctrl else some d.ctrl
    match ctrl with
    | none => none
    | some ctrl =>
      let d := e.post (m.substep^[e.substeps] (e.pre { d with ctrl := ctrl }))
      let obs := if e.override then e.observe d else obs
      e.loop m action n true obs d

/-- What `step` returns: observation, reward and absorbing flag. -/
abbrev Step (O : Type) := O × ℝ × Bool

/-- `step`: the data, `self._obs` and what is returned; `_step_init` and `_step_finalize` do nothing here. mujoco.py L125-160. -/
noncomputable def Env.step {X O : Type} (e : Env X O) (m : Mj X) (d : Data X) (obs : O) (action : List ℝ) :
    Option (Data X × O × Step O) :=
  let action := e.preprocess action
  match e.loop m action e.intermediate false obs d with
  | none => none
  | some (cur, d) =>
    let cur := if e.override then cur else e.observe d
    let absorbing := e.absorbing cur
    some (d, cur, e.modify cur, e.reward obs action cur absorbing, absorbing)

/-- `setup`: the data are changed only if an observation is given. mujoco.py L423-430. -/
def Env.setupWith {X O : Type} (e : Env X O) (d : Data X) : Option O → Data X
  | none => d
  | some o => e.setup o d

/-- `reset`. mujoco.py L118-123. -/
def Env.reset {X O : Type} (e : Env X O) (m : Mj X) (obs : Option O) : Data X × O × O :=
  let d := e.setupWith m.reset obs
  (d, e.observe d, e.modify (e.observe d))

/-- `dt`. mujoco.py L442-444. -/
noncomputable def Env.dt {X O : Type} (e : Env X O) (m : Mj X) : ℝ := m.timestep * e.intermediate * e.substeps

/-- `get_action_indices`; an unknown name raises. mujoco.py L446-467. -/
def Mj.actionIndices {X : Type} (m : Mj X) (spec : List String) : Option (List ℕ) :=
  if spec.length = 0 then some (List.range m.actuators.length)
  else spec.mapM (fun name => (m.actuators.map Prod.fst).idxOf? name)

/-- `get_action_space`: the bounds, `none` for an infinite one. mujoco.py L469-492. -/
def Mj.actionSpace {X : Type} (m : Mj X) (indices : List ℕ) : Option (List (Option (ℝ × ℝ))) :=
  indices.mapM (fun i => (m.actuators[i]?).map Prod.snd)

/-- `_check_collision`; contacts are pairs of geometries. mujoco.py L330-358. -/
def checkCollision (contacts : List (ℕ × ℕ)) (ids1 ids2 : ℕ → Bool) : Bool :=
  match contacts with
  | [] => false
  | c :: rest =>
    let collision := ids1 c.1 && ids2 c.2
    let trans := ids2 c.1 && ids1 c.2
    if collision || trans then true else checkCollision rest ids1 ids2

/-! ### MultiMuJoCo -/

/-- The state: the models, their data, the current index, the observation and whether models are drawn. mujoco.py L583-601. -/
structure Multi (X O : Type) where
  models : List (Mj X)
  datas : List (Data X)
  idx : ℕ
  obs : Option O
  random : Bool

/-- `self._model.opt.timestep = timestep`, if one is given. mujoco.py L588-592. -/
def Mj.withTimestep {X : Type} (m : Mj X) : Option ℝ → Mj X
  | none => m
  | some t => { m with timestep := t }

/-- The constructor: `MjData(m)` is in the reset state; the given timestep is written to the first model only. The check of the action spaces
is included; that of the observation limits compares the limits of the first model with themselves (`limits` are those). mujoco.py
L583-664. -/
noncomputable def Multi.new {X O L : Type} [DecidableEq L] (models : List (Mj X)) (spec : List String) (timestep : Option ℝ)
    (limits : Mj X → L) (random : Bool) : Option (Multi X O) :=
  match models with
  | [] => none
  | m :: rest =>
    let m' := m.withTimestep timestep
    let models := m' :: rest
    match m'.actionIndices spec with
    | none => none
    | some indices =>
      let space := m'.actionSpace indices
      if models.all (fun n => decide (n.actionIndices spec = some indices) && @decide (n.actionSpace indices = space) (Classical.dec _)) &&
          models.all (fun _ => decide (limits m' = limits m')) then
        some ⟨models, models.map Mj.reset, 0, none, random⟩
      else none

/-- The next index; `draw` is what `randint` returns. mujoco.py L676-680. -/
def Multi.nextIdx {X O : Type} (s : Multi X O) (draw : ℕ) : ℕ :=
  if s.random then draw else if s.idx < s.models.length - 1 then s.idx + 1 else 0

/-- What `Core` does with the value returned by `reset`: it unpacks two values. core.py L150. -/
inductive ResetRet (O : Type)
  | pair (o : O)
  | single (o : O)

/-- `state, episode_info = mdp.reset(...)`, for observations that are not themselves made of two numbers. -/
def ResetRet.unpack {O : Type} : ResetRet O → Option O
  | .pair o => some o
  | .single _ => none

/-- `reset`: the data of the model that was current are reset, then the model is changed. mujoco.py L673-691. -/
def Multi.reset {X O : Type} (e : Env X O) (s : Multi X O) (obs : Option O) (draw : ℕ) : Option (Multi X O × ResetRet O) :=
  match s.models[s.idx]? with
  | none => none
  | some m =>
    let datas := s.datas.set s.idx m.reset
    let idx := s.nextIdx draw
    match datas[idx]? with
    | none => none
    | some d =>
      let d := e.setupWith d obs
      let o := e.observe d
      some ({ s with datas := datas.set idx d, idx := idx, obs := some o }, .single (e.modify o))

/-- `step` with the current model. -/
noncomputable def Multi.step {X O : Type} (e : Env X O) (s : Multi X O) (action : List ℝ) : Option (Multi X O × Step O) :=
  match s.models[s.idx]?, s.datas[s.idx]?, s.obs with
  | some m, some d, some obs =>
    (e.step m d obs action).map (fun r => ({ s with datas := s.datas.set s.idx r.1, obs := some r.2.1 }, r.2.2))
  | _, _, _ => none

/-- The calls of the environment. -/
inductive MultiCall (O : Type)
  | reset (obs : Option O) (draw : ℕ)
  | step (action : List ℝ)

/-- A call. -/
noncomputable def Multi.call {X O : Type} (e : Env X O) (s : Multi X O) : MultiCall O → Option (Multi X O)
  | .reset obs draw => (s.reset e obs draw).map Prod.fst
  | .step a => (s.step e a).map Prod.fst

/-- A sequence of calls. -/
noncomputable def Multi.calls {X O : Type} (e : Env X O) (s : Multi X O) (l : List (MultiCall O)) : Option (Multi X O) :=
  l.foldlM (fun s c => s.call e c) s

/-- The binary digits of a number from the last one to the first, as `np.binary_repr(k)[::-1]`; zero has one digit. -/
def reversedBits (k : ℕ) : List Bool :=
  if k = 0 then [false] else k.bits

/-- The index `bits - 1 - i` of an array with `bits` entries; negative indices count from the end and others raise. -/
def maskIndex (bits i : ℕ) : Option ℕ :=
  if i + 1 ≤ bits then some (bits - 1 - i) else if i + 1 ≤ 2 * bits then some (2 * bits - 1 - i) else none

/-- `_get_env_id_map`. `int(log(n - 1) / log(2))` is the binary logarithm rounded down. mujoco.py L697-720. -/
def envIdMap (k n : ℕ) : Option (List ℕ) :=
  let n := max n 2
  let bits := 1 + Nat.log 2 (n - 1)
  (reversedBits k).zipIdx.foldlM (fun (mask : List ℕ) p =>
    (maskIndex bits p.2).map (fun j => mask.set j (if p.1 then 1 else 0))) (List.replicate bits 0)

end Verif.Wrap
