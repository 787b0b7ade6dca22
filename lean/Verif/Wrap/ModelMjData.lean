/-
Model of how MuJoCo environments read and write the data of the simulator: /repo/mushroom_rl/utils/mujoco/observation_helper.py
(`get_state`, `_build_obs`, `_modify_data`) and /repo/mushroom_rl/environments/mujoco.py (`_read_data`, `_write_data`, `setup`, `reset`).

The types `J`, `B`, `S` are the joints, bodies and sites of the loaded model; a name that is none of them raises and is not modelled. The
simulator is MuJoCo: `MjData` holds the positions and velocities of the joints, and next to them what the last forward computation found for
bodies and sites. `mj_step` first does the forward computation and then moves the joints; `mj_resetData` does none. The forward
computation and the integration are arguments. Other variables of the simulator (activations, warm start) are not modelled. The controls are
constant during the steps that are looked at. Numbers are reals.
-/
import Verif.Misc.ModelObs
import Mathlib.Data.Real.Basic
import Mathlib.Logic.Function.Basic
import Mathlib.Logic.Function.Iterate

namespace Verif.Wrap.MjData

variable {J B S D : Type} [DecidableEq J] [DecidableEq B] [DecidableEq S]

/-- `qpos` and `qvel` of the joints. -/
structure Joints (J : Type) where
  qpos : J → List ℝ
  qvel : J → List ℝ

/-- What the forward computation stores; `rest` is everything else it stores, as `cvel`. -/
structure Derived (B S D : Type) where
  xpos : B → List ℝ
  xquat : B → List ℝ
  sitePos : S → List ℝ
  siteMat : S → List ℝ
  rest : D

/-- `MjData`. -/
structure Data (J B S D : Type) where
  joints : Joints J
  derived : Derived B S D

/-- `MjModel`: the joints and the stored results after `mj_resetData`, the forward computation, the integration of one substep, and
`mj_objectVelocity`, which works on what is stored (`true` for the local frame). -/
structure Model (J B S D : Type) where
  init : Joints J
  blank : Derived B S D
  forward : Joints J → Derived B S D
  integrate : Joints J → Joints J
  velocity : Derived B S D → B → Bool → List ℝ

/-- `mj_resetData`. -/
def Model.resetData (m : Model J B S D) : Data J B S D := ⟨m.init, m.blank⟩

/-- One substep of `mj_step`. -/
def Model.substep (m : Model J B S D) (x : Data J B S D) : Data J B S D := ⟨m.integrate x.joints, m.forward x.joints⟩

/-- A name with an `ObservationType`. observation_helper.py L7-29. -/
inductive Src (J B S : Type)
  | bodyPos (b : B)
  | bodyRot (b : B)
  | bodyVel (b : B)
  | bodyVelWorld (b : B)
  | jointPos (j : J)
  | jointVel (j : J)
  | sitePos (s : S)
  | siteRot (s : S)
deriving DecidableEq

/-- `get_state`: the values. observation_helper.py L186-212. -/
def Model.get (m : Model J B S D) (x : Data J B S D) : Src J B S → List ℝ
  | .bodyPos b => x.derived.xpos b
  | .bodyRot b => x.derived.xquat b
  | .bodyVel b => m.velocity x.derived b true
  | .bodyVelWorld b => m.velocity x.derived b false
  | .jointPos j => x.joints.qpos j
  | .jointVel j => x.joints.qvel j
  | .sitePos s => x.derived.sitePos s
  | .siteRot s => x.derived.siteMat s

/-- Writing to the array that `get_state` returns. It is a view of the data, but for velocities of bodies it is a new array (`np.empty(6)`), and
what is written to it is lost. observation_helper.py L191-212. -/
def put (x : Data J B S D) (v : List ℝ) : Src J B S → Data J B S D
  | .bodyPos b => { x with derived := { x.derived with xpos := Function.update x.derived.xpos b v } }
  | .bodyRot b => { x with derived := { x.derived with xquat := Function.update x.derived.xquat b v } }
  | .bodyVel _ => x
  | .bodyVelWorld _ => x
  | .jointPos j => { x with joints := { x.joints with qpos := Function.update x.joints.qpos j v } }
  | .jointVel j => { x with joints := { x.joints with qvel := Function.update x.joints.qvel j v } }
  | .sitePos s => { x with derived := { x.derived with sitePos := Function.update x.derived.sitePos s v } }
  | .siteRot s => { x with derived := { x.derived with siteMat := Function.update x.derived.siteMat s v } }

/-- An entry of `observation_spec` with `build_omit_idx[key]`. -/
structure Item (J B S : Type) where
  src : Src J B S
  omitted : List ℕ

/-- `_build_obs`. observation_helper.py L154-170. -/
def Model.build (m : Model J B S D) (x : Data J B S D) : List (Item J B S) → Option (List ℝ)
  | [] => some []
  | i :: rest => do
    let a ← Misc.npDelete (m.get x i.src) i.omitted
    let b ← m.build x rest
    pure (a ++ b)

/-- `_modify_data`: the entries are written one after the other, each to the data as they then are. observation_helper.py L172-184. -/
def Model.modify (m : Model J B S D) : List (Item J B S) → Data J B S D → List ℝ → Option (Data J B S D)
  | [], x, _ => some x
  | i :: rest, x, obs =>
    match Misc.fill i.omitted 0 (m.get x i.src) obs with
    | none => none
    | some r => m.modify rest (put x r.1 i.src) r.2

/-- `setup`. mujoco.py L423-430. -/
def Model.setup (m : Model J B S D) (spec : List (Item J B S)) (x : Data J B S D) : Option (List ℝ) → Option (Data J B S D)
  | none => some x
  | some obs => m.modify spec x obs

/-- `reset`: the data and the observation, with the default `_create_observation` and `_modify_observation`. mujoco.py L118-123. -/
def Model.reset (m : Model J B S D) (spec : List (Item J B S)) (obs : Option (List ℝ)) : Option (Data J B S D × List ℝ) := do
  let x ← m.setup spec m.resetData obs
  let out ← m.build x spec
  pure (x, out)

/-- `array[:] = value`, for an array of the length of `old`: one value is repeated. -/
def assign (old value : List ℝ) : Option (List ℝ) :=
  if value.length = old.length then some value
  else match value with
    | [c] => some (List.replicate old.length c)
    | _ => none

/-- `_read_data`, for the entry that `additional_data_spec` gives to the key. mujoco.py L307-308. -/
def Model.readData (m : Model J B S D) (x : Data J B S D) (src : Src J B S) : List ℝ := m.get x src

/-- `_write_data`. mujoco.py L321-328. -/
def Model.writeData (m : Model J B S D) (x : Data J B S D) (src : Src J B S) (value : List ℝ) : Option (Data J B S D) :=
  match src with
  | .jointPos j => (assign (x.joints.qpos j) value).map fun v =>
      { x with joints := { x.joints with qpos := Function.update x.joints.qpos j v } }
  | .jointVel j => (assign (x.joints.qvel j) value).map fun v =>
      { x with joints := { x.joints with qvel := Function.update x.joints.qvel j v } }
  | src => (assign (m.get x src) value).map fun v => put x v src

end Verif.Wrap.MjData
