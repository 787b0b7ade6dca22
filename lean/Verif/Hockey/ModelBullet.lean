/-
Model of /repo/mushroom_rl/environments/pybullet_envs/air_hockey/*.py. Paths in the comments are relative to this directory unless they name
pybullet.py, which is /repo/mushroom_rl/environments/pybullet.py.

The simulator is not modelled: the states after the simulation steps and the links in contact with the puck are arguments. Exceptions are `none`.
The formulas of the rewards are those of the MuJoCo version, Model.lean, which is why they are shared here.
-/
import Verif.Hockey.Model

namespace Verif.Hockey.Bullet

noncomputable section

/-- The parts of the state of the simulation: position, orientation, linear and angular velocity of the puck, joints of the robot, and the end effector.
pybullet_envs/air_hockey/base.py L58-60, L84-91. -/
structure BState where
  pos : ℝ × ℝ × ℝ
  quat : ℝ × ℝ × ℝ × ℝ
  vel : ℝ × ℝ × ℝ
  ang : ℝ × ℝ × ℝ
  q : ℝ × ℝ × ℝ
  qd : ℝ × ℝ × ℝ
  ee : ℝ × ℝ × ℝ

/-- `…[:2]`. -/
def xy (v : ℝ × ℝ × ℝ) : V2 := (v.1, v.2.1)

/-! ### Frames -/

/-- `transformations.translation_matrix`. -/
def translation (t : ℝ × ℝ × ℝ) : Frame := !![1, 0, 0, t.1; 0, 1, 0, t.2.1; 0, 0, 1, t.2.2; 0, 0, 0, 1]

/-- `transformations.quaternion_matrix` of `[x, y, z, w]`; the case of the zero quaternion is left out. -/
def quatMatrix (q : ℝ × ℝ × ℝ × ℝ) : Frame :=
  let x := q.1
  let y := q.2.1
  let z := q.2.2.1
  let w := q.2.2.2
  let s := 2 / (x * x + y * y + z * z + w * w)
  !![1 - s * y * y - s * z * z, s * x * y - s * z * w, s * x * z + s * y * w, 0;
     s * x * y + s * z * w, 1 - s * x * x - s * z * z, s * y * z - s * x * w, 0;
     s * x * z - s * y * w, s * y * z + s * x * w, 1 - s * x * x - s * y * y, 0;
     0, 0, 0, 1]

/-- The frame of the first robot. pybullet_envs/air_hockey/base.py L72-75. -/
def frame1 : Frame := translation (-1.51, 0, 0) * quatMatrix (0, 0, 0, 1)

/-- The frame of the second robot. pybullet_envs/air_hockey/base.py L97-100. -/
def frame2 : Frame := translation (1.51, 0, 0) * quatMatrix (0, 0, 1, 0)

/-- `_puck_2d_in_robot_frame(…, type='pose')`. pybullet_envs/air_hockey/single.py L84-91, pybullet_envs/air_hockey/double.py L91-99. -/
def pose2d (frame : Frame) (s : BState) : V2 :=
  let target := frame⁻¹ * (translation s.pos * quatMatrix s.quat)
  (target 0 3, target 1 3)

/-- `_puck_2d_in_robot_frame(…, type='vel')`. pybullet_envs/air_hockey/single.py L92-95, pybullet_envs/air_hockey/double.py L100-103. -/
def vel2d (frame : Frame) (s : BState) : ℝ × ℝ × ℝ :=
  (frame 0 0 * s.vel.1 + frame 1 0 * s.vel.2.1 + frame 2 0 * s.vel.2.2,
   frame 0 1 * s.vel.1 + frame 1 1 * s.vel.2.1 + frame 2 1 * s.vel.2.2, s.ang.2.2)

/-! ### Observations -/

/-- Arrays `a + b`: the lengths agree or one of them has one entry. -/
def addArr (a b : List ℝ) : Option (List ℝ) :=
  if a.length = b.length then some (List.zipWith (· + ·) a b)
  else match a, b with
    | [x], b => some (b.map (x + ·))
    | a, [y] => some (a.map (· + y))
    | _, _ => none

/-- `a[i] += x`. -/
def addAt (a : List ℝ) (i : ℕ) (x : ℝ) : Option (List ℝ) := if i < a.length then some (a.set i (a.getD i 0 + x)) else none

/-- `a[lo:hi]`. -/
def slice (a : List ℝ) (lo hi : ℕ) : List ℝ := (a.take hi).drop lo

/-- `alpha * new + (1 - alpha) * prev[lo:hi]` with `alpha = 0.5`; no previous observation is a `TypeError`. pybullet_envs/air_hockey/single.py L76-78. -/
def lowPass (new : List ℝ) (prev : Option (List ℝ)) (lo hi : ℕ) : Option (List ℝ) := do
  let prev ← prev
  addArr (new.map (0.5 * ·)) ((slice prev lo hi).map (0.5 * ·))

/-- `AirHockeySingle._create_observation`. `noise` are the draws if there is observation noise. pybullet_envs/air_hockey/single.py L50-81. -/
def createObs (noise : Option (ℝ × ℝ × ℝ)) (delay : Bool) (prev : Option (List ℝ)) (s : BState) : Option (List ℝ) := do
  let pose := [(pose2d frame1 s).1, (pose2d frame1 s).2]
  let robotPos := [s.q.1, s.q.2.1, s.q.2.2]
  let pose ← match noise with
    | none => some pose
    | some n => do
      let pose ← addArr pose [n.1 * 0.001, n.2.1 * 0.001]
      addAt pose 2 (n.2.2 * 0.001)
  let vel := [(vel2d frame1 s).1, (vel2d frame1 s).2.1, (vel2d frame1 s).2.2]
  let robotVel := [s.qd.1, s.qd.2.1, s.qd.2.2]
  let vel ← if delay then lowPass vel prev 2 6 else some vel
  let robotVel ← if delay then lowPass robotVel prev 8 11 else some robotVel
  return pose ++ vel ++ robotPos ++ robotVel

/-- `AirHockeyDouble._create_observation` without noise and delay; `q2` and `qd2` are the joints of the second robot. pybullet_envs/air_hockey/double.py L54-88. -/
def createObs2 (s : BState) (q2 qd2 : ℝ × ℝ × ℝ) : List ℝ :=
  [(pose2d frame1 s).1, (pose2d frame1 s).2, (vel2d frame1 s).1, (vel2d frame1 s).2.1, (vel2d frame1 s).2.2,
    s.q.1, s.q.2.1, s.q.2.2, s.qd.1, s.qd.2.1, s.qd.2.2] ++
  [(pose2d frame2 s).1, (pose2d frame2 s).2, (vel2d frame2 s).1, (vel2d frame2 s).2.1, (vel2d frame2 s).2.2,
    q2.1, q2.2.1, q2.2.2, qd2.1, qd2.2.1, qd2.2.2]

/-- Python values that matter here. -/
inductive PyVal where
  | int (n : ℕ)
  | dict (entries : List (String × PyVal))

/-- `value[key]`: a number has no items. -/
def getItem : PyVal → String → Option PyVal
  | .int _, _ => none
  | .dict es, k => es.lookup k

/-- `_simulation_pre_step`: the identifier to which the noise is applied, if there is noise. The values of the model map are the numbers returned by
`loadURDF` or `loadMJCF`. pybullet_envs/air_hockey/base.py L137-141, pybullet.py L65-66, L188-206. -/
def preStep (noise : Bool) (puckId : ℕ) : Option (Option PyVal) :=
  if noise then do
    let puck := PyVal.int puckId
    let i ← getItem puck "id"
    return some i
  else some none

/-! ### Information about the task -/

/-- `MDPInfo`. -/
structure Info where
  low : List ℝ
  high : List ℝ
  gamma : ℝ
  horizon : ℕ
  dt : ℝ

/-- `MDPInfo(observation_space, action_space, gamma, horizon, dt=1e-1)`. core/environment.py L12-30. -/
def Info.make (low high : List ℝ) (gamma : ℝ) (horizon : ℕ) (dt : ℝ := 0.1) : Info := ⟨low, high, gamma, horizon, dt⟩

/-- `AirHockeySingle._modify_mdp_info`; the action space is left out. pybullet_envs/air_hockey/single.py L42-48. -/
def modifyInfo (flags : ℕ) (info : Info) : Info :=
  let idx := [0, 1, 7, 8, 9, 13, 14, 15, 16, 17, 18]
  let low := idx.map (info.low.getD · 0) ++ List.replicate flags 0
  let high := idx.map (info.high.getD · 0) ++ List.replicate flags 1
  Info.make ([-1, -0.5] ++ low.drop 2) ([1, 0.5] ++ high.drop 2) info.gamma info.horizon

/-! ### Kinematics -/

/-- `forward_kinematics`. pybullet_envs/air_hockey/base.py L164-175. -/
def forwardKinematics (q : ℝ × ℝ × ℝ) : ℝ × ℝ × ℝ :=
  (Real.cos q.1 * 0.5 + Real.cos (q.1 + q.2.1) * 0.4 + Real.cos (q.1 + q.2.1 + q.2.2) * 0.4,
   Real.sin q.1 * 0.5 + Real.sin (q.1 + q.2.1) * 0.4 + Real.sin (q.1 + q.2.1 + q.2.2) * 0.4,
   q.1 + q.2.1 + q.2.2)

/-! ### Steps and flags -/

/-- The environment: `_state` and the flags. -/
structure HEnv where
  state : BState
  hit : Bool
  bounce : Bool

/-- `reset` to the given state. pybullet.py L90-96, pybullet_envs/air_hockey/hit.py L78-79. -/
def HEnv.reset (_ : Option HEnv) (s : BState) : HEnv := ⟨s, false, false⟩

/-- The number of contacts of the puck with a link. -/
def contactsWith (contacts : List String) (link : String) : ℕ := contacts.count link

/-- `AirHockeyHit._simulation_post_step`. pybullet_envs/air_hockey/hit.py L138-158. -/
def hitPost (e : HEnv) (contacts : List String) : HEnv :=
  let e := if !e.hit then (if norm2 (xy e.state.vel) > 0.1 then { e with hit := true } else e) else e
  if !e.bounce then
    let n := contactsWith contacts "t_down_rim_l" + contactsWith contacts "t_down_rim_r"
    if n > 0 then { e with bounce := true } else e
  else e

/-- `_simulation_post_step` of the defend, prepare and repel tasks. pybullet_envs/air_hockey/defend.py L124-156, pybullet_envs/air_hockey/prepare.py
L150-182, pybullet_envs/air_hockey/repel.py L118-150. -/
def contactPost (e : HEnv) (contacts : List String) : HEnv :=
  let e := if !e.hit then
      (if contactsWith contacts "planar_robot_1/link_striker_ee" > 0 then { e with hit := true } else e) else e
  if !e.bounce then
    let n := contactsWith contacts "t_up_rim_l" + contactsWith contacts "t_up_rim_r" +
      contactsWith contacts "t_down_rim_l" + contactsWith contacts "t_down_rim_r"
    if n > 0 then { e with bounce := true } else e
  else e

/-- `step`: the simulation steps, given by the contacts after them, and then the new state. pybullet.py L109-138. -/
def HEnv.step (post : HEnv → List String → HEnv) (e : HEnv) (s : List (List String) × BState) : HEnv :=
  { s.1.foldl post e with state := s.2 }

/-! ### Absorbing states -/

/-- The mallet is outside of the table. pybullet_envs/air_hockey/base.py L153-154. -/
def malletOut (s : BState) : Prop := |s.ee.1| > halfLength ∨ |s.ee.2.1| > halfWidth

/-- `AirHockeyBase.is_absorbing`, one agent; `tbt` is `table_boundary_terminate`. pybullet_envs/air_hockey/base.py L143-162. -/
def baseAbsorbing (tbt : Bool) (s : BState) : Prop :=
  (|s.pos.1| > halfLength ∨ |s.pos.2.1| > halfWidth) ∨ |s.pos.2.2 - -0.189| > 0.05 ∨ (tbt = true ∧ malletOut s)

/-- `is_absorbing` of the hit task: `e.state` is the state before the step. pybullet_envs/air_hockey/hit.py L129-136. -/
def hitAbsorbing (tbt : Bool) (e : HEnv) (s : BState) : Prop :=
  baseAbsorbing tbt s ∨ (e.hit = true ∧ norm2 (xy e.state.vel) < 0.01) ∨ e.bounce = true

/-- pybullet_envs/air_hockey/defend.py L116-122. -/
def defendAbsorbing (tbt : Bool) (e : HEnv) (s : BState) : Prop :=
  baseAbsorbing tbt s ∨ ((e.hit = true ∨ e.bounce = true) ∧ s.pos.1 > -0.3)

/-- pybullet_envs/air_hockey/repel.py L113-116. -/
def repelAbsorbing (tbt : Bool) (e : HEnv) (s : BState) : Prop := baseAbsorbing tbt s ∨ e.bounce = true

/-- pybullet_envs/air_hockey/prepare.py L134-148. -/
def prepareAbsorbing (tbt side : Bool) (e : HEnv) (s : BState) : Prop :=
  baseAbsorbing tbt s ∨ (e.hit = true ∧ (e.state.pos.1 > 0 ∨ |e.state.pos.2.1| < 0.01)) ∨ (side = true ∧ e.bounce = true)

/-! ### Rewards -/

/-- What the rewards of the defend, prepare and repel tasks read. pybullet_envs/air_hockey/defend.py L74-75, pybullet_envs/air_hockey/prepare.py L69-72, pybullet_envs/air_hockey/repel.py L75-76. -/
def view (e : HEnv) (s : BState) : View :=
  ⟨xy s.pos, xy s.vel, Real.sqrt (s.vel.1 ^ 2 + s.vel.2.1 ^ 2 + s.vel.2.2 ^ 2), xy s.ee, e.hit, e.bounce⟩

/-- What the reward of the hit task reads: the velocity is that of the state before the step. pybullet_envs/air_hockey/hit.py L83-85. -/
def hitView (e : HEnv) (s : BState) : View := ⟨xy s.pos, xy e.state.vel, norm2 (xy e.state.vel), xy s.ee, e.hit, e.bounce⟩

open Classical in
/-- `AirHockeyHit.reward`. pybullet_envs/air_hockey/hit.py L81-127. -/
def hitRewardB (tbt : Bool) (penalty : ℝ) (p0 : V2) (action : List ℝ) (e : HEnv) (s : BState) (absorbing : Prop) : ℝ :=
  if absorbing ∧ tbt = true ∧ malletOut s then -10 - penalty * normL action
  else hitReward penalty p0 action (hitView e s) absorbing

/-- The state written by a reset. pybullet_envs/air_hockey/hit.py L59-60, pybullet_envs/air_hockey/defend.py L63-64; the velocities restored from the initial state are zero. -/
def resetState (p : V2) (vel ang q ee : ℝ × ℝ × ℝ) : BState := ⟨(p.1, p.2, -0.189), (0, 0, 0, 1), vel, ang, q, (0, 0, 0), ee⟩

end

end Verif.Hockey.Bullet
