/-
Model of /repo/mushroom_rl/environments/mujoco_envs/air_hockey/*.py and mujoco_envs/ball_in_a_cup.py.

The simulator is not modelled: the position and velocity of the free joint of the puck, the position of the end effector, the result of the
forward kinematics and the contacts are arguments. Numbers are reals. Draws of `np.random.rand` are arguments in [0, 1).
A division of a vector by its zero length gives zero here and NaN in numpy; the theorems exclude it where it matters.
-/
import Mathlib.Analysis.SpecialFunctions.Trigonometric.Basic
import Mathlib.Analysis.SpecialFunctions.Exp
import Mathlib.Analysis.SpecialFunctions.Pow.Real
import Mathlib.LinearAlgebra.Matrix.NonsingularInverse
import Mathlib.LinearAlgebra.Matrix.Notation

namespace Verif.Hockey

noncomputable section

/-- A point or vector of the plane. -/
abbrev V2 := ℝ × ℝ

/-- `np.linalg.norm` of two entries. -/
def norm2 (v : V2) : ℝ := Real.sqrt (v.1 ^ 2 + v.2 ^ 2)

/-- `np.linalg.norm` of an array. -/
def normL (v : List ℝ) : ℝ := Real.sqrt ((v.map (· ^ 2)).sum)

/-- `a @ b`. -/
def dot2 (a b : V2) : ℝ := a.1 * b.1 + a.2 * b.2

/-- `(b - a) / np.linalg.norm(b - a)`. mujoco_envs/air_hockey/hit.py L52, L64, L83-85. -/
def unitTo (a b : V2) : V2 := ((b.1 - a.1) / norm2 (b - a), (b.2 - a.2) / norm2 (b - a))

/-- `np.clip(x, 0, 1)`. -/
def clip01 (x : ℝ) : ℝ := min (max x 0) 1

/-- `np.copysign(m, y)`, where the zero has a positive sign. -/
def copysign (m y : ℝ) : ℝ := if y < 0 then -|m| else |m|

/-! ### Base class -/

/-- `env_spec['table']['length'] / 2`. mujoco_envs/air_hockey/base.py L87. -/
def halfLength : ℝ := 1.96 / 2
/-- `env_spec['table']['width'] / 2`. mujoco_envs/air_hockey/base.py L87. -/
def halfWidth : ℝ := 1.02 / 2
/-- `env_spec['table']['goal']`. mujoco_envs/air_hockey/base.py L87. -/
def goalWidth : ℝ := 0.25
/-- `env_spec['mallet']['radius']`. mujoco_envs/air_hockey/base.py L89. -/
def malletRadius : ℝ := 0.05

/-- The entries of an array without those at the given indices: what `remove_obs` leaves of an observation of a joint. -/
def without (removed : List ℕ) (l : List ℝ) : List ℝ := (l.zipIdx.filter fun p => ! removed.contains p.2).map Prod.fst

/-- What `reward`, `is_absorbing` and `get_ee` read: seven positions and six velocities of the free joint of the puck, the position of the
end effector, and the flags of the environment. -/
structure Snap where
  qpos : List ℝ
  qvel : List ℝ
  ee : V2
  hit : Bool
  bounce : Bool

/-- The observed `puck_pos`. mujoco_envs/air_hockey/single.py L25-30. -/
def Snap.posObs (s : Snap) : List ℝ := without [2, 3, 4, 5, 6] s.qpos

/-- The observed `puck_vel`. mujoco_envs/air_hockey/single.py L32-35. -/
def Snap.velObs (s : Snap) : List ℝ := without [2, 3, 4] s.qvel

/-- `get_puck`: position, linear velocity, angular velocity. mujoco_envs/air_hockey/single.py L45-58, mujoco_envs/air_hockey/double.py L56-60. -/
def Snap.getPuck (s : Snap) : V2 × V2 × ℝ :=
  ((s.posObs.getD 0 0, s.posObs.getD 1 0), (s.velObs.getD 1 0, s.velObs.getD 2 0), s.velObs.getD 0 0)

/-- Position of the puck as given by `get_puck`. -/
def Snap.pos (s : Snap) : V2 := s.getPuck.1
/-- Linear velocity of the puck as given by `get_puck`. -/
def Snap.vel (s : Snap) : V2 := s.getPuck.2.1

/-- What the reward functions read: position and linear velocity of the puck, the speed, the position of the end effector and the flags. -/
structure View where
  pos : V2
  vel : V2
  speed : ℝ
  ee : V2
  hit : Bool
  bounce : Bool

/-- What the reward functions of the MuJoCo environments read. -/
def Snap.view (s : Snap) : View := ⟨s.pos, s.vel, norm2 s.vel, s.ee, s.hit, s.bounce⟩

/-- `AirHockeyBase.is_absorbing`. mujoco_envs/air_hockey/base.py L132-139. -/
def baseAbsorbing (s : Snap) : Prop :=
  |s.pos.1| > halfLength ∨ |s.pos.2| > halfWidth ∨ normL s.velObs > 100

/-- A frame of a robot: rotation by `quat` and position of the base. mujoco_envs/air_hockey/base.py L119-125. -/
abbrev Frame := Matrix (Fin 4) (Fin 4) ℝ

/-- `np.eye(4)` with the position in the last column. mujoco_envs/air_hockey/base.py L144-145. -/
def puckFrame (p : V2) : Frame := !![1, 0, 0, p.1; 0, 1, 0, p.2; 0, 0, 1, 0; 0, 0, 0, 1]

/-- `_puck_2d_in_robot_frame(…, type='pose')`. mujoco_envs/air_hockey/base.py L143-148. -/
def poseInFrame (frame : Frame) (p : V2) : V2 :=
  let target := frame⁻¹ * puckFrame p
  (target 0 3, target 1 3)

/-- `_puck_2d_in_robot_frame(…, type='vel')` of the three observed entries: the last two are rotated. mujoco_envs/air_hockey/base.py L150-158. -/
def velInFrame (frame : Frame) (v : ℝ × ℝ × ℝ) : ℝ × ℝ × ℝ :=
  (v.1, frame 0 0 * v.2.1 + frame 1 0 * v.2.2, frame 0 1 * v.2.1 + frame 1 1 * v.2.2)

/-- The entry `puck_vel` of the observation that the agent gets. mujoco_envs/air_hockey/single.py L78, mujoco_envs/air_hockey/double.py L73, L77-78. -/
def observedVel (frame : Frame) (s : Snap) : ℝ × ℝ × ℝ :=
  velInFrame frame (s.velObs.getD 0 0, s.velObs.getD 1 0, s.velObs.getD 2 0)

/-! ### Contacts and flags -/

/-- `_check_collision` of two groups of geometries, given the contacts. mujoco.py L346-358. -/
def collide (contacts : List (String × String)) (g1 g2 : List String) : Bool :=
  contacts.any fun c => (g1.contains c.1 && g2.contains c.2) || (g1.contains c.2 && g2.contains c.1)

/-- Collision group `puck`. mujoco_envs/air_hockey/base.py L43. -/
def groupPuck : List String := ["puck"]
/-- Collision group `rim_short_sides`. mujoco_envs/air_hockey/base.py L45. -/
def groupShort : List String := ["rim_home_l", "rim_home_r", "rim_away_l", "rim_away_r"]
/-- Collision group `robot_1/ee`. mujoco_envs/air_hockey/base.py L62. -/
def groupEe1 : List String := ["planar_robot_1/ee"]

/-- Flags of the one agent environments. mujoco_envs/air_hockey/single.py L42-43. -/
structure Flags where
  hit : Bool
  bounce : Bool

/-- The flags after `setup`. mujoco_envs/air_hockey/single.py L86-87. -/
def Flags.setup (_ : Flags) : Flags := ⟨false, false⟩

/-- `_simulation_post_step`. mujoco_envs/air_hockey/single.py L95-100. -/
def Flags.post (f : Flags) (contacts : List (String × String)) : Flags :=
  let f := if !f.hit then { f with hit := collide contacts groupPuck groupEe1 } else f
  if !f.bounce then { f with bounce := collide contacts groupPuck groupShort } else f

/-- `_create_observation`: what is appended. mujoco_envs/air_hockey/single.py L104. -/
def Flags.observed (f : Flags) : List ℝ := [if f.hit then 1 else 0, if f.bounce then 1 else 0]

/-- Flags of the two agents environment. mujoco_envs/air_hockey/double.py L52-54. -/
structure Flags2 where
  hit1 : Bool
  hit2 : Bool
  bounce : Bool

/-- mujoco_envs/air_hockey/double.py L91-93. -/
def Flags2.setup (_ : Flags2) : Flags2 := ⟨false, false, false⟩

/-- mujoco_envs/air_hockey/double.py L104-112. -/
def Flags2.post (f : Flags2) (contacts : List (String × String)) : Flags2 :=
  let f := if !f.hit1 then { f with hit1 := collide contacts groupPuck groupEe1 } else f
  let f := if !f.hit2 then { f with hit2 := collide contacts groupPuck groupEe1 } else f
  if !f.bounce then { f with bounce := collide contacts groupPuck groupShort } else f

/-- The keys of the additional data of the environment with two agents. mujoco_envs/air_hockey/base.py L40-41, L59-60, L78-79. -/
def dataKeys2 : List String :=
  ["puck_pos", "puck_vel", "robot_1/ee_pos", "robot_1/ee_vel", "robot_2/ee_pos", "robot_2/ee_vel"]

/-- `_read_data`: `none` is the `KeyError` of an unknown name. mujoco.py L295-308. -/
def readData {D : Type} (keys : List String) (value : String → D) (name : String) : Option D :=
  if keys.contains name then some (value name) else none

/-- `AirHockeyDouble.get_ee`. mujoco_envs/air_hockey/double.py L62-67. -/
def getEe2 {D : Type} (value : String → D) (robot : String) : Option (D × D) := do
  let pos ← readData dataKeys2 value ("planar_robot_" ++ robot ++ "/ee_pos")
  let vel ← readData dataKeys2 value ("planar_robot_" ++ robot ++ "/ee_vel")
  return (pos, vel)

/-! ### Constraints -/

/-- The dictionary of constraints. mujoco_envs/air_hockey/single.py L106-136. -/
structure Constraints where
  ee : List ℝ
  jointPos : List ℝ
  jointVel : List ℝ

/-- `_create_info_dictionary`. `fk` is the forward kinematics of the robot at the origin, `base` the position of its base; `posLim` and `velLim`
are pairs of lower and upper limits. mujoco_envs/air_hockey/single.py L106-136. -/
def constraints (fk : List ℝ → V2) (base : V2) (posLim velLim : List ℝ × List ℝ) (qpos qvel : List ℝ) : Constraints :=
  let eePos := ((fk qpos).1 + base.1, (fk qpos).2 + base.2)
  let xLb := -(halfLength + malletRadius)
  let yLb := -(halfWidth - malletRadius)
  let yUb := halfWidth - malletRadius
  ⟨[-eePos.1 + xLb, -eePos.2 + yLb, eePos.2 - yUb],
   List.zipWith (· - ·) qvel posLim.2 ++ List.zipWith (· - ·) posLim.1 qvel,
   List.zipWith (· - ·) qvel velLim.2 ++ List.zipWith (· - ·) velLim.1 qvel⟩

/-! ### Resets -/

/-- `np.random.rand(2) * (range[:, 1] - range[:, 0]) + range[:, 0]`. mujoco_envs/air_hockey/hit.py L39. -/
def uniformIn (range : (ℝ × ℝ) × (ℝ × ℝ)) (u : V2) : V2 :=
  (u.1 * (range.1.2 - range.1.1) + range.1.1, u.2 * (range.2.2 - range.2.1) + range.2.1)

/-- `np.mean(range, axis=1)`. mujoco_envs/air_hockey/hit.py L41. -/
def centre (range : (ℝ × ℝ) × (ℝ × ℝ)) : V2 := ((range.1.1 + range.1.2) / 2, (range.2.1 + range.2.2) / 2)

/-- `np.concatenate([puck_pos, [0, 0, 0, 0, 1]])`. mujoco_envs/air_hockey/hit.py L50. -/
def qposOf (p : V2) : List ℝ := [p.1, p.2, 0, 0, 0, 0, 1]

/-- mujoco_envs/air_hockey/hit.py L29. -/
def hitRange : (ℝ × ℝ) × (ℝ × ℝ) := ((-0.65, -0.25), (-0.4, 0.4))

/-- The position of the puck in `AirHockeyHit.setup`. mujoco_envs/air_hockey/hit.py L38-41. -/
def hitStart (random : Bool) (u : V2) : V2 := if random then uniformIn hitRange u else centre hitRange

/-- The configuration of mujoco_envs/air_hockey/single.py L21. -/
def rightArm : List ℝ := [-0.9273, 0.9273, Real.pi / 2]

/-- `init_state` after `AirHockeyHit.setup`. mujoco_envs/air_hockey/hit.py L45-48. -/
def hitArm (mode : String) (initState : List ℝ) : List ℝ :=
  if mode = "right" then rightArm else if mode = "left" then rightArm.map (-1 * ·) else initState

/-- The goal. mujoco_envs/air_hockey/hit.py L30. -/
def goal : V2 := (0.98, 0)

/-- mujoco_envs/air_hockey/hit.py L55. -/
def effectiveWidth : ℝ := 0.51 - 0.03165

/-- The bounce point. mujoco_envs/air_hockey/hit.py L57-62. -/
def sidePoint (p : V2) : V2 :=
  ((|p.2| * goal.1 + goal.2 * p.1 - effectiveWidth * p.1 - effectiveWidth * goal.1) / (|p.2| + goal.2 - 2 * effectiveWidth),
   copysign effectiveWidth p.2)

/-- `vec_puck_goal`. mujoco_envs/air_hockey/hit.py L52. -/
def vecGoal (p : V2) : V2 := unitTo p goal
/-- `vec_puck_side`. mujoco_envs/air_hockey/hit.py L64. -/
def vecSide (p : V2) : V2 := unitTo p (sidePoint p)

/-- mujoco_envs/air_hockey/defend.py L28, mujoco_envs/air_hockey/repel.py L29. -/
def startRange : (ℝ × ℝ) × (ℝ × ℝ) := ((0.25, 0.65), (-0.4, 0.4))

/-- Position, linear and angular velocity of the puck in the resets of the defend and repel tasks; `v`, `angle` and `w` are the draws of
`np.random.uniform`. mujoco_envs/air_hockey/defend.py L35-51, mujoco_envs/air_hockey/repel.py L37-53. -/
def movingStart (random : Bool) (u : V2) (v angle w : ℝ) : V2 × List ℝ × List ℝ :=
  if random then (uniformIn startRange u, [-Real.cos angle * v, Real.sin angle * v, 0], [0, 0, w])
  else (((startRange.1.1 + startRange.1.2) / 2, 0), [-1, 0, 0], [0, 0, 0])

/-- `np.concatenate([puck_lin_vel, puck_ang_vel])`. mujoco_envs/air_hockey/defend.py L54, mujoco_envs/air_hockey/repel.py L56. -/
def qvelOf (s : V2 × List ℝ × List ℝ) : List ℝ := s.2.1 ++ s.2.2

/-- `start_range` of the prepare task; `none` is Python's None. mujoco_envs/air_hockey/prepare.py L29-33. -/
def prepareRange (sub : String) : Option ((ℝ × ℝ) × (ℝ × ℝ)) :=
  if sub = "side" then some ((-0.8, -0.4), (0.25, 0.46))
  else if sub = "bottom" then some ((-0.9, -0.8), (0.125, 0.46)) else none

/-- Position of the puck in `AirHockeyPrepare.setup`; `flip` is whether the second sign was drawn; `none` is the `TypeError` of indexing None.
mujoco_envs/air_hockey/prepare.py L42-46. -/
def prepareStart (sub : String) (random : Bool) (u : V2) (flip : Bool) : Option V2 := do
  let range ← prepareRange sub
  if random then
    let p := uniformIn range u
    return (p.1 * 1, p.2 * (if flip then -1 else 1))
  else return centre range

/-- The snapshot after a reset: the velocity of `mj_resetData` is zero where it is not written. -/
def resetSnap (p : V2) (qvel : List ℝ) (ee : V2) : Snap := ⟨qposOf p, qvel, ee, false, false⟩

/-- The velocities after `mj_resetData`. -/
def zeroVel : List ℝ := [0, 0, 0, 0, 0, 0]

/-! ### Absorbing states -/

/-- `AirHockeyDefend.is_absorbing`. mujoco_envs/air_hockey/defend.py L100-104. -/
def defendAbsorbing (s : Snap) : Prop := ((s.hit = true ∨ s.bounce = true) ∧ s.pos.1 > 0) ∨ baseAbsorbing s

/-- `AirHockeyRepel.is_absorbing`. mujoco_envs/air_hockey/repel.py L100-103. -/
def repelAbsorbing (s : Snap) : Prop := baseAbsorbing s ∨ s.bounce = true

/-- `AirHockeyPrepare.is_absorbing`. mujoco_envs/air_hockey/prepare.py L121-135. -/
def prepareAbsorbing (side : Bool) (s : Snap) : Prop :=
  baseAbsorbing s ∨ (s.hit = true ∧ (s.pos.1 > 0 ∨ |s.pos.2| < 0.01)) ∨ (side = true ∧ s.bounce = true)

/-! ### Rewards -/

/-- `1. / (np.sqrt(2. * np.pi) * sig) * np.exp(-np.power(x / sig, 2.) / 2)`. mujoco_envs/air_hockey/hit.py L100. -/
def gauss (sig x : ℝ) : ℝ := 1 / (Real.sqrt (2 * Real.pi) * sig) * Real.exp (-(x / sig) ^ 2 / 2)

/-- `np.exp(-8 * (dist_ee_puck - 0.08)) * cos_ang ** 2`. mujoco_envs/air_hockey/hit.py L93. -/
def approach (dist cos : ℝ) : ℝ := Real.exp (-8 * (dist - 0.08)) * cos ^ 2

open Classical in
/-- `AirHockeyHit.reward`; `p0` is the position of the puck at the last reset. mujoco_envs/air_hockey/hit.py L68-106. -/
def hitReward (penalty : ℝ) (p0 : V2) (action : List ℝ) (s : View) (absorbing : Prop) : ℝ :=
  let r : ℝ :=
    if absorbing then
      if s.pos.1 - halfLength > 0 ∧ |s.pos.2| - goalWidth < 0 then 200 else 0
    else if ¬ s.hit = true then
      let vec := unitTo s.ee s.pos
      let cosSide := clip01 (dot2 (vecSide p0) vec)
      let cosGoal := clip01 (dot2 (vecGoal p0) vec)
      approach (norm2 (s.pos - s.ee)) (max cosGoal cosSide)
    else
      let rHit := 0.25 + min 1 (0.25 * s.vel.1 ^ 4)
      let rGoal := if s.pos.1 > 0.7 then gauss 0.1 (s.pos.2 - 0) else 0
      2 * rHit + 10 * rGoal
  r - penalty * normL action

/-- The reward before a hit of the defend and repel tasks. mujoco_envs/air_hockey/defend.py L83-94, mujoco_envs/air_hockey/repel.py L84-93. -/
def guardReward (s : View) : ℝ :=
  let dx := |-0.6 - s.ee.1|
  let dy := |s.pos.2 - s.ee.2|
  0.3 * Real.exp (-3 * dx) + 0.7 * (gauss 0.2 (dy - 0.08) / 2)

open Classical in
/-- `AirHockeyDefend.reward`. mujoco_envs/air_hockey/defend.py L58-98. -/
def defendReward (penalty : ℝ) (action : List ℝ) (s : View) (absorbing : Prop) : ℝ :=
  let r : ℝ :=
    if absorbing then
      if s.pos.1 + halfLength < 0 ∧ |s.pos.2| - goalWidth < 0 then -50 else 0
    else if s.bounce = true then -1
    else if s.hit = true then
      if -0.8 < s.pos.1 ∧ s.pos.1 < -0.4 then
        let rY := 3 * Real.exp (-3 * |s.pos.2|)
        let rX := Real.exp (-5 * |s.pos.1 + 0.6|)
        let rVel := 5 * Real.exp (-(5 * s.speed) ^ 2)
        rX + rY + rVel + 1
      else 0
    else guardReward s
  r - penalty * normL action

open Classical in
/-- `AirHockeyRepel.reward`. mujoco_envs/air_hockey/repel.py L61-97. -/
def repelReward (penalty : ℝ) (action : List ℝ) (s : View) (absorbing : Prop) : ℝ :=
  let r : ℝ :=
    if absorbing then
      if s.pos.1 + halfLength < 0 ∧ |s.pos.2| - goalWidth < 0 then -50 else 0
    else if s.hit = true then
      let rX := s.pos.1 + 0.98
      let rVel := min (s.vel.1 ^ 3) 5
      let r := rX + rVel + 1
      if s.pos.1 > 0.9 then r + 100 * Real.exp (-3 * |s.pos.2|) else r
    else guardReward s
  r - penalty * normL action

/-- `ee_end_pos`. mujoco_envs/air_hockey/prepare.py L36. -/
def eeEnd : V2 := (-0.810001913, -0.00000143459494)

open Classical in
/-- `AirHockeyPrepare.reward`. mujoco_envs/air_hockey/prepare.py L55-119. -/
def prepareReward (side : Bool) (penalty : ℝ) (action : List ℝ) (s : View) (absorbing : Prop) : ℝ :=
  let bonus := 100 * Real.exp (-2 * norm2 s.vel)
  let dist := norm2 (s.pos - s.ee)
  let vec := unitTo s.ee s.pos
  if side then
    if absorbing ∧ |s.pos.2| < 0.47 then bonus
    else
      (if s.hit = true then
        if s.pos.1 < -0.35 ∧ |s.pos.2| < 0.47 then
          let rVel := max 0 (1 - 10 * (Real.exp |s.vel.1| - 1))
          let rEe := 0.5 - norm2 (s.ee - eeEnd)
          rVel + rEe + 1
        else 0
      else approach dist (clip01 (dot2 vec (0, copysign 1 s.pos.2)))) - penalty * normL action
  else
    if absorbing ∧ s.pos.1 ≥ -0.6 then bonus
    else
      (if s.hit = true then
        if -0.6 > s.pos.1 ∧ s.pos.1 > -0.9 ∧ |s.pos.2| < 0.47 then
          let rX := gauss 0.1 (s.pos.1 + 0.75)
          let rY := 2 - |s.vel.2|
          let rEe := 0.5 * Real.exp (-3 * norm2 (s.ee - eeEnd))
          rX + rY + rEe + 1
        else 0
      else
        let cosSide := clip01 (dot2 vec (0.2, copysign 0.8 s.pos.2))
        let cosBottom := clip01 (dot2 vec (-1, 0))
        approach dist (max cosSide cosBottom)) - penalty * normL action

/-! ### Ball in a cup -/

/-- `linear_movement` of one joint. ball_in_a_cup.py L91-94. -/
def linearMovement (start stop : ℝ) (n i : ℕ) : ℝ := start + (stop - start) * min 1 ((i : ℝ) / (n : ℝ))

/-- The parts of `MjData` used by the reset and the task. `D` is the whole data. -/
structure Phys (D : Type) where
  init : D
  qpos : D → List ℝ
  qvel : D → List ℝ
  bias : D → List ℝ
  control : D → List ℝ → D
  step : D → D
  dist : D → ℝ
  touches : D → Bool

/-- `init_robot_pos`. ball_in_a_cup.py L57. -/
def cupArm : List ℝ := [0.0, 0.58760536, 0.0, 1.36004913, 0.0, -0.32072943, -1.57]
/-- ball_in_a_cup.py L58. -/
def pGains : List ℝ := [200, 400, 100, 100, 10, 10, 5]
/-- ball_in_a_cup.py L59. -/
def dGains : List ℝ := [7, 15, 5, 2.5, 0.3, 0.3, 0.05]

/-- Body of the loop of `setup`: the control of iteration `i`. ball_in_a_cup.py L78-85. -/
def settleStep {D : Type} (p : Phys D) (init : List ℝ) (d : D) (i : ℕ) : D :=
  let cur := (p.qpos d).take 7
  let vel := (p.qvel d).take 7
  let target := List.zipWith (fun a b => linearMovement a b 250 i) init cupArm
  let trq := List.zipWith (· + ·) (List.zipWith (· * ·) pGains (List.zipWith (· - ·) target cur))
    (List.zipWith (· * ·) dGains (vel.map (0 - ·)))
  p.step (p.control d (List.zipWith (· + ·) ((p.bias d).take 7) trq))

/-- The loop of the first `setup`. ball_in_a_cup.py L74-85. -/
def settle {D : Type} (p : Phys D) (d : D) : D := (List.range 5000).foldl (settleStep p ((p.qpos d).take 7)) d

/-- The environment: its data and `_reset_state`. -/
structure Cup (D : Type) where
  data : D
  saved : Option D

/-- `reset`: `mj_resetData`, then `setup`. Copies are values. mujoco.py L118-123, ball_in_a_cup.py L71-89. -/
def Cup.reset {D : Type} (p : Phys D) (c : Cup D) : Cup D :=
  match c.saved with
  | none => let d := settle p p.init; ⟨d, some d⟩
  | some d => ⟨d, some d⟩

/-- Any simulation step. -/
def Cup.move {D : Type} (f : D → D) (c : Cup D) : Cup D := { c with data := f c.data }

open Classical in
/-- `reward`. ball_in_a_cup.py L63-65. -/
def cupReward {D : Type} (p : Phys D) (d : D) : ℝ := if p.dist d < 0.05 then 1 else 0

/-- `is_absorbing`. ball_in_a_cup.py L67-69. -/
def cupAbsorbing {D : Type} (p : Phys D) (d : D) : Prop := p.dist d < 0.05 ∨ p.touches d = true

end

end Verif.Hockey
