/-
The MuJoCo air hockey environment with two agents: observed positions and constraints.

File: mushroom_rl/environments/mujoco_envs/air_hockey/double.py.
-/
import Verif.Hockey.Model

namespace Verif.Hockey

noncomputable section

/-- The entries `puck_pos` and `robot_2/puck_pos` of the observation that `_modify_observation` returns, for the frames of the two robots and the position of
the puck; `u` is the draw of `np.random.randn(2)`. mujoco_envs/air_hockey/double.py L69-85. -/
def observedPos2 (obsNoise : Bool) (frame1 frame2 : Frame) (u : V2) (p : V2) : V2 × V2 :=
  let p1 := poseInFrame frame1 p
  let p2 := poseInFrame frame2 p
  if obsNoise then
    let noise := (u.1 * 0.001, u.2 * 0.001)
    ((p1.1 + noise.1, p1.2 + noise.2), (p2.1 + noise.1, p2.2 + noise.2))
  else (p1, p2)

/-- `x[i * 3: (i+1) * 3]` -/
def third (i : ℕ) (x : List ℝ) : List ℝ := (x.drop (i * 3)).take ((i + 1) * 3 - i * 3)

/-- `_create_info_dictionary`: the constraints by the key of the agent. `fk` is the forward kinematics of the first robot at the origin and `base1` the position of
its base, both used for either agent; positions, velocities and limits are those of all the joints. mujoco_envs/air_hockey/double.py L119-151. -/
def constraints2 (fk : List ℝ → V2) (base1 : V2) (posLim velLim : List ℝ × List ℝ) (qpos qvel : List ℝ) : List (String × Constraints) :=
  [("agent-1", 0), ("agent-2", 1)].map fun (key, i) =>
    (key, constraints fk base1 (third i posLim.1, third i posLim.2) (third i velLim.1, third i velLim.2) (third i qpos) (third i qvel))

end

end Verif.Hockey
