/-
Vocabulary for reading and writing the data of MuJoCo environments.
-/
import Verif.Wrap.ModelMjData

namespace Verif.Wrap.MjData

variable {J B S D : Type} [DecidableEq J] [DecidableEq B] [DecidableEq S]

/-- Positions and velocities of joints: what the simulation goes on from. -/
def Src.isJoint : Src J B S → Prop
  | .jointPos _ => True
  | .jointVel _ => True
  | _ => False

/-- Velocities of bodies. -/
def Src.isVelocity : Src J B S → Prop
  | .bodyVel _ => True
  | .bodyVelWorld _ => True
  | _ => False

/-- The data after `n` substeps. -/
def Model.after (m : Model J B S D) (n : ℕ) (x : Data J B S D) : Data J B S D := m.substep^[n] x

/-- The arrays of the joints have the lengths they have in the model. -/
def Model.Shaped (m : Model J B S D) (x : Data J B S D) : Prop :=
  ∀ j, (x.joints.qpos j).length = (m.init.qpos j).length ∧ (x.joints.qvel j).length = (m.init.qvel j).length

end Verif.Wrap.MjData
