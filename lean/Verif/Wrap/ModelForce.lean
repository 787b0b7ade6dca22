/-
`MuJoCo._get_collision_force`.

File: mushroom_rl/environments/mujoco.py.
-/
import Verif.Wrap.ModelMujoco

namespace Verif.Wrap

/-- `_get_collision_force`; contacts are pairs of geometries with what `mj_contactForce` computes for them. mujoco.py L360-391. -/
def collisionForce {F : Type} (zero : F) : List ((ℕ × ℕ) × F) → (ids1 ids2 : ℕ → Bool) → F
  | [], _, _ => zero
  | (c, force) :: rest, ids1, ids2 =>
    if (ids1 c.1 && ids2 c.2) || (ids2 c.1 && ids1 c.2) then force else collisionForce zero rest ids1 ids2

end Verif.Wrap
