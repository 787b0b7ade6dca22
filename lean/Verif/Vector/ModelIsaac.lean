/-
Model of /repo/mushroom_rl/environments/isaac_env.py and of utils/isaac_utils.py. The simulator is a family of independent
environments with arbitrary states `E`, actions `A` and observations `X`; what the task computes from a state is arbitrary.
-/
import Verif.Vector.Model

namespace Verif.Vector.Isaac

inductive Err where
  | index      -- IndexError: first key of an empty dictionary
  | attribute  -- AttributeError: a dictionary has no method `clone`
deriving DecidableEq

/-- An observation of a task: a tensor, or a dictionary, given by its values in the order of the keys. -/
inductive Obs (X : Type) where
  | tensor (x : X)
  | dict (values : List (Obs X))

variable {E A X R : Type}

/-- The loop of `convert_task_observation`, with `k` passes left. utils/isaac_utils.py L4-10. -/
def descend : ℕ → Obs X → Except Err (Obs X)
  | 0, o => .ok o
  | _ + 1, .tensor x => .ok (.tensor x)
  | _ + 1, .dict [] => .error .index
  | k + 1, .dict (v :: _) => descend k v

/-- `convert_task_observation(obs).clone()`. environments/isaac_env.py L94-95. -/
def convert (o : Obs X) : Except Err X :=
  match descend 5 o with
  | .ok (.tensor x) => .ok x
  | .ok (.dict _) => .error .attribute
  | .error e => .error e

/-- The task: start state, one physics step, and what is computed from all the states. -/
structure Task (E A X R : Type) where
  start : ℕ → E
  physics : E → A → E
  observe : (ℕ → E) → Obs X
  reward : (ℕ → E) → ℕ → R
  finished : (ℕ → E) → ℕ → Bool
  /-- `control_frequency_inv` -/
  substeps : ℕ

/-- `task.reset_idx(idxs)`. -/
def resetIdx (t : Task E A X R) (idxs : List ℕ) (w : ℕ → E) : ℕ → E := fun i => if i ∈ idxs then t.start i else w i

/-- `torch.argwhere(env_mask).squeeze()`: the selected indices and the number of dimensions. The tensor has shape (k, 1), which
becomes (k,) unless k is one. -/
def selected (n : ℕ) (mask : ℕ → Bool) : List ℕ × ℕ :=
  let idxs := (List.range n).filter mask
  (idxs, if idxs.length = 1 then 0 else 1)

/-- `reset_all`: the states of the environments and the observation; `given` is ignored. environments/isaac_env.py L87-95. -/
def resetAll (t : Task E A X R) (n : ℕ) (mask : ℕ → Bool) (_given : Option (ℕ → E)) (w : ℕ → E) : (ℕ → E) × Except Err X :=
  let (idxs, dim) := selected n mask
  let w := if dim > 0 then resetIdx t idxs w else w
  (w, convert (t.observe w))

/-- The physics steps of `step_all`. environments/isaac_env.py L98-102. -/
def advance (t : Task E A X R) (action : ℕ → A) : ℕ → (ℕ → E) → (ℕ → E)
  | 0, w => w
  | k + 1, w => advance t action k (fun i => t.physics (w i) (action i))

/-- `step_all`: states, observation, rewards and absorbing flags. environments/isaac_env.py L97-110. -/
def stepAll (t : Task E A X R) (mask : ℕ → Bool) (action : ℕ → A) (w : ℕ → E) : (ℕ → E) × Except Err X × (ℕ → R) × (ℕ → Bool) :=
  let w := advance t action t.substeps w
  (w, convert (t.observe w), t.reward w, fun i => t.finished w i && mask i)

end Verif.Vector.Isaac
