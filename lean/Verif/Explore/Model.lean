/-
Model of /repo/mushroom_rl/policy/noise_policy.py, deterministic_policy.py, promps.py and dmp.py.

Regressors are arbitrary functions. Real numbers stand for floats, the numbers drawn by `randn` are arguments, and `none` stands for an
exception. Weights are left to the regressors, see Verif.Approx.
-/
import Mathlib.Data.Real.Sqrt
import Mathlib.Data.Real.Basic
import Mathlib.LinearAlgebra.Matrix.Notation
import Mathlib.Data.Matrix.Mul

namespace Verif.Explore

open Matrix

/-- A vector with one number per component of the action. -/
abbrev Vec (n : ℕ) := Fin n → ℝ

/-! ### noise_policy.py -/

/-- `OrnsteinUhlenbeckPolicy`. noise_policy.py L15-33. -/
structure OU (S : Type) (n : ℕ) where
  mu : S → Vec n
  sigma : Vec n
  theta : ℝ
  dt : ℝ
  x0 : Option (Vec n)

/-- `reset`: the first policy state of an episode. noise_policy.py L71-72. -/
def OU.reset {S : Type} {n : ℕ} (p : OU S n) : Vec n :=
  match p.x0 with
  | some x => x
  | none => fun _ => 0

/-- `draw_action`: the action and the next policy state; `xi` is what `randn` returns. noise_policy.py L51-59. -/
noncomputable def OU.drawAction {S : Type} {n : ℕ} (p : OU S n) (state : S) (policyState xi : Vec n) : Vec n × Vec n :=
  let x : Vec n := fun j => policyState j - p.theta * policyState j * p.dt + p.sigma j * Real.sqrt p.dt * xi j
  (fun j => p.mu state j + x j, x)

/-- An episode: the states that are visited with the numbers that are drawn. The policy state is handed from step to step
(core.py L119-120, agent.py L92-104). The result is the list of the actions. -/
noncomputable def OU.actions {S : Type} {n : ℕ} (p : OU S n) : Vec n → List (S × Vec n) → List (Vec n)
  | _, [] => []
  | x, (s, xi) :: rest =>
    let r := p.drawAction s x xi
    r.1 :: p.actions r.2 rest

/-- `ClippedGaussianPolicy`. noise_policy.py L89-107. -/
structure ClippedGaussian (S : Type) (n : ℕ) where
  mu : S → Vec n
  cholSigma : Matrix (Fin n) (Fin n) ℝ
  low : Vec n
  high : Vec n

/-- `torch.clip`: the upper bound wins if the bounds are crossed. noise_policy.py L129. -/
noncomputable def clip (x low high : ℝ) : ℝ := min (max x low) high

/-- `draw_action`; `MultivariateNormal.sample` is the mean plus the factor times standard normal numbers. noise_policy.py
L120-129. -/
noncomputable def ClippedGaussian.drawAction {S : Type} {n : ℕ} (p : ClippedGaussian S n) (state : S) (xi : Vec n) : Vec n :=
  let raw : Vec n := p.mu state + p.cholSigma *ᵥ xi
  fun j => clip (raw j) (p.low j) (p.high j)

/-! ### deterministic_policy.py -/

/-- `DeterministicPolicy.draw_action`. deterministic_policy.py L45-46. -/
def detDraw {S A : Type} (mu : S → A) (state : S) : A := mu state

/-- `DeterministicPolicy.__call__`. deterministic_policy.py L40-43. -/
def detProb {S A : Type} [DecidableEq A] (mu : S → A) (state : S) (action : A) : ℚ :=
  if action = mu state then 1 else 0

/-! ### promps.py -/

/-- `ProMP`: the regressor on time features as a function of the phase, the duration and the flag. promps.py L16-39. -/
structure ProMP (A : Type) where
  mean : ℚ → A
  duration : ℕ
  periodic : Bool

/-- `_compute_phase` as it is defined. promps.py L85-96. -/
def ProMP.phase {A : Type} (p : ProMP A) (policyState : ℕ) : ℚ := policyState / p.duration

/-- `update_time`. promps.py L70-83. -/
def ProMP.updateTime {A : Type} (p : ProMP A) (policyState : ℕ) : ℕ :=
  let t := policyState + 1
  if !p.periodic && p.duration ≤ t then p.duration else t

/-- A Python method with one required argument more than it is given: `TypeError`. -/
def callWith {α β γ : Type} (f : α → β → γ) (a : Option α) (b : Option β) : Option γ :=
  match a, b with
  | some a, some b => some (f a b)
  | _, _ => none

/-- `draw_action` without noise. The phase is asked for with the state only. promps.py L58-68. -/
def ProMP.drawAction {S A : Type} (p : ProMP A) (state : S) (policyState : ℕ) : Option (A × ℕ) :=
  (callWith (fun (_ : S) t => p.phase t) (some state) none).map (fun z => (p.mean z, p.updateTime policyState))

/-- `set_duration`. promps.py L108-114. -/
def ProMP.setDuration {A : Type} (p : ProMP A) (duration : ℕ) : Option (ProMP A) :=
  if 2 ≤ duration then some { p with duration := duration - 1 } else none

/-! ### dmp.py -/

/-- `DMP` for actions with `n` components: the forcing regressor on the features of the phase, the constants, and the state. The
gains are arrays in the code with one number per component. dmp.py L14-33. -/
structure DMP (n : ℕ) where
  force : Vec n → Vec n
  goal : Vec n
  dt : ℝ
  tau : ℝ
  alphaV : ℝ
  betaV : ℝ
  alphaZ : ℝ
  betaZ : ℝ
  v : Vec n
  x : Vec n
  z : Vec n
  y : Vec n

/-- `reset`. dmp.py L107-112. -/
def DMP.reset {n : ℕ} (p : DMP n) : DMP n := { p with v := 0, x := 0, z := 0, y := 0 }

/-- `update_system`. A zero component of the goal is a division by zero in the code, which gives NaN or infinity; it is a zero here.
dmp.py L65-95. -/
noncomputable def DMP.update {n : ℕ} (p : DMP n) : DMP n :=
  let f : Vec n := fun j => p.force (fun i => p.x i / p.goal i) j * p.v j
  let vDot : Vec n := fun j => p.alphaV * (p.betaV * (p.goal j - p.y j) - p.v j) / p.tau
  let xDot : Vec n := fun j => p.v j / p.tau
  let zDot : Vec n := fun j => p.alphaZ * (p.betaZ * (p.goal j - p.y j) - p.z j) / p.tau
  let yDot : Vec n := fun j => (p.z j + f j) / p.tau
  { p with
    v := fun j => p.v j + vDot j * p.dt
    x := fun j => p.x j + xDot j * p.dt
    z := fun j => p.z j + zDot j * p.dt
    y := fun j => p.y j + yDot j * p.dt }

/-- The arrays that `draw_action` has returned, at the time of the last of `k` calls. All of them are `self._y`, which `+=` changes
in place. dmp.py L54-57, L83. -/
noncomputable def DMP.returned {n : ℕ} (p : DMP n) (k : ℕ) : List (Vec n) := List.replicate k (DMP.update^[k] p).y

/-- What the policy promises: the `i`-th action is the output of the system after `i + 1` updates. -/
noncomputable def DMP.outputs {n : ℕ} (p : DMP n) (k : ℕ) : List (Vec n) := (List.range k).map (fun i => (DMP.update^[i + 1] p).y)

/-! ### Giving a policy to an agent -/

/-- An object: the attributes that its constructors have set. Only the shape of the policy state is a value here. -/
abbrev Attributes := List (String × Option (List ℕ))

/-- `Policy.__init__`: sets `policy_state_shape`. policy.py L12-24. -/
def policyInit (shape : Option (List ℕ)) : Attributes := [("policy_state_shape", shape)]

/-- `DMP.__init__`: the constructor of the parent class is not called. dmp.py L14-48. -/
def dmpInit : Attributes :=
  ["_approximator", "_phi", "_g", "_dt", "_tau", "_alpha_v", "_beta_v", "_alpha_z", "_beta_z", "_v", "_x", "_z", "_y",
    "_save_attributes"].map (fun a => (a, none))

/-- `OrnsteinUhlenbeckPolicy.__init__` (noise_policy.py L27-46), `ClippedGaussianPolicy.__init__` (L102-117),
`DeterministicPolicy.__init__` (deterministic_policy.py L13-26) and `ProMP.__init__` (promps.py L33-47) call it. -/
def otherInit (own : List String) (shape : Option (List ℕ)) : Attributes := own.map (fun a => (a, none)) ++ policyInit shape

/-- `Agent.__init__`: reads `policy.policy_state_shape`; a missing attribute is an `AttributeError` (`none`). agent.py L43-48. The result is the
shape that the agent stores. -/
def agentInit (policy : Attributes) : Option (Option (List ℕ)) := policy.lookup "policy_state_shape"

end Verif.Explore
