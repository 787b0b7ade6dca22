/-
Model of the interface of a single environment that vectorised environments offer, and of the initial states given to them:
/repo/mushroom_rl/core/vectorized_env.py, multiprocess_environment.py and the reset of vectorized_core.py. The order of the messages is the
subject of `Verif.Vector.Pipes`; here every worker answers at once.
-/
import Mathlib.Data.Real.Basic

namespace Verif.Vector.Single

/-- Numbers, vectors and matrices. -/
inductive Val
  | scalar (x : ℝ)
  | vec (l : List ℝ)
  | mat (rows : List (List ℝ))

/-- `v[i, :]`: only for matrices. -/
def Val.row (i : ℕ) : Val → Option Val
  | .mat rows => (rows[i]?).map .vec
  | _ => none

/-- `v[i]`. -/
def Val.item (i : ℕ) : Val → Option Val
  | .scalar _ => none
  | .vec l => (l[i]?).map .scalar
  | .mat rows => (rows[i]?).map .vec

/-- An environment: the methods `step` and `reset`; `none` for an exception. -/
structure Env (E X : Type) where
  step : E → Val → Option (E × X × ℝ × Bool)
  reset : E → Option Val → Option (E × X)

/-- The processes and the last observations. -/
structure Multi (E X : Type) where
  envs : ℕ → E
  states : ℕ → X

variable {E X : Type}

def upd {α : Type} (f : ℕ → α) (i : ℕ) (x : α) : ℕ → α := fun j => if j = i then x else f j

/-- The arrays that a step returns: `rewards` is allocated with `np.empty`. -/
structure Result (X : Type) where
  states : ℕ → X
  rewards : ℕ → Option ℝ
  absorbing : ℕ → Bool

/-- `_env_worker` for a step and the parent for its answer. multiprocess_environment.py L19-22, L114-116, L122-131. -/
def stepOne (env : Env E X) (action : Val) (s : Multi E X × Result X) (i : ℕ) : Option (Multi E X × Result X) :=
  (action.row i).bind (fun a => (env.step (s.1.envs i) a).map (fun r =>
    let states := upd s.1.states i r.2.1
    (⟨upd s.1.envs i r.1, states⟩, ⟨states, upd s.2.rewards i (some r.2.2.1), upd s.2.absorbing i r.2.2.2⟩)))

/-- `step_all`. multiprocess_environment.py L113-133. -/
def stepAll (env : Env E X) (n : ℕ) (mask : ℕ → Bool) (action : Val) (s : Multi E X) : Option (Multi E X × Result X) :=
  ((List.range n).filter mask).foldlM (stepOne env action) (s, ⟨s.states, fun _ => none, fun _ => false⟩)

/-- `_env_worker` for a reset, which takes the first element of the data, and the parent. multiprocess_environment.py L23-29, L96-107. -/
def resetOne (env : Env E X) (state : Option Val) (s : Multi E X) (i : ℕ) : Option (Multi E X) :=
  let initial : Option (Option Val) := match state with
    | none => some none
    | some v => ((v.row i).bind (Val.item 0)).map some
  initial.bind (fun x => (env.reset (s.envs i) x).map (fun r => ⟨upd s.envs i r.1, upd s.states i r.2⟩))

/-- `reset_all`. multiprocess_environment.py L95-111. -/
def resetAll (env : Env E X) (n : ℕ) (mask : ℕ → Bool) (state : Option Val) (s : Multi E X) : Option (Multi E X) :=
  ((List.range n).filter mask).foldlM (resetOne env state) s

/-- `set_default_env`. vectorized_env.py L74-84. -/
def setDefault (n : ℕ) (id : ℤ) : Option ℤ := if id < n then some id else none

/-- `env_mask[self._default_env] = True`: negative indices count from the end. vectorized_env.py L18-19, L23-24, L28-29. -/
def defaultMask (n : ℕ) (id : ℤ) : Option (ℕ → Bool) :=
  if 0 ≤ id ∧ id < n then some (fun j => decide ((j : ℤ) = id))
  else if -(n : ℤ) ≤ id ∧ id < 0 then some (fun j => decide ((j : ℤ) = n + id))
  else none

/-- `VectorizedEnvironment.step`. vectorized_env.py L22-25. -/
def step (env : Env E X) (n : ℕ) (id : ℤ) (action : Val) (s : Multi E X) : Option (Multi E X × Result X) :=
  (defaultMask n id).bind (fun m => stepAll env n m action s)

/-- `VectorizedEnvironment.reset`. vectorized_env.py L17-20. -/
def reset (env : Env E X) (n : ℕ) (id : ℤ) (state : Option Val) (s : Multi E X) : Option (Multi E X) :=
  (defaultMask n id).bind (fun m => resetAll env n m state s)

/-- The initial state that `VectorCore` takes out of `initial_states` at a reset. vectorized_core_logic.py L47-53. -/
def initialState (initialStates : Option Val) (episodes nEpisodes : ℕ) : Option (Option Val) :=
  match initialStates with
  | none => some none
  | some v => if nEpisodes ≤ episodes then some none else (v.item episodes).map some

/-- The reset of `VectorCore`. vectorized_core.py L184-186. -/
def coreReset (env : Env E X) (n : ℕ) (mask : ℕ → Bool) (initialStates : Option Val) (episodes nEpisodes : ℕ) (s : Multi E X) :
    Option (Multi E X) :=
  (initialState initialStates episodes nEpisodes).bind (fun x => resetAll env n mask x s)

end Verif.Vector.Single
