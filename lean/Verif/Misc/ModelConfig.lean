/-
Model of what the constructors of the agents do with the objects the caller passes: configuration dictionaries and policies.

Files: mushroom_rl/algorithms/actor_critic/deep_actor_critic/{ddpg,td3,sac}.py, mushroom_rl/algorithms/value/batch_td/{batch_td,fqi,double_fqi,boosted_fqi}.py,
mushroom_rl/algorithms/value/dqn/{abstract_dqn,maxmin_dqn}.py, mushroom_rl/algorithms/value/td/td.py, mushroom_rl/policy/td_policy.py, mushroom_rl/approximators/regressor.py.

Dictionaries are maps from keys to numbers: no constructor looks at the other values before it hands them to the approximator. Objects are named by the numbers of their cells, so that two agents can be
given the same object.
-/
import Mathlib.Data.List.Basic
import Mathlib.Tactic.Common

namespace Verif.Misc.Config

/-- A python dictionary. -/
abbrev Dict := String → Option ℕ

/-- `d[key] = value`. -/
def Dict.put (d : Dict) (key : String) (value : ℕ) : Dict := fun k => if k = key then some value else d k

inductive Err where
  | assertion
  | key
  | type
  deriving DecidableEq, Repr

/-- Agents that are built from a dictionary of the parameters of an approximator. `boosted` carries `n_iterations`. -/
inductive Kind where
  | ddpg
  | td3
  | sac
  | fqi
  | doubleFqi
  | boosted (iterations : ℕ)
  deriving DecidableEq

/-- `Regressor(approximator, **params)`: regressor.py L60-64: `none` is a single model, `some n` an ensemble of `n` models. -/
def regressor (d : Dict) : Except Err (Option ℕ) :=
  match d "n_models" with
  | none => .ok none
  | some n => if 1 ≤ n then .ok (some n) else .error .assertion

/-- The constructor of an agent for the dictionary the caller passed (`none` for the default `None`): the dictionary the caller has afterwards and the models of the agent, or the exception.
`None` always fails: DDPG, TD3 and SAC cannot unpack it, DoubleFQI and BoostedFQI index it, and FQI replaces it by an empty dictionary, which lacks
the required `input_shape`. Other required keys are taken to be present. DDPG: ddpg.py L56-58. TD3: td3.py L50-56. SAC: sac.py L223-230. FQI: batch_td.py L23-27. DoubleFQI: double_fqi.py L14-19. BoostedFQI: boosted_fqi.py L19, L30. -/
def build (k : Kind) (d : Option Dict) : Option Dict × Except Err (Option ℕ) :=
  match k, d with
  | _, none => (none, .error .type)
  | .ddpg, some d => (some d, regressor d)
  | .td3, some d =>
    match d "n_models" with
    | some n => if 2 ≤ n then (some d, regressor d) else (some d, .error .assertion)
    | none => (some (d.put "n_models" 2), regressor (d.put "n_models" 2))
  | .sac, some d =>
    match d "n_models" with
    | some n => if n = 2 then (some d, regressor d) else (some d, .error .assertion)
    | none => (some (d.put "n_models" 2), regressor (d.put "n_models" 2))
  | .fqi, some d => (some d, regressor d)
  | .doubleFqi, some d => (some (d.put "n_models" 2), regressor (d.put "n_models" 2))
  | .boosted it, some d =>
    match d "n_models" with
    | none => (some d, .error .key)
    | some n => if n = it then (some d, regressor d) else (some d, .error .assertion)

/-- The dictionaries of a program, by cell; `none` is the value `None`. -/
abbrev Store := ℕ → Option Dict

/-- A program that builds agents one after the other, each from the dictionary in a cell; an exception is caught by the program. The store afterwards and the outcome of every constructor. -/
def session : List (Kind × ℕ) → Store → Store × List (Except Err (Option ℕ))
  | [], σ => (σ, [])
  | (k, c) :: ops, σ =>
    let r := build k (σ c)
    let rest := session ops (fun x => if x = c then r.1 else σ x)
    (rest.1, r.2 :: rest.2)

/-! ### The dictionary of fit parameters -/

/-- Agents with a dictionary of fit parameters: MaxminDQN with its number of models, another DQN with one model, DoubleFQI. -/
inductive Fitter where
  | maxmin (models : ℕ)
  | dqn
  | doubleFqi

/-- What one call of `fit` trains: the models with these indexes, or a single network that is called with the keyword `idx`, which it does not know, or an exception. -/
inductive Trained where
  | models (l : List ℕ)
  | single
  | unknownKeyword
  | duplicateKeyword
  deriving DecidableEq, Repr

/-- One call of `fit`, the memory being initialised. MaxminDQN (maxmin_dqn.py L28-31) writes the drawn index into the dictionary it was given (abstract_dqn.py L43); the others hand the dictionary to the fit
of the regressor: abstract_dqn.py L101, double_fqi.py L51-53. -/
def fit (f : Fitter) (draw : ℕ) (d : Dict) : Dict × Trained :=
  match f with
  | .maxmin n =>
    let d := d.put "idx" (draw % n)
    (d, match d "idx" with
      | some i => .models [i]
      | none => .models (List.range n))
  | .dqn => (d, if d "idx" = none then .single else .unknownKeyword)
  | .doubleFqi => (d, if d "idx" = none then .models [0, 1] else .duplicateKeyword)

/-- A sequence of calls of `fit` by agents whose dictionaries are in cells. -/
def fits : List (Fitter × ℕ × ℕ) → (ℕ → Dict) → (ℕ → Dict) × List Trained
  | [], σ => (σ, [])
  | (f, c, draw) :: ops, σ =>
    let r := fit f draw (σ c)
    let rest := fits ops (fun x => if x = c then r.1 else σ x)
    (rest.1, r.2 :: rest.2)

/-! ### The policy -/

/-- Building value-based agents one after the other: `policies[i]` is the cell of the policy of the `i`-th agent. `policy.set_q(approximator)` (td.py L22, batch_td.py L28, abstract_dqn.py L68, td_policy.py L23-29)
stores the approximator of the agent in the policy. The result says whose approximator the policy in a cell uses. -/
def policyOf : List ℕ → ℕ → (ℕ → Option ℕ) → ℕ → Option ℕ
  | [], _, p => p
  | c :: cs, i, p => policyOf cs (i + 1) (fun x => if x = c then some i else p x)

end Verif.Misc.Config
