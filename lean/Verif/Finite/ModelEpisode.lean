/-
Model of the constructor and of `reset` of /repo/mushroom_rl/environments/finite_mdp.py, and of the environments made by the generators.
-/
import Verif.Finite.Model

namespace Verif.Finite

noncomputable section

/-- A finite environment: its tables and `mu`. -/
structure FEnv where
  mdp : FiniteMDP
  mu : Option (List ℝ)

/-- `FiniteMDP(p, rew, mu)`: `sp` and `sr` are the shapes of the tables, `mu` is an array with one axis. finite_mdp.py L25-40. -/
def newFEnv (sp sr : ℕ × ℕ × ℕ) (p r : ℕ → ℕ → ℕ → ℝ) (mu : Option (List ℝ)) : Except Err FEnv :=
  if sp = sr then
    if ∀ l, mu = some l → sp.1 = l.length then
      .ok ⟨⟨sp.1, sp.2.1, fun s a => (List.range sp.2.2).map (p s a), r⟩, mu⟩
    else .error .assertion
  else .error .assertion

/-- `reset(state)`: the number of the state; `u` is the uniform number drawn by `np.random.choice` with probabilities and `k` the number drawn by
`np.random.choice(n)`. finite_mdp.py L42-52. -/
def FEnv.reset (e : FEnv) (state : Option ℕ) (u : ℝ) (k : ℕ) : Option ℕ :=
  match state with
  | some s => some s
  | none => match e.mu with
    | some mu => choice mu u
    | none => if k < e.mdp.nS then some k else none

/-- `generate_simple_chain`; `mu` is an array with one axis. Goals are below `n`. simple_chain.py L24-29. -/
def chainEnv (n : ℕ) (goals : List ℕ) (prob rew : ℝ) (mu : Option (List ℝ)) : Except Err FEnv :=
  if ∀ l, mu = some l → l.length = n then newFEnv (n, 2, n) (n, 2, n) (chainRow n prob) (chainReward n goals rew) mu else .error .assertion

/-- `generate_grid_world`. generators/grid_world.py L31-36. -/
def gridEnv (text : List Char) (prob pos neg : ℝ) : Except Err FEnv :=
  match generateGrid text prob pos neg with
  | .error e => .error e
  | .ok (n, p, r, mu) => newFEnv (n, 4, n) (n, 4, n) p r (some ((List.range n).map mu))

/-- `generate_taxi`. taxi.py L37-45. -/
def taxiEnv (text : List Char) (prob : ℝ) (rew : List ℝ) : Except Err FEnv :=
  match generateTaxi text prob rew with
  | .error e => .error e
  | .ok (n, p, r, mu) => newFEnv (n, 4, n) (n, 4, n) p r (some ((List.range n).map mu))

end

end Verif.Finite
