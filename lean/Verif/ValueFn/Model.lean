/-
Model of /repo/mushroom_rl/rl_utils/value_functions.py: advantage estimation over a dataset.
Arrays of length `n` are functions on indices, of which only those below `n` are meaningful. Floating point numbers are
real numbers. The regressor `V` is applied by the code to whole arrays: its results enter as `v` and `vNext`.
-/
import Mathlib.Data.Real.Basic

namespace Verif.ValueFn

noncomputable section

/-- The arguments shared by the three functions: `r`, `absorbing`, `last` and the predictions `V(s)`, `V(ss)`.
value_functions.py L4, L40, L69, L98-99. -/
structure Data where
  r : ℕ → ℝ
  v : ℕ → ℝ
  vNext : ℕ → ℝ
  absorbing : ℕ → Bool
  last : ℕ → Bool

/-- `array[k] = x`. -/
def put (g : ℕ → ℝ) (k : ℕ) (x : ℝ) : ℕ → ℝ := fun i => if i = k then x else g i

/-- `int(not flag)`: the factor `1 - absorbing.int()`. -/
def notInt (b : Bool) : ℝ := if b then 0 else 1

/-- The body of the loop of `compute_gae` for one `rev_k`. value_functions.py L101-108. -/
def gaeStep (d : Data) (γ lam : ℝ) (n : ℕ) (g : ℕ → ℝ) (revK : ℕ) : ℕ → ℝ :=
  let k := n - revK - 1
  if d.last k = true ∨ revK = 0 then
    let g := put g k (d.r k - d.v k)
    if d.absorbing k = false then put g k (g k + γ * d.vNext k) else g
  else
    put g k (d.r k + γ * d.vNext k - d.v k + γ * lam * g (k + 1))

/-- The loop of `compute_gae`; `g0` is the uninitialised array of `torch.empty_like`. value_functions.py L100-108. -/
def gaeLoop (d : Data) (γ lam : ℝ) (n : ℕ) (g0 : ℕ → ℝ) : ℕ → ℝ :=
  (List.range n).foldl (gaeStep d γ lam n) g0

/-- `compute_gae`: the value targets and the advantages. value_functions.py L69-109. The same code is
`PPO_BPTT.compute_gae`, algorithms/actor_critic/deep_actor_critic/ppo_bptt.py L174-215. -/
def computeGae (d : Data) (γ lam : ℝ) (n : ℕ) (g0 : ℕ → ℝ) : (ℕ → ℝ) × (ℕ → ℝ) :=
  let g := gaeLoop d γ lam n g0
  (fun i => g i + d.v i, g)

/-- The body of the loop of `compute_advantage_montecarlo`. The loop state is the array `q` and `q_next`.
value_functions.py L31-34. -/
def mcStep (d : Data) (γ : ℝ) (n : ℕ) (g : (ℕ → ℝ) × ℝ) (revK : ℕ) : (ℕ → ℝ) × ℝ :=
  let k := n - revK - 1
  let qNext := d.r k + γ * g.2 * notInt (d.absorbing k)
  (put g.1 k qNext, qNext)

/-- `compute_advantage_montecarlo`: the value targets and the advantages. `V(ss[-1])` is `vNext (n - 1)`.
value_functions.py L4-37. -/
def computeAdvantageMontecarlo (d : Data) (γ : ℝ) (n : ℕ) : (ℕ → ℝ) × (ℕ → ℝ) :=
  let q := ((List.range n).foldl (mcStep d γ n) (fun _ => 0, d.vNext (n - 1))).1
  (q, fun i => q i - d.v i)

/-- `compute_advantage`: one-step bootstrapped targets. value_functions.py L40-66. -/
def computeAdvantage (d : Data) (γ : ℝ) : (ℕ → ℝ) × (ℕ → ℝ) :=
  let vNext := fun i => d.vNext i * notInt (d.absorbing i)
  let q := fun i => d.r i + γ * vNext i
  (q, fun i => q i - d.v i)

end

end Verif.ValueFn
