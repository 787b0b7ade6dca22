/-
Model of /repo/mushroom_rl/solvers: dynamic_programming.py, car_on_hill.py and lqr.py. Floating point numbers are real
numbers; linear systems are solved exactly.
-/
import Mathlib.Data.Real.Sqrt
import Mathlib.Algebra.BigOperators.Fin
import Mathlib.Data.List.FinRange
import Mathlib.LinearAlgebra.Matrix.NonsingularInverse
import Mathlib.LinearAlgebra.Matrix.Kronecker
import Mathlib.LinearAlgebra.Matrix.Trace

namespace Verif.Solvers

noncomputable section

/-! ### dynamic_programming.py. `prob s a s'` and `reward s a s'` are the matrices. -/

variable {S A : ℕ}

/-- `prob[s, a].dot(reward[s, a] + gamma * value)`. dynamic_programming.py L30-33, L84-86. -/
def backup (prob reward : Fin S → Fin A → Fin S → ℝ) (gamma : ℝ) (value : Fin S → ℝ) (s : Fin S) (a : Fin A) : ℝ :=
  ∑ s', prob s a s' * (reward s a s' + gamma * value s')

/-- `vmax = max(va, vmax)`; `none` is minus infinity. dynamic_programming.py L34. -/
def vmaxStep (va : Fin A → ℝ) : Option ℝ → Fin A → Option ℝ
  | none, a => some (va a)
  | some m, a => some (max (va a) m)

/-- The loop over the actions. dynamic_programming.py L28-34. -/
def vmaxLoop (va : Fin A → ℝ) : Option ℝ := (List.finRange A).foldl (vmaxStep va) none

/-- One sweep over the states. With no actions, where the code stores minus infinity, the model stores 0.
dynamic_programming.py L25-36. -/
def sweep (prob reward : Fin S → Fin A → Fin S → ℝ) (gamma : ℝ) (value : Fin S → ℝ) (s : Fin S) : ℝ :=
  (vmaxLoop (backup prob reward gamma value s)).getD 0

/-- `np.linalg.norm`. -/
def norm2 (d : Fin S → ℝ) : ℝ := √(∑ s, d s ^ 2)

/-- The `while` loop of `value_iteration` started with `value` ends and returns the result. dynamic_programming.py L24-40. -/
inductive ValueLoop (prob reward : Fin S → Fin A → Fin S → ℝ) (gamma eps : ℝ) : (Fin S → ℝ) → (Fin S → ℝ) → Prop
  | stop (value : Fin S → ℝ)
      (h : norm2 (fun s => sweep prob reward gamma value s - value s) ≤ eps) :
      ValueLoop prob reward gamma eps value (sweep prob reward gamma value)
  | next (value result : Fin S → ℝ)
      (h : ¬ norm2 (fun s => sweep prob reward gamma value s - value s) ≤ eps)
      (hr : ValueLoop prob reward gamma eps (sweep prob reward gamma value) result) :
      ValueLoop prob reward gamma eps value result

/-- `value_iteration` returns the result. dynamic_programming.py L5-40. -/
def ValueIteration (prob reward : Fin S → Fin A → Fin S → ℝ) (gamma eps : ℝ) (result : Fin S → ℝ) : Prop :=
  ValueLoop prob reward gamma eps (fun _ => 0) result

/-- `np.isclose(a, b)` with its default tolerances. -/
def isClose (a b : ℝ) : Prop := |a - b| ≤ 1e-8 + 1e-5 * |b|

/-- The body of the loop over the actions in the improvement step; the state is `policy[state]`, `vmax` and `changed`.
dynamic_programming.py L83-90. -/
def improveStep (va : Fin A → ℝ) (st : Fin A × ℝ × Bool) (a : Fin A) : Fin A × ℝ × Bool :=
  open Classical in
  if a ≠ st.1 then
    if va a > st.2.1 ∧ ¬ isClose (va a) st.2.1 then (a, va a, true) else st
  else st

/-- Improvement of one state. dynamic_programming.py L81-90. -/
def improveState (va : Fin A → ℝ) (action : Fin A) (v : ℝ) : Fin A × ℝ × Bool :=
  (List.finRange A).foldl (improveStep va) (action, v, false)

/-- The new policy after the loop over the states, and the flag `changed`. dynamic_programming.py L78-90. -/
def improve (prob reward : Fin S → Fin A → Fin S → ℝ) (gamma : ℝ) (policy : Fin S → Fin A) (value : Fin S → ℝ) :
    (Fin S → Fin A) × Bool :=
  (fun s => (improveState (backup prob reward gamma value s) (policy s) (value s)).1,
    (List.finRange S).any (fun s => (improveState (backup prob reward gamma value s) (policy s) (value s)).2.2))

/-- `np.linalg.solve(i - gamma * p_pi, r_pi)` returns the value. dynamic_programming.py L64-76. -/
def Solves (prob reward : Fin S → Fin A → Fin S → ℝ) (gamma : ℝ) (policy : Fin S → Fin A) (value : Fin S → ℝ) : Prop :=
  ∀ s, ∑ s', ((if s = s' then 1 else 0) - gamma * prob s (policy s) s') * value s' =
    ∑ s', prob s (policy s) s' * reward s (policy s) s'

/-- The `while` loop of `policy_iteration` started with a policy ends and returns value and policy.
dynamic_programming.py L63-92. The start, all zeros, is the caller's argument. -/
inductive PolicyLoop (prob reward : Fin S → Fin A → Fin S → ℝ) (gamma : ℝ) :
    (Fin S → Fin A) → (Fin S → ℝ) × (Fin S → Fin A) → Prop
  | stop (policy : Fin S → Fin A) (value : Fin S → ℝ) (hv : Solves prob reward gamma policy value)
      (h : (improve prob reward gamma policy value).2 = false) :
      PolicyLoop prob reward gamma policy (value, (improve prob reward gamma policy value).1)
  | next (policy : Fin S → Fin A) (value : Fin S → ℝ) (result : (Fin S → ℝ) × (Fin S → Fin A))
      (hv : Solves prob reward gamma policy value) (h : (improve prob reward gamma policy value).2 = true)
      (hr : PolicyLoop prob reward gamma (improve prob reward gamma policy value).1 result) :
      PolicyLoop prob reward gamma policy result

/-! ### car_on_hill.py. `step s a` is the state and the reward of one step; the actions are `false` (0) and `true` (1). -/

/-- The loop over the frontier: `none` if a step gives reward 1, otherwise the new frontier. car_on_hill.py L37-49. -/
def expand {X : Type} (step : X → Bool → X × ℤ) : List X → Option (List X)
  | [] => some []
  | f :: fs =>
      let (s0, r0) := step f false
      if r0 = 1 then none else
      let (s1, r1) := step f true
      if r1 = 1 then none else
      (expand step fs).map (fun rest => (if r0 = 0 then [s0] else []) ++ (if r1 = 0 then [s1] else []) ++ rest)

/-- `bfs`; `fuel` is `max_k - k`. car_on_hill.py L19-51. -/
def bfs {X : Type} (step : X → Bool → X × ℤ) (frontier : List X) (k : ℕ) : ℕ → Bool × ℕ
  | 0 => (false, k)
  | fuel + 1 =>
      if frontier.isEmpty then (false, k) else
      match expand step frontier with
      | none => (true, k)
      | some new => bfs step new (k + 1) fuel

/-- One value of `solve_car_on_hill`, for `2 ≤ max_k`. car_on_hill.py L70-89. -/
def solveCar {X : Type} (step : X → Bool → X × ℤ) (gamma : ℝ) (maxK : ℕ) (s : X) (a : Bool) : ℝ :=
  let (state, reward) := step s a
  let (success, k) :=
    if reward = 1 then (true, 1)
    else if reward = -1 then (false, 1)
    else bfs step [state] 2 (maxK - 2)
  if success then gamma ^ (k - 1) else -gamma ^ (k - 1)

/-! ### lqr.py -/

/-- The matrices of an LQR environment. lqr.py L208-209. -/
structure LQR (n m : ℕ) where
  A : Matrix (Fin n) (Fin n) ℝ
  B : Matrix (Fin n) (Fin m) ℝ
  Q : Matrix (Fin n) (Fin n) ℝ
  R : Matrix (Fin m) (Fin m) ℝ
  gamma : ℝ

open Matrix Kronecker

variable {n m : ℕ}

/-- `_compute_riccati_rhs`. lqr.py L212-215. -/
def riccatiRhs (l : LQR n m) (K : Matrix (Fin m) (Fin n) ℝ) (P : Matrix (Fin n) (Fin n) ℝ) : Matrix (Fin n) (Fin n) ℝ :=
  l.Q + l.gamma • (l.Aᵀ * P * l.A - Kᵀ * l.Bᵀ * P * l.A - l.Aᵀ * P * l.B * K + Kᵀ * l.Bᵀ * P * l.B * K) + Kᵀ * l.R * K

/-- `_compute_riccati_gain`. lqr.py L218-219. -/
def riccatiGain (l : LQR n m) (P : Matrix (Fin n) (Fin n) ℝ) : Matrix (Fin m) (Fin n) ℝ :=
  l.gamma • (l.R + l.gamma • (l.Bᵀ * P * l.B))⁻¹ * l.Bᵀ * P * l.A

/-- `P` after `it` rounds of the loop of `compute_lqr_feedback_gain`. lqr.py L18-26. -/
def riccatiP (l : LQR n m) : ℕ → Matrix (Fin n) (Fin n) ℝ
  | 0 => 1
  | it + 1 => riccatiRhs l (riccatiGain l (riccatiP l it)) (riccatiP l it)

/-- `compute_lqr_feedback_gain`. lqr.py L4-28. -/
def feedbackGain (l : LQR n m) (maxIterations : ℕ) : Matrix (Fin m) (Fin n) ℝ := riccatiGain l (riccatiP l maxIterations)

/-- `L` of `_compute_lqr_intermediate_results`. lqr.py L225. -/
def lqrL (l : LQR n m) (K : Matrix (Fin m) (Fin n) ℝ) : Matrix (Fin n) (Fin n) ℝ := l.Q + Kᵀ * l.R * K

/-- `M` of `_compute_lqr_intermediate_results`; rows and columns are indexed by pairs. lqr.py L226-228. -/
def lqrM (l : LQR n m) (K : Matrix (Fin m) (Fin n) ℝ) : Matrix (Fin n × Fin n) (Fin n × Fin n) ℝ :=
  1 - l.gamma • (l.Aᵀ ⊗ₖ l.Aᵀ - l.Aᵀ ⊗ₖ (Kᵀ * l.Bᵀ) - (Kᵀ * l.Bᵀ) ⊗ₖ l.Aᵀ + (Kᵀ * l.Bᵀ) ⊗ₖ (Kᵀ * l.Bᵀ))

/-- `reshape(-1)` of a square matrix: entry `(i, j)` is at position `i * n + j`, here the pair. -/
def vec (P : Matrix (Fin n) (Fin n) ℝ) : Fin n × Fin n → ℝ := fun ij => P ij.1 ij.2

/-- `compute_lqr_P` returns `P`. lqr.py L31-49. -/
def IsLqrP (l : LQR n m) (K : Matrix (Fin m) (Fin n) ℝ) (P : Matrix (Fin n) (Fin n) ℝ) : Prop :=
  (lqrM l K).mulVec (vec P) = vec (lqrL l K)

/-- `np.einsum('...k,kl,...l->...', s, P, s)`. -/
def quad {k : Type} [Fintype k] (P : Matrix k k ℝ) (s : k → ℝ) : ℝ := s ⬝ᵥ P.mulVec s

/-- `compute_lqr_V` at one state. lqr.py L52-69. -/
def lqrV (P : Matrix (Fin n) (Fin n) ℝ) (s : Fin n → ℝ) : ℝ := -1 * quad P s

/-- `_compute_lqr_Q_matrix`. lqr.py L248-255. -/
def lqrQMatrix (l : LQR n m) (P : Matrix (Fin n) (Fin n) ℝ) : Matrix (Fin n ⊕ Fin m) (Fin n ⊕ Fin m) ℝ :=
  Matrix.fromBlocks (l.Q + l.gamma • (l.Aᵀ * P * l.A)) (l.gamma • (l.Aᵀ * P * l.B)) (l.gamma • (l.Bᵀ * P * l.A))
    (l.R + l.gamma • (l.Bᵀ * P * l.B))

/-- `compute_lqr_Q` at one state and action. lqr.py L91-114. -/
def lqrQ (l : LQR n m) (P : Matrix (Fin n) (Fin n) ℝ) (s : Fin n → ℝ) (a : Fin m → ℝ) : ℝ :=
  -1 * quad (lqrQMatrix l P) (Sum.elim s a)

/-- `compute_lqr_V_gaussian_policy` at one state. lqr.py L72-88, L258-263. -/
def lqrVGauss (l : LQR n m) (P : Matrix (Fin n) (Fin n) ℝ) (Sigma : Matrix (Fin m) (Fin m) ℝ) (s : Fin n → ℝ) : ℝ :=
  lqrV P s - (Sigma * (l.R + l.gamma • (l.Bᵀ * P * l.B))).trace / (1 - l.gamma)

/-- `compute_lqr_Q_gaussian_policy` at one state and action. lqr.py L117-134, L266-271. -/
def lqrQGauss (l : LQR n m) (P : Matrix (Fin n) (Fin n) ℝ) (Sigma : Matrix (Fin m) (Fin m) ℝ) (s : Fin n → ℝ)
    (a : Fin m → ℝ) : ℝ :=
  lqrQ l P s a - l.gamma / (1 - l.gamma) * (Sigma * (l.R + l.gamma • (l.Bᵀ * P * l.B))).trace

/-- The matrix returned by `compute_lqr_P` when `M` is invertible. lqr.py L47-49. -/
def lqrP (l : LQR n m) (K : Matrix (Fin m) (Fin n) ℝ) : Matrix (Fin n) (Fin n) ℝ :=
  fun i j => (lqrM l K)⁻¹.mulVec (vec (lqrL l K)) (i, j)

/-- `dL` of `_compute_lqr_intermediate_results_diff`; `D` is `dKi`. lqr.py L241. -/
def lqrDL (l : LQR n m) (K D : Matrix (Fin m) (Fin n) ℝ) : Matrix (Fin n) (Fin n) ℝ := Dᵀ * l.R * K + Kᵀ * l.R * D

/-- `dM` of `_compute_lqr_intermediate_results_diff`. lqr.py L238-243. -/
def lqrDM (l : LQR n m) (K D : Matrix (Fin m) (Fin n) ℝ) : Matrix (Fin n × Fin n) (Fin n × Fin n) ℝ :=
  l.gamma • (l.Aᵀ ⊗ₖ (Dᵀ * l.Bᵀ) + (Dᵀ * l.Bᵀ) ⊗ₖ l.Aᵀ - (Dᵀ * l.Bᵀ) ⊗ₖ (Kᵀ * l.Bᵀ) - (Kᵀ * l.Bᵀ) ⊗ₖ (Dᵀ * l.Bᵀ))

/-- `dPi`. lqr.py L160, L167-171. -/
def lqrDP (l : LQR n m) (K D : Matrix (Fin m) (Fin n) ℝ) : Matrix (Fin n) (Fin n) ℝ :=
  fun i j => (-((lqrM l K)⁻¹ * lqrDM l K D * (lqrM l K)⁻¹).mulVec (vec (lqrL l K)) +
    (lqrM l K)⁻¹.mulVec (vec (lqrDL l K D))) (i, j)

/-- One entry of the returned gradient. lqr.py L173-176. -/
def lqrGradEntry (l : LQR n m) (K : Matrix (Fin m) (Fin n) ℝ) (Sigma : Matrix (Fin m) (Fin m) ℝ) (s : Fin n → ℝ)
    (D : Matrix (Fin m) (Fin n) ℝ) : ℝ :=
  -(quad (lqrDP l K D) s + l.gamma * (Sigma * l.Bᵀ * lqrDP l K D * l.B).trace / (1 - l.gamma))

/-- `dKi`: the matrix with a single one, at row `i` and column `j`. lqr.py L234-237. -/
def unitK (i : Fin m) (j : Fin n) : Matrix (Fin m) (Fin n) ℝ := fun i' j' => if i' = i ∧ j' = j then 1 else 0

/-- `compute_lqr_V_gaussian_policy_gradient_K` on a batch of states: one row per state, with the entries indexed by row and
column of `K`. `none`: the assignment of a `(batch_size, 1)` array to a column of `dJ` raises, as it does for every batch
size other than one. lqr.py L137-176. -/
def lqrGradV (l : LQR n m) (K : Matrix (Fin m) (Fin n) ℝ) (Sigma : Matrix (Fin m) (Fin m) ℝ)
    (states : List (Fin n → ℝ)) : Option (List (Fin m → Fin n → ℝ)) :=
  if states.length = 1 then some (states.map (fun s i j => lqrGradEntry l K Sigma s (unitK i j))) else none

/-- `compute_lqr_Q_gaussian_policy_gradient_K`. lqr.py L179-205. -/
def lqrGradQ (l : LQR n m) (K : Matrix (Fin m) (Fin n) ℝ) (Sigma : Matrix (Fin m) (Fin m) ℝ)
    (pairs : List ((Fin n → ℝ) × (Fin m → ℝ))) : Option (List (Fin m → Fin n → ℝ)) :=
  (lqrGradV l K Sigma (pairs.map (fun p => l.A.mulVec p.1 + l.B.mulVec p.2))).map
    (fun rows => rows.map (fun g i j => l.gamma * g i j))

end

end Verif.Solvers
