/-
Specification of the solvers.
-/
import Verif.Solvers.Model

namespace Verif.Solvers

noncomputable section

variable {S A : ℕ}

/-- The rows of the transition matrix are non-negative and sum to at most one (to zero in absorbing states). -/
def IsTransition (prob : Fin S → Fin A → Fin S → ℝ) : Prop :=
  (∀ s a s', 0 ≤ prob s a s') ∧ ∀ s a, ∑ s', prob s a s' ≤ 1

/-- Expected discounted reward of the first `n` steps from `s`, when step `t` uses the decision rule `pi t`. -/
def expectedReturn (prob reward : Fin S → Fin A → Fin S → ℝ) (gamma : ℝ) (pi : ℕ → Fin S → Fin A) : ℕ → Fin S → ℝ
  | 0, _ => 0
  | n + 1, s => ∑ s', prob s (pi 0 s) s' *
      (reward s (pi 0 s) s' + gamma * expectedReturn prob reward gamma (fun t => pi (t + 1)) n s')

/-- The expected return of the decision rules tends to `v`. -/
def HasReturn (prob reward : Fin S → Fin A → Fin S → ℝ) (gamma : ℝ) (pi : ℕ → Fin S → Fin A) (s : Fin S) (v : ℝ) : Prop :=
  ∀ ε > 0, ∃ N, ∀ n ≥ N, |expectedReturn prob reward gamma pi n s - v| ≤ ε

/-- `V s` is the largest expected return from `s`: no sequence of decision rules does better in the long run, and a single
rule used for ever has this return from every state. -/
def IsOptimalValue (prob reward : Fin S → Fin A → Fin S → ℝ) (gamma : ℝ) (V : Fin S → ℝ) : Prop :=
  (∀ pi s, ∀ ε > 0, ∃ N, ∀ n ≥ N, expectedReturn prob reward gamma pi n s ≤ V s + ε) ∧
  ∃ pi : Fin S → Fin A, ∀ s, HasReturn prob reward gamma (fun _ => pi) s (V s)

/-- `V s` is the expected return of the stationary policy from every state. -/
def IsValueOf (prob reward : Fin S → Fin A → Fin S → ℝ) (gamma : ℝ) (policy : Fin S → Fin A) (V : Fin S → ℝ) : Prop :=
  ∀ s, HasReturn prob reward gamma (fun _ => policy) s (V s)

/-! Car on hill. -/

/-- Following the actions from `s`, every step gives reward 0 except the last, which gives reward `r`. -/
inductive EndsWith {X : Type} (step : X → Bool → X × ℤ) (r : ℤ) : X → List Bool → Prop
  | last (s : X) (a : Bool) (h : (step s a).2 = r) : EndsWith step r s [a]
  | more (s : X) (a : Bool) (as : List Bool) (h : (step s a).2 = 0) (h' : EndsWith step r (step s a).1 as) :
      EndsWith step r s (a :: as)

/-- Following the actions from `s`, every step gives reward 0. -/
inductive Survives {X : Type} (step : X → Bool → X × ℤ) : X → List Bool → Prop
  | nil (s : X) : Survives step s []
  | cons (s : X) (a : Bool) (as : List Bool) (h : (step s a).2 = 0) (h' : Survives step (step s a).1 as) :
      Survives step s (a :: as)

/-! LQR. -/

open Matrix

variable {n m : ℕ}

/-- Reward of one step of the environment: minus the quadratic cost. environments/lqr.py. -/
def lqrReward (l : LQR n m) (s : Fin n → ℝ) (a : Fin m → ℝ) : ℝ := -(quad l.Q s + quad l.R a)

/-- State after one step. environments/lqr.py. -/
def lqrNext (l : LQR n m) (s : Fin n → ℝ) (a : Fin m → ℝ) : Fin n → ℝ := l.A.mulVec s + l.B.mulVec a

/-- Discounted reward of a finite sequence of actions, with a final penalty: the squared length of the last state. -/
def lqrReturn (l : LQR n m) : (Fin n → ℝ) → List (Fin m → ℝ) → ℝ
  | s, [] => -(s ⬝ᵥ s)
  | s, a :: as => lqrReward l s a + l.gamma * lqrReturn l (lqrNext l s a) as

/-- `E` behaves like the expectation of functions of a random vector with the given mean and covariance. -/
structure IsExpectation (E : ((Fin m → ℝ) → ℝ) → ℝ) (mean : Fin m → ℝ) (Sigma : Matrix (Fin m) (Fin m) ℝ) : Prop where
  add : ∀ f g, E (fun a => f a + g a) = E f + E g
  smul : ∀ (c : ℝ) f, E (fun a => c * f a) = c * E f
  one : E (fun _ => 1) = 1
  first : ∀ i, E (fun a => a i) = mean i
  second : ∀ i j, E (fun a => a i * a j) = Sigma i j + mean i * mean j

end

end Verif.Solvers
