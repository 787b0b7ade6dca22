/-
Specification of advantage estimation, written without reference to the loops of the code.
-/
import Verif.ValueFn.Model
import Mathlib.Algebra.BigOperators.Intervals

namespace Verif.ValueFn

noncomputable section

/-- The value of what follows step `i`: nothing after an absorbing state, the prediction otherwise. -/
def future (d : Data) (i : ℕ) : ℝ := if d.absorbing i = true then 0 else d.vNext i

/-- The temporal-difference error of step `i`. -/
def tdError (d : Data) (γ : ℝ) (i : ℕ) : ℝ := d.r i + γ * future d i - d.v i

/-- The trajectory to which step `t` belongs ends with step `e`: `e` is the first step from `t` on which is flagged as the
last one of a trajectory or is the final one of the dataset. -/
structure EndsAt (d : Data) (n t e : ℕ) : Prop where
  le : t ≤ e
  inside : e < n
  isEnd : d.last e = true ∨ e + 1 = n
  first : ∀ i, t ≤ i → i < e → d.last i = false

/-- Generalised advantage of step `t` in a trajectory that ends with step `e`. -/
def generalizedAdvantage (d : Data) (γ lam : ℝ) (t e : ℕ) : ℝ :=
  ∑ k ∈ Finset.range (e - t + 1), (γ * lam) ^ k * tdError d γ (t + k)

/-- Discounted return from step `t` to step `e`, completed with the predicted value of what follows. -/
def bootstrappedReturn (d : Data) (γ : ℝ) (t e : ℕ) : ℝ :=
  (∑ k ∈ Finset.range (e - t + 1), γ ^ k * d.r (t + k)) + γ ^ (e - t + 1) * future d e

/-- The return of the `m + 1` steps from `t` on: discounted rewards completed with the predicted value after them. -/
def nStepReturn (d : Data) (γ : ℝ) (t m : ℕ) : ℝ :=
  bootstrappedReturn d γ t (t + m)

/-- Absorbing states only appear at the end of a trajectory, as in every dataset collected by the core. -/
def AbsorbingIsLast (d : Data) : Prop := ∀ i, d.absorbing i = true → d.last i = true

/-- Inside a trajectory the value predicted for the next state is the one predicted for the state of the next step. -/
def Chained (d : Data) (t e : ℕ) : Prop := ∀ i, t ≤ i → i < e → d.vNext i = d.v (i + 1)

end

end Verif.ValueFn
