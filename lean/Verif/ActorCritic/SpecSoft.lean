/-
Specification for C171: problems with finitely many states and any measurable set of actions, and the maximum-entropy objective of
"Soft Actor-Critic Algorithms and Applications" (the reference in the docstring of `SAC`: sac.py L176-181).
-/
import Verif.ActorCritic.PropsSac
import Mathlib.MeasureTheory.Integral.Bochner.Set
import Mathlib.MeasureTheory.Measure.WithDensity

namespace Verif.ActorCritic.MaxEnt

open MeasureTheory Filter Topology
open Verif.TD (Trans)
open Verif.ActorCritic.Soft

noncomputable section

variable {S A D M N ι κ O : Type} [Fintype S] [MeasurableSpace A] [MeasurableSpace N]

/-- Probabilities of the next states, rewards, and which states are absorbing. -/
structure Problem (S A : Type) [Fintype S] [MeasurableSpace A] where
  prob : S → A → S → ℝ
  reward : S → A → S → ℝ
  final : S → Bool
  bound : ℝ
  prob_nonneg : ∀ s a s', 0 ≤ prob s a s'
  prob_sum : ∀ s a, ∑ s', prob s a s' = 1
  prob_measurable : ∀ s s', Measurable fun a => prob s a s'
  reward_measurable : ∀ s s', Measurable fun a => reward s a s'
  reward_bound : ∀ s a s', |reward s a s'| ≤ bound

/-- A stochastic policy, given by the densities of its actions, with finite entropy. -/
structure IsPolicy (μ : Measure A) (p : S → A → ℝ) : Prop where
  measurable : ∀ s, Measurable (p s)
  nonneg : ∀ s a, 0 ≤ p s a
  one : ∀ s, ∫ a, p s a ∂μ = 1
  entropy : ∀ s, Integrable (fun a => p s a * Real.log (p s a)) μ

/-- The expectation, over the actions `a` of the policy in `s`, of `Q s a` minus `α` times the log-density of the action. -/
def soft (μ : Measure A) (α : ℝ) (p : S → A → ℝ) (Q : S → A → ℝ) (s : S) : ℝ := ∫ a, p s a * (Q s a - α * Real.log (p s a)) ∂μ

/-- The expected reward of action `a` in state `s`, plus the discounted expectation of `V` in the next state, if it is not absorbing. -/
def ahead (m : Problem S A) (γ : ℝ) (V : S → ℝ) (s : S) (a : A) : ℝ :=
  ∑ s', m.prob s a s' * (m.reward s a s' + γ * if m.final s' then 0 else V s')

/-- The objective over `n` steps after the first one: the expected discounted sum of the rewards, and of `α` times the entropy of the policy in the states met, for the action `a` in `s` and
the policy from then on, until an absorbing state. -/
def softReturn (m : Problem S A) (μ : Measure A) (γ α : ℝ) (p : S → A → ℝ) : ℕ → S → A → ℝ
  | 0 => ahead m γ fun _ => 0
  | n + 1 => ahead m γ (soft μ α p (softReturn m μ γ α p n))

/-- The soft values of a policy: the objective without limit on the number of steps. -/
def SoftValues (m : Problem S A) (μ : Measure A) (γ α : ℝ) (p Q : S → A → ℝ) : Prop :=
  ∀ s a, Tendsto (fun n => softReturn m μ γ α p n s a) atTop (𝓝 (Q s a))

/-- The soft values of the best policy: those of some policy, and at least those of any other. -/
def OptimalSoftValues (m : Problem S A) (μ : Measure A) (γ α : ℝ) (Q : S → A → ℝ) : Prop :=
  (∃ p, IsPolicy μ p ∧ SoftValues m μ γ α p Q) ∧ ∀ p Q', IsPolicy μ p → SoftValues m μ γ α p Q' → ∀ s a, Q' s a ≤ Q s a

/-- The actions and log-probabilities that the policy computes from the noise have the densities `p`. -/
structure Draws (μ : Measure A) (ν : Measure N) (act : N → S → A × ℝ) (p : S → A → ℝ) : Prop where
  measurable : ∀ s, Measurable fun n => (act n s).1
  law : ∀ s, ν.map (fun n => (act n s).1) = μ.withDensity fun a => ENNReal.ofReal (p s a)
  logProb : ∀ s, ∀ᵐ n ∂ν, (act n s).2 = Real.log (p s (act n s).1)

/-- The expectation of the target that a call of `SAC.fit` computes for the action `a` in the state `s` (`targets`: sac.py L276-277 and L300-315), over the next state and the noise of the policy. -/
def expectedTarget (y : SacSys S A D M N ι κ O) (ν : Measure N) (m : Problem S A) (θ : κ → ℝ) (logAlpha : ℝ) (tcs : List (ι → ℝ)) (s : S) (a : A) : ℝ :=
  ∑ s', m.prob s a s' * ∫ n, (targets y θ logAlpha tcs [n] [⟨s, a, m.reward s a s', s', m.final s'⟩]).sum ∂ν

/-- The expectation of the loss of the actor (`actorLoss`: sac.py L283-289) for one transition of the batch, over the noise of the policy. -/
def expectedLoss (y : SacSys S A D M N ι κ O) (ν : Measure N) (θ : κ → ℝ) (logAlpha : ℝ) (cs : List (ι → ℝ)) (t : Trans S A) : ℝ :=
  ∫ n, actorLoss y [n] [t] θ cs logAlpha ∂ν

/-- The critics `cs` predict, for every state and action, the expectation of the targets computed from themselves: regression has nothing left to change. -/
def Settled (y : SacSys S A D M N ι κ O) (ν : Measure N) (m : Problem S A) (θ : κ → ℝ) (logAlpha : ℝ) (cs : List (ι → ℝ)) : Prop :=
  ∀ w ∈ cs, ∀ s a, y.value w s a = expectedTarget y ν m θ logAlpha cs s a

/-- In every state the expected loss of the actor is as small as with any density of actions. -/
def Minimises (y : SacSys S A D M N ι κ O) (μ : Measure A) (ν : Measure N) (θ : κ → ℝ) (logAlpha : ℝ) (cs : List (ι → ℝ)) : Prop :=
  ∀ t p, IsPolicy μ p → expectedLoss y ν θ logAlpha cs t ≤
    ∫ a, p t.state a * (Real.exp logAlpha * Real.log (p t.state a) - minOf (cs.map fun w => y.value w t.state a)) ∂μ

end

end Verif.ActorCritic.MaxEnt
