/-
Vocabulary for learning in random problems: finite problems with transition probabilities, their optimal values, the
values of a policy, experience drawn from such a problem, and learning rates.
-/
import Verif.TD.Spec
import Mathlib.Probability.Process.Filtration
import Mathlib.MeasureTheory.Function.ConditionalExpectation.Real

namespace Verif.TD

open Filter Topology MeasureTheory

noncomputable section

variable {S A : Type} [DecidableEq S] [DecidableEq A] [Fintype S] [Fintype A] [Nonempty A]

/-- A finite problem: probability of every next state, and the reward and absorbing flag of every transition. -/
structure RandomMDP (S A : Type) where
  prob : S → A → S → ℝ
  reward : S → A → S → ℝ
  absorbing : S → A → S → Bool

/-- The probabilities are probabilities. -/
def RandomMDP.Proper (m : RandomMDP S A) : Prop := (∀ s a s', 0 ≤ m.prob s a s') ∧ ∀ s a, ∑ s', m.prob s a s' = 1

/-- From the states `L` an action either ends the episode or leads to a state of `L`. -/
def RandomMDP.Closed (m : RandomMDP S A) (L : S → Prop) : Prop :=
  ∀ s a s', L s → 0 < m.prob s a s' → m.absorbing s a s' = false → L s'

/-- Bellman's optimality equation in the states `L`: `Q` is the optimal action-value function there. -/
def RandomMDP.OptimalOn (m : RandomMDP S A) (L : S → Prop) (γ : ℝ) (Q : Table S A) : Prop :=
  ∃ V : S → ℝ, ∀ s, L s → IsMax (Q s) (V s) ∧
    ∀ a, Q s a = ∑ s', m.prob s a s' * (m.reward s a s' + γ * (if m.absorbing s a s' then 0 else V s'))

/-- Bellman's expectation equation in the states `L`: `Q` is the action-value function of the policy. -/
def RandomMDP.ValuesOn (m : RandomMDP S A) (L : S → Prop) (γ : ℝ) (policy : S → A → ℝ) (Q : Table S A) : Prop :=
  ∀ s, L s → ∀ a, Q s a = ∑ s', m.prob s a s' *
    (m.reward s a s' + γ * (if m.absorbing s a s' then 0 else ∑ a', policy s' a' * Q s' a'))

variable {Ω : Type} [mΩ : MeasurableSpace Ω]

/-- `t n` is the `n`-th transition of a random experiment in the problem. The state and the action are arbitrary functions
of the past `ℱ n` (whatever the agent did, in whatever episodes); given the past, the next state has the probabilities
of the problem; reward and absorbing flag are those of the problem. -/
structure Experience (μ : Measure Ω) (ℱ : Filtration ℕ mΩ) (m : RandomMDP S A) (L : S → Prop) (t : ℕ → Ω → Trans S A) : Prop where
  live : ∀ n ω, L (t n ω).state
  past : ∀ n s a, MeasurableSet[ℱ n] {ω | (t n ω).state = s ∧ (t n ω).action = a}
  known : ∀ n s', MeasurableSet[ℱ (n + 1)] {ω | (t n ω).next = s'}
  law : ∀ n s', μ[Set.indicator {ω | (t n ω).next = s'} (fun _ => (1 : ℝ)) | ℱ n] =ᵐ[μ]
    fun ω => m.prob (t n ω).state (t n ω).action s'
  reward : ∀ n ω, (t n ω).reward = m.reward (t n ω).state (t n ω).action (t n ω).next
  absorbing : ∀ n ω, (t n ω).absorbing = m.absorbing (t n ω).state (t n ω).action (t n ω).next

/-- In addition, `b n` is the action drawn by the policy in the next state. -/
structure OnPolicy (μ : Measure Ω) (ℱ : Filtration ℕ mΩ) (m : RandomMDP S A) (policy : S → A → ℝ) (t : ℕ → Ω → Trans S A)
    (b : ℕ → Ω → A) : Prop where
  known : ∀ n s' a', MeasurableSet[ℱ (n + 1)] {ω | (t n ω).next = s' ∧ b n ω = a'}
  law : ∀ n s' a', μ[Set.indicator {ω | (t n ω).next = s' ∧ b n ω = a'} (fun _ => (1 : ℝ)) | ℱ n] =ᵐ[μ]
    fun ω => m.prob (t n ω).state (t n ω).action s' * policy s' a'

/-- The rates used for a pair: 0 at the transitions that do not start with it. -/
def ratesOf (s : S) (a : A) (t : ℕ → Trans S A) (α : ℕ → ℝ) (n : ℕ) : ℝ :=
  if (t n).state = s ∧ (t n).action = a then α n else 0

/-- The conditions of Robbins and Monro on the learning rates: for every pair of a live state and an action, the rates used for it
have an infinite sum and their squares have a bounded sum. -/
structure RobbinsMonro (μ : Measure Ω) (ℱ : Filtration ℕ mΩ) (L : S → Prop) (t : ℕ → Ω → Trans S A) (α : ℕ → Ω → ℝ) : Prop where
  known : ∀ n, Measurable[ℱ n] (α n)
  range : ∀ n ω, 0 ≤ α n ω ∧ α n ω ≤ 1
  squares : ∃ C, ∀ s a ω N, ∑ k ∈ Finset.range N, ratesOf s a (t · ω) (α · ω) k ^ 2 ≤ C
  diverge : ∀ᵐ ω ∂μ, ∀ s, L s → ∀ a, Tendsto (fun n => ∑ k ∈ Finset.range n, ratesOf s a (t · ω) (α · ω) k) atTop atTop

/-- The tables of an agent: `upd n` is its update with the `n`-th transition. -/
def tables (upd : ℕ → Table S A → Table S A) (Q0 : Table S A) : ℕ → Table S A
  | 0 => Q0
  | n + 1 => upd n (tables upd Q0 n)

/-- The action has the largest value. -/
def Maximises (q : A → ℝ) (a : A) : Prop := ∀ b, q b ≤ q a

/-- Every action is taken again and again in every live state. -/
def ExploresForever (L : S → Prop) (t : ℕ → Trans S A) : Prop :=
  ∀ s, L s → ∀ a, ∀ n, ∃ k, n ≤ k ∧ (t k).state = s ∧ (t k).action = a

end

end Verif.TD
