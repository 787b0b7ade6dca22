/-
Vocabulary for learning with an exploration that decays: the probabilities of `EpsGreedy`, policies that become greedy, actions drawn from them, and
problems in which every state can be reached.
-/
import Verif.TD.SpecDouble

namespace Verif.TD

open Filter Topology MeasureTheory

noncomputable section

variable {S A : Type} [DecidableEq S] [DecidableEq A] [Fintype S] [Fintype A] [Nonempty A]
variable {Ω : Type} [mΩ : MeasurableSpace Ω]

/-- `EpsGreedy.__call__(state)`: td_policy.py L61-78. The probability of each action, for the action values `q` and the value `ε` of the parameter. -/
def epsGreedy (ε : ℝ) (q : A → ℝ) (a : A) : ℝ := ε / Fintype.card A + (1 - ε) * uniform (best q) a

/-- The probability that the policies `π n` give to actions that are not greedy for `Q n` vanishes. -/
def GreedyInTheLimit (L : S → Prop) (Q : ℕ → Table S A) (π : ℕ → S → A → ℝ) : Prop :=
  ∀ s, L s → Tendsto (fun n => ∑ a ∈ (best (Q n s))ᶜ, π n s a) atTop (𝓝 0)

/-- `b n` is the action drawn in the next state by the policy `π n`, which may depend on everything in the past. -/
structure NextDraws (μ : Measure Ω) (ℱ : Filtration ℕ mΩ) (m : RandomMDP S A) (π : ℕ → Ω → S → A → ℝ) (t : ℕ → Ω → Trans S A) (b : ℕ → Ω → A) : Prop where
  known : ∀ n s' a', MeasurableSet[ℱ (n + 1)] {ω | (t n ω).next = s' ∧ b n ω = a'}
  law : ∀ n s' a', μ[Set.indicator {ω | (t n ω).next = s' ∧ b n ω = a'} (fun _ => (1 : ℝ)) | ℱ n] =ᵐ[μ]
    fun ω => m.prob (t n ω).state (t n ω).action s' * π n ω s' a'

/-- The action of the `n`-th transition is drawn by the policy `π n` in the state of this transition. `𝒢 n` is what is known before the draw. -/
structure ActionDraws (μ : Measure Ω) (ℱ 𝒢 : Filtration ℕ mΩ) (π : ℕ → Ω → S → A → ℝ) (t : ℕ → Ω → Trans S A) : Prop where
  before : ∀ n, 𝒢 n ≤ ℱ n
  after : ∀ n, ℱ n ≤ 𝒢 (n + 1)
  state : ∀ n s, MeasurableSet[𝒢 n] {ω | (t n ω).state = s}
  law : ∀ n a, μ[Set.indicator {ω | (t n ω).action = a} (fun _ => (1 : ℝ)) | 𝒢 n] =ᵐ[μ] fun ω => π n ω (t n ω).state a

/-- An episode starts in `s0` and goes on from where it is until an absorbing state is reached. -/
def Restarts (s0 : S) (t : ℕ → Trans S A) : Prop := ∀ n, (t (n + 1)).state = if (t n).absorbing then s0 else (t n).next

/-- One step can lead from `s` to `s'`; from an absorbing state the next episode starts in `s0`. -/
def RandomMDP.Leads (m : RandomMDP S A) (s0 s s' : S) : Prop := ∃ a x, 0 < m.prob s a x ∧ s' = if m.absorbing s a x then s0 else x

/-- Every state of `L` can be reached from every state of `L`. -/
def RandomMDP.Communicating (m : RandomMDP S A) (L : S → Prop) (s0 : S) : Prop := ∀ s s', L s → L s' → Relation.ReflTransGen (m.Leads s0) s s'

/-- The state starts again and again a transition. -/
def Recurs (s : S) (t : ℕ → Trans S A) : Prop := ∀ n, ∃ k, n ≤ k ∧ (t k).state = s

end

end Verif.TD
