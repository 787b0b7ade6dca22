/-
Vocabulary for RQ-learning: the agent after some updates, and the problem whose values it learns.
-/
import Verif.TD.SpecStoch

namespace Verif.TD

noncomputable section

variable {S A : Type} [DecidableEq S] [DecidableEq A] [Fintype S] [Fintype A] [Nonempty A]

/-- The agent after `n` updates with the transitions `t`, the learning rates `α` (of the reward) and `β` (of the next value) and the next
actions `b`, which are used if `off` is false. It starts with tables of zeros, as `RQLearning.__init__` (rq_learning.py L37-39) makes them. -/
def rqAfter (γ : ℝ) (off : Bool) (t : ℕ → Trans S A) (α β : ℕ → ℝ) (b : ℕ → A) : ℕ → RQ S A
  | 0 => { Q := fun _ _ => 0, Qt := fun _ _ => 0, Rt := fun _ _ => 0 }
  | n + 1 => rqLearning γ (α n) (β n) off (rqAfter γ off t α β b n) (t n) (b n)

/-- Probability that the episode goes on. -/
def RandomMDP.goesOn (m : RandomMDP S A) (s : S) (a : A) : ℝ := ∑ s', if m.absorbing s a s' then 0 else m.prob s a s'

/-- The mean reward of a pair. -/
def RandomMDP.meanReward (m : RandomMDP S A) (s : S) (a : A) : ℝ := ∑ s', m.prob s a s' * m.reward s a s'

/-- The problem in which episodes are not ended by chance: if the episode may go on, it does, with the conditional probabilities of the next
state. Each pair keeps its mean reward. Pairs that always end the episode still do. -/
def RandomMDP.unended (m : RandomMDP S A) : RandomMDP S A :=
  { prob := fun s a s' => if m.goesOn s a = 0 then m.prob s a s' else if m.absorbing s a s' then 0 else m.prob s a s' / m.goesOn s a
    reward := fun s a _ => m.meanReward s a
    absorbing := m.absorbing }

/-- No pair ends the episode by chance: each one always does, or never does. -/
def RandomMDP.EndsSurely (m : RandomMDP S A) : Prop :=
  ∀ s a, (∀ s', 0 < m.prob s a s' → m.absorbing s a s' = true) ∨ (∀ s', 0 < m.prob s a s' → m.absorbing s a s' = false)

end

end Verif.TD
