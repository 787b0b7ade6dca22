/-
Vocabulary for R-learning: problems without ends, the average reward, and the agent after some updates.
-/
import Verif.TD.SpecStoch

namespace Verif.TD

noncomputable section

variable {S A : Type} [DecidableEq S] [DecidableEq A] [Fintype S] [Fintype A] [Nonempty A]

/-- The agent after `n` updates with the transitions `t` and the learning rates `α` (of the values) and `β` (of the average reward). It
starts with zeros, as `RLearning.__init__` (r_learning.py L24-25) makes them. -/
def rlAfter (t : ℕ → Trans S A) (α β : ℕ → ℝ) : ℕ → RL S A
  | 0 => { Q := fun _ _ => 0, rho := 0 }
  | n + 1 => rLearning (α n) (β n) (rlAfter t α β n) (t n)

/-- From the states `L` no action ends the episode, and all lead to states of `L`. -/
def RandomMDP.Continuing (m : RandomMDP S A) (L : S → Prop) : Prop :=
  ∀ s a s', L s → 0 < m.prob s a s' → L s' ∧ m.absorbing s a s' = false

/-- The largest mean of the sum of the rewards of `n` steps that start in the state, whatever is done and whatever the choices depend on. -/
def RandomMDP.best (m : RandomMDP S A) : ℕ → S → ℝ
  | 0, _ => 0
  | n + 1, s => rowMax fun a => ∑ s', m.prob s a s' * (m.reward s a s' + m.best n s')

/-- The mean of the sum of the rewards of `n` steps with the actions `act`. -/
def RandomMDP.earned (m : RandomMDP S A) (act : S → A) : ℕ → S → ℝ
  | 0, _ => 0
  | n + 1, s => ∑ s', m.prob s (act s) s' * (m.reward s (act s) s' + m.earned act n s')

/-- The optimality equation of the average reward. -/
def RandomMDP.AverageOptimalOn (m : RandomMDP S A) (L : S → Prop) (Q : Table S A) (rho : ℝ) : Prop :=
  ∃ V : S → ℝ, ∀ s, L s → IsMax (Q s) (V s) ∧ ∀ a, Q s a = ∑ s', m.prob s a s' * (m.reward s a s' - rho + V s')

end

end Verif.TD
