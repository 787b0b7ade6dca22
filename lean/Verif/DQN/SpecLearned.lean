/-
Specification for C173: what networks of the deep Q-learning agents predict when they have nothing left to learn, in finite problems with random next states.
-/
import Verif.DQN.ModelAgents
import Verif.TD.SpecStoch

namespace Verif.DQN.Learned

open Verif.TD (Trans RandomMDP)

noncomputable section

variable {S A : Type} [Fintype S] [Fintype A] [Nonempty A]

/-- The expectation, over the next state, of the target that is computed for the action `a` in the state `s`. -/
def expectedTarget (targets : List (Trans S A) → List ℝ) (m : RandomMDP S A) (s : S) (a : A) : ℝ :=
  ∑ s', m.prob s a s' * (targets [⟨s, a, m.reward s a s', s', m.absorbing s a s'⟩]).sum

/-- The predictions are the expectations of the targets, with an error of at most `δ`. -/
def Fits (predict : S → A → ℝ) (targets : List (Trans S A) → List ℝ) (m : RandomMDP S A) (δ : ℝ) : Prop := ∀ s a, |predict s a - expectedTarget targets m s a| ≤ δ

/-- The problem in which every reward is clipped to [-1, 1], if `clip_reward` is set. -/
def rewarded (clip : Bool) (m : RandomMDP S A) : RandomMDP S A := { m with reward := fun s a s' => if clip then max (-1) (min (m.reward s a s') 1) else m.reward s a s' }

/-- `Q` are the optimal action values. -/
def Best (m : RandomMDP S A) (γ : ℝ) (Q : S → A → ℝ) : Prop := m.OptimalOn (fun _ => True) γ Q

/-- The policy only takes actions with the largest prediction. -/
def GreedyFor (policy : S → A → ℝ) (Q : S → A → ℝ) : Prop := ∀ s a, policy s a ≠ 0 → ∀ b, Q s b ≤ Q s a

end

end Verif.DQN.Learned
