/-
Vocabulary for learning runs in problems with terminal states: only the states from which an episode can go on matter.
-/
import Verif.TD.Spec

namespace Verif.TD

noncomputable section

variable {S A : Type} [DecidableEq S] [DecidableEq A] [Fintype A] [Nonempty A]

/-- The tables are within `B` of each other in the states `L`. -/
def CloseOn (L : S → Prop) (B : ℝ) (Q Q' : Table S A) : Prop := ∀ s, L s → ∀ a, |Q s a - Q' s a| ≤ B

/-- An action taken in `L` either ends the episode or leads to `L`. -/
def Stays (m : DetMDP S A) (L : S → Prop) : Prop := ∀ s a, L s → m.absorbing s a = false → L (m.next s a)

/-- Bellman's optimality equation in the states `L`. -/
def OptimalOn (L : S → Prop) (m : DetMDP S A) (γ : ℝ) (Q : Table S A) : Prop :=
  ∃ V : S → ℝ, ∀ s, L s → IsMax (Q s) (V s) ∧
    ∀ a, Q s a = m.reward s a + γ * (if m.absorbing s a then 0 else V (m.next s a))

/-- The transitions can be cut into `K` consecutive pieces (and a rest), in each of which every action is taken at least
`k` times in every state of `L`. -/
def Covers (L : S → Prop) (k K : ℕ) (ts : List (Core.Sample S A ℝ Unit)) : Prop :=
  ∃ (pieces : List (List (Core.Sample S A ℝ Unit))) (rest : List (Core.Sample S A ℝ Unit)), pieces.length = K ∧
    ts = pieces.flatten ++ rest ∧ ∀ p ∈ pieces, ∀ s, L s → ∀ a, k ≤ p.countP (fun t => decide (Visits s a t))

/-- The environment of the program is the deterministic problem `m`: `cur` reads the state of the environment, `reset`
puts it in `L`, `step` moves it, and nothing else touches it. The core has no preprocessors. -/
structure Simulates {E G : Type} (u : User E S A G) (rate : E → S → A → E × ℝ) (m : DetMDP S A) (L : S → Prop) (cur : E → S) :
    Prop where
  noPre : u.corePre = []
  reset : ∀ e, cur (u.envReset e none).1 = (u.envReset e none).2 ∧ L (u.envReset e none).2
  step : ∀ e a, cur (u.envStep e a).1 = m.next (cur e) a ∧
    (u.envStep e a).2 = (m.next (cur e) a, m.reward (cur e) a, m.absorbing (cur e) a)
  draw : ∀ e g s, cur (u.draw e g s).1 = cur e
  rate : ∀ e s a, cur (rate e s a).1 = cur e
  callbackStep : ∀ e g t, cur (u.callbackStep e g t) = cur e
  callbacksFit : ∀ f ∈ u.callbacksFit, ∀ e g b, cur (f e g b) = cur e

end

end Verif.TD
