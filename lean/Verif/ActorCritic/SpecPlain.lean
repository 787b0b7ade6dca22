/-
Specification for C172: the expected discounted return of a policy, in problems with finitely many states and any measurable set of actions, and the
expectations of what a call of `DDPG.fit` or `TD3.fit` computes.
-/
import Verif.ActorCritic.SpecSoft
import Verif.ActorCritic.PropsDeterm

namespace Verif.ActorCritic.Plain

open MeasureTheory Filter Topology
open Verif.TD (Trans)
open Verif.ActorCritic.Determ
open Verif.ActorCritic.MaxEnt (Problem ahead)

noncomputable section

variable {S A D M ι κ O : Type} [Fintype S] [MeasurableSpace A] [MeasurableSpace M]

/-- The expectation of `Q s a` over the actions `a` of the policy in `s`. -/
def mean (π : S → Measure A) (Q : S → A → ℝ) (s : S) : ℝ := ∫ a, Q s a ∂π s

/-- The expected discounted sum of the rewards over `n` steps after the first one, for the action `a` in `s` and the policy from then on, until an absorbing state. -/
def nReturn (m : Problem S A) (γ : ℝ) (π : S → Measure A) : ℕ → S → A → ℝ
  | 0 => ahead m γ fun _ => 0
  | n + 1 => ahead m γ (mean π (nReturn m γ π n))

/-- The action values of a policy: the return without limit on the number of steps. -/
def Values (m : Problem S A) (γ : ℝ) (π : S → Measure A) (Q : S → A → ℝ) : Prop := ∀ s a, Tendsto (fun n => nReturn m γ π n s a) atTop (𝓝 (Q s a))

/-- The policy that always takes the action of the actor. -/
def always (act : S → A) : S → Measure A := fun s => Measure.dirac (act s)

/-- The expectation of the target that a call of `fit` computes for the action `a` in the state `s` (ddpg.py L101-102), over the next state and the state of the random generator. -/
def expectedTarget (y : Sys S A D M ι κ O) (ν : Measure M) (m : Problem S A) (θ : κ → ℝ) (tcs : List (ι → ℝ)) (s : S) (a : A) : ℝ :=
  ∑ s', m.prob s a s' * ∫ g, (bellman y.gamma [⟨s, a, m.reward s a s', s', m.final s'⟩] ((y.nextQ g).2 tcs θ [⟨s, a, m.reward s a s', s', m.final s'⟩])).sum ∂ν

/-- For every state and action, the critics `cs` predict the expectation of the targets computed from themselves, with an error of at most `δ`. -/
def Settled (y : Sys S A D M ι κ O) (ν : Measure M) (m : Problem S A) (θ : κ → ℝ) (cs : List (ι → ℝ)) (δ : ℝ) : Prop :=
  ∀ w ∈ cs, ∀ s a, |y.value w s a - expectedTarget y ν m θ cs s a| ≤ δ

/-- In every state, the loss of the actor (ddpg.py L115-119, td3.py L64-68) exceeds that of any other action by at most `η`. -/
def Minimises (y : Sys S A D M ι κ O) (θ : κ → ℝ) (cs : List (ι → ℝ)) (η : ℝ) : Prop :=
  ∀ t a, actorLoss y [t] θ cs ≤ -(y.pick (cs.map fun c => y.value c t.state a)) + η

/-- The policy that adds noise to the actions of the actor, in the way of TD3: td3.py L86-88. -/
def noisy {d : ℕ} (ν : Measure M) (draw : M → Fin d → ℝ) (c : ℝ) (low high : Fin d → ℝ) (act : S → Fin d → ℝ) : S → Measure (Fin d → ℝ) :=
  fun s => ν.map fun g => smooth c low high (act s) (draw g)

end

end Verif.ActorCritic.Plain
