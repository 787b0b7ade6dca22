/-
Vocabulary for the evaluation of a policy in a random environment: what the environment and the agent draw at random, and the value of the policy.
-/
import Mathlib.Probability.ProductMeasure
import Mathlib.MeasureTheory.Integral.Prod

namespace Verif.Eval

open MeasureTheory

noncomputable section

/-- A random environment and an agent that does not learn. `U` is what one call of the random generator gives. The environment has a hidden state of type `S`, and shows
observations of type `X`; the policy may have an internal state of type `P` and parameters of type `T` drawn at the start of the episode (black-box agents). -/
structure Sim (S X A P T U : Type) where
  /-- the state in which an episode starts -/
  start : U → S
  /-- the state in which an episode starts if the environment is asked to start where it shows this observation -/
  place : X → U → S
  see : S → X
  next : S → A → U → S
  reward : S → A → S → ℝ
  absorbing : S → A → S → Bool
  /-- what the agent does when an episode starts -/
  begins : X → U → P × T
  /-- the action drawn by the policy, and its next internal state -/
  act : X → P → U → A × P

variable {S X A P T U : Type} [MeasurableSpace S] [MeasurableSpace X] [MeasurableSpace A] [MeasurableSpace P] [MeasurableSpace U]

/-- Everything is measurable and the rewards are bounded. -/
structure Sim.Regular (m : Sim S X A P T U) (C : ℝ) : Prop where
  start : Measurable m.start
  place : ∀ x, Measurable (m.place x)
  see : Measurable m.see
  next : Measurable fun x : S × A × U => m.next x.1 x.2.1 x.2.2
  reward : Measurable fun x : S × A × S => m.reward x.1 x.2.1 x.2.2
  absorbing : MeasurableSet {x : S × A × S | m.absorbing x.1 x.2.1 x.2.2 = true}
  begins : Measurable fun x : X × U => (m.begins x.1 x.2).1
  act : Measurable fun x : X × P × U => m.act x.1 x.2.1 x.2.2
  bound : ∀ s a s', |m.reward s a s'| ≤ C

/-- Expected discounted return of at most `h` further steps, from the hidden state and the internal state of the policy. -/
def Sim.value (m : Sim S X A P T U) (ν : Measure U) (γ : ℝ) : ℕ → S → P → ℝ
  | 0, _, _ => 0
  | h + 1, s, p => ∫ u, ∫ v, (m.reward s (m.act (m.see s) p u).1 (m.next s (m.act (m.see s) p u).1 v) +
      γ * if m.absorbing s (m.act (m.see s) p u).1 (m.next s (m.act (m.see s) p u).1 v) then 0
        else m.value ν γ h (m.next s (m.act (m.see s) p u).1 v) (m.act (m.see s) p u).2) ∂ν ∂ν

/-- Expected discounted return of an episode of at most `H` steps that starts in the random state `st`. -/
def Sim.performance (m : Sim S X A P T U) (ν : Measure U) (γ : ℝ) (H : ℕ) (st : U → S) : ℝ :=
  ∫ u, ∫ v, m.value ν γ H (st u) (m.begins (m.see (st u)) v).1 ∂ν ∂ν

/-- What the random generator gives: independent draws, all with the law `ν`. -/
def draws (ν : Measure U) [IsProbabilityMeasure ν] : Measure (ℕ → U) := Measure.infinitePi fun _ => ν

end

end Verif.Eval
