/-
Specification of the properties of whole experiments (C132).
-/
import Verif.Core.Spec
import Mathlib.Data.List.Chain

namespace Verif.System

open Verif.Core (Sample Event)

variable {X A R P T : Type}

/-- Inside an episode each transition starts where the previous one ended, and a transition to an absorbing state ends its episode. -/
structure Continuous (l : List (Sample X A R P)) : Prop where
  chain : l.IsChain fun a b => a.last = false → b.state = a.nextState ∧ b.policyState = a.policyNextState
  absorbing : ∀ a ∈ l, a.absorbing = true → a.last = true

/-- A whole episode: its final transition is the only one that ends an episode. -/
def WholeEpisode (e : List (Sample X A R P)) : Prop :=
  ∃ init s, e = init ++ [s] ∧ s.last = true ∧ ∀ a ∈ init, a.last = false

/-- One more event of a run: the episodes since the last fit, each with the parameters that the policy got at its start. -/
def grow (l : List (T × List (Sample X A R P))) : Event X A R P T → List (T × List (Sample X A R P))
  | .reset _ _ _ _ th => l ++ [(th, [])]
  | .step _ _ _ _ _ s => l.dropLast ++ (l.getLast?.map fun r => (r.1, r.2 ++ [s])).toList
  | .fit _ _ _ => []

/-- The episodes since the last fit. -/
def rollouts (es : List (Event X A R P T)) : List (T × List (Sample X A R P)) := es.foldl grow []

end Verif.System
