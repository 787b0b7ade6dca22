/-
Vocabulary for stating what a run of `Core` must look like from the outside.
Nothing here refers to the state machine of the model, only to the events a user can observe.
-/
import Verif.Core.Model

namespace Verif.Core

variable {X A R P T : Type}

/-- The transitions of a run, in order. -/
def steps : List (Event X A R P T) → List (Sample X A R P)
  | [] => []
  | .step _ _ _ _ _ s :: es => s :: steps es
  | _ :: es => steps es

/-- The datasets handed to `agent.fit`, in order. -/
def fits : List (Event X A R P T) → List (List (Sample X A R P))
  | [] => []
  | .fit b _ _ :: es => b :: fits es
  | _ :: es => fits es

/-- The states requested from `env.reset`, in order (one per episode started). -/
def resetRequests : List (Event X A R P T) → List (Option X)
  | [] => []
  | .reset req _ _ _ _ :: es => req :: resetRequests es
  | _ :: es => resetRequests es

/-- Number of end-of-episode steps. -/
def endings (l : List (Sample X A R P)) : Nat := l.countP (·.last)

/-- A block of transitions is large enough for a fit. -/
def Due (f : FitMode) (b : List (Sample X A R P)) : Prop :=
  match f with
  | .never => False
  | .steps k => k ≤ b.length
  | .episodes k => k ≤ endings b

/-- `b` is large enough for a fit, and no shorter nonempty initial part of it is. -/
def ShortestDue (f : FitMode) (b : List (Sample X A R P)) : Prop :=
  b ≠ [] ∧ Due f b ∧ ∀ p, p <+: b → p ≠ [] → p ≠ b → ¬ Due f p

/-- Steps and fits of a trace, without the resets. -/
inductive Work (X A R P : Type) where
  | did (s : Sample X A R P)
  | fitted (b : List (Sample X A R P))

def work : List (Event X A R P T) → List (Work X A R P)
  | [] => []
  | .reset _ _ _ _ _ :: es => work es
  | .step _ _ _ _ _ s :: es => .did s :: work es
  | .fit b _ _ :: es => .fitted b :: work es

/-- The work log in which each of `batches` is collected and then immediately fitted, and `rest` is collected
after that without being fitted. -/
def workOf (batches : List (List (Sample X A R P))) (rest : List (Sample X A R P)) : List (Work X A R P) :=
  batches.flatMap (fun b => b.map .did ++ [.fitted b]) ++ rest.map .did

/-- The run stopped when it should: exactly `n` transitions, or exactly at the transition that ends
episode number `n`. -/
def BudgetMet (b : Budget) (l : List (Sample X A R P)) : Prop :=
  match b with
  | .steps n => l.length = n
  | .episodes n => endings l = n ∧ (l = [] ∨ ∃ init s, l = init ++ [s] ∧ s.last = true)

/-- The end-of-episode rule: the environment says so, or the horizon is reached. -/
def EndsHere (horizon : Option Nat) (t : Nat) (absorbing : Bool) : Prop :=
  absorbing = true ∨ ∃ h, horizon = some h ∧ h ≤ t

/-- A trace is well chained. `cur = none`: an episode must start now; `cur = some (x, ps, t)`: the current episode
has made `t` steps, is in state `x` and the policy is in state `ps`. `pre obs x` says that `x` is an admissible preprocessing of the observation. -/
def Chained (horizon : Option Nat) (pre : X → X → Prop) : Option (X × Option P × Nat) → List (Event X A R P T) → Prop
  | _, [] => True
  | none, .reset _ obs x0 ps _ :: es => pre obs x0 ∧ Chained horizon pre (some (x0, ps, 0)) es
  | some (x, ps, t), .step _ act obs rew abs s :: es =>
      s.state = x ∧ s.policyState = ps ∧ s.action = act ∧ s.reward = rew ∧ s.absorbing = abs ∧ pre obs s.nextState ∧
      (s.last = true ↔ EndsHere horizon (t + 1) abs) ∧
      Chained horizon pre (if s.last then none else some (s.nextState, s.policyNextState, t + 1)) es
  | cur, .fit _ _ _ :: es => Chained horizon pre cur es
  | _, _ :: _ => False

/-- Who decides the actions. `pending` is the action the learning rule left for the next step. A step executes the
pending action if there is one, otherwise the policy is asked, in the (agent-preprocessed) current state and with
the current policy state; a new
episode cancels the pending action. -/
def ActionsFollow (apre : X → X → Prop) : Option A → List (Event X A R P T) → Prop
  | _, [] => True
  | _, .reset _ _ _ _ _ :: es => ActionsFollow apre none es
  | none, .step asked _ _ _ _ s :: es =>
      (∃ x, asked = some (x, s.policyState) ∧ apre s.state x) ∧ ActionsFollow apre none es
  | some a, .step asked act _ _ _ _ :: es => asked = none ∧ act = a ∧ ActionsFollow apre none es
  | _, .fit _ _ next :: es => ActionsFollow apre next es

/-- The theta list of each fit consists of the parameters of the episodes started since the previous fit. -/
def ThetasFollow : List T → List (Event X A R P T) → Prop
  | _, [] => True
  | acc, .reset _ _ _ _ th :: es => ThetasFollow (acc ++ [th]) es
  | acc, .step _ _ _ _ _ _ :: es => ThetasFollow acc es
  | acc, .fit _ ths _ :: es => ths = acc ∧ ThetasFollow [] es

end Verif.Core
