/-
Vocabulary for the properties of the temporal-difference agents.
-/
import Verif.TD.Model

namespace Verif.TD

noncomputable section

variable {S A : Type} [DecidableEq S] [DecidableEq A] [Fintype A] [Nonempty A]

/-- `Q'` differs from `Q` at most in the entry of `s` and `a`, where it is `v`. -/
def SetsOnly (Q Q' : Table S A) (s : S) (a : A) (v : ℝ) : Prop :=
  Q' s a = v ∧ ∀ s' a', ¬ (s' = s ∧ a' = a) → Q' s' a' = Q s' a'

/-- `m` is the largest of the values `q`. -/
def IsMax (q : A → ℝ) (m : ℝ) : Prop := (∀ a, q a ≤ m) ∧ ∃ a, q a = m

/-- All the entries are within `B` of zero. -/
def Bounded (B : ℝ) (Q : Table S A) : Prop := ∀ s a, |Q s a| ≤ B

/-- All the entries of the tables are within `B` of each other. -/
def Close (B : ℝ) (Q Q' : Table S A) : Prop := ∀ s a, |Q s a - Q' s a| ≤ B

/-- A probability distribution over the actions. -/
def Prob (p : A → ℝ) : Prop := (∀ a, 0 ≤ p a) ∧ ∑ a, p a = 1

/-- A deterministic problem: reward, next state and absorbing flag of every state-action pair. -/
structure DetMDP (S A : Type) where
  reward : S → A → ℝ
  next : S → A → S
  absorbing : S → A → Bool

/-- The transition of a pair. -/
def DetMDP.trans (m : DetMDP S A) (s : S) (a : A) : Trans S A :=
  { state := s, action := a, reward := m.reward s a, next := m.next s a, absorbing := m.absorbing s a }

/-- `Q` is the optimal action-value function: Bellman's equation. `V` of a state is the largest value of its actions. -/
def Optimal (m : DetMDP S A) (γ : ℝ) (Q : Table S A) : Prop :=
  ∃ V : S → ℝ, (∀ s, IsMax (Q s) (V s)) ∧
    ∀ s a, Q s a = m.reward s a + γ * (if m.absorbing s a then 0 else V (m.next s a))

/-- What the agent went through: `Learns rule g events g'` says that an agent in state `g` that lives through `events`
(as recorded by `Core`) is then in state `g'`: it is told about every new episode and it updates itself once with every
transition, immediately after it was made. -/
inductive Learns {E G : Type} (rule : Rule E S A G) (g0 : G) :
    List (Core.Event S A ℝ Unit Unit) → G → Prop
  | nil : Learns rule g0 [] g0
  | reset {es g} (req obs x ps th) : Learns rule g0 es g →
      Learns rule g0 (es ++ [.reset req obs x ps th]) (rule.start g)
  | update {es g} (asked act obs rew abs) (smp : Core.Sample S A ℝ Unit) (ths e e' g' next) : Learns rule g0 es g →
      rule.update e g none (toTrans smp) = (e', g', next) →
      Learns rule g0 (es ++ [.step asked act obs rew abs smp, .fit [smp] ths next]) g'

/-- The transitions made since the current episode began, in order. -/
def episodeSoFar (es : List (Core.Event S A ℝ Unit Unit)) : List (Core.Sample S A ℝ Unit) :=
  es.foldl (fun acc ev => match ev with
    | .reset .. => []
    | .step _ _ _ _ _ s => acc ++ [s]
    | .fit .. => acc) []

/-- The transition visits the pair. -/
def Visits (s : S) (a : A) (t : Core.Sample S A ℝ Unit) : Prop := t.state = s ∧ t.action = a

instance (s : S) (a : A) (t : Core.Sample S A ℝ Unit) : Decidable (Visits s a t) := by unfold Visits; infer_instance

/-- The discounted number of visits of a pair in a sequence of transitions: a visit `k` transitions before the last one
counts `d ^ k`. -/
def discountedVisits (d : ℝ) (s : S) (a : A) : List (Core.Sample S A ℝ Unit) → ℝ
  | [] => 0
  | t :: ts => (if Visits s a t then d ^ ts.length else 0) + discountedVisits d s a ts

/-- The discount of the last visit: `d ^ k` if the last visit was `k` transitions before the last one, 0 if there is
none. -/
def lastVisit (d : ℝ) (s : S) (a : A) : List (Core.Sample S A ℝ Unit) → ℝ
  | [] => 0
  | t :: ts => if ∃ t' ∈ ts, Visits s a t' then lastVisit d s a ts else if Visits s a t then d ^ ts.length else 0

/-- The share of a pair in the update made after a sequence of transitions of one episode. -/
def credit (k : TraceKind) (d : ℝ) (s : S) (a : A) (l : List (Core.Sample S A ℝ Unit)) : ℝ :=
  match k with
  | .accumulating => discountedVisits d s a l
  | .replacing => lastVisit d s a l

end

end Verif.TD
