/-
Specification for C157: random continuations of a trajectory, the values of a policy and datasets of observed steps.
-/
import Verif.ValueFn.Spec
import Mathlib.Algebra.Order.BigOperators.Ring.Finset

namespace Verif.ValueFn

noncomputable section

/-- A finite decision process with a policy: the probabilities of the transitions and of the actions, the rewards, and the transitions
that end an episode. -/
structure Chain (S A : Type) [Fintype S] [Fintype A] where
  trans : S → A → S → ℝ
  pol : S → A → ℝ
  reward : S → A → S → ℝ
  absorbing : S → A → S → Bool
  trans_nonneg : ∀ s a s', 0 ≤ trans s a s'
  trans_sum : ∀ s a, ∑ s', trans s a s' = 1
  pol_nonneg : ∀ s a, 0 ≤ pol s a
  pol_sum : ∀ s, ∑ a, pol s a = 1

/-- A step of the dataset, without the action. -/
structure Seen (S : Type) where
  state : S
  reward : ℝ
  next : S
  absorbing : Bool
  last : Bool

variable {S A : Type} [Fintype S] [Fintype A]

/-- The step that is observed for a transition when `m` more steps follow at most. If no more steps follow, the step is flagged as the
last one if its transition is absorbing or if `cut` holds: the horizon has been reached, and not just the end of the dataset. -/
def Chain.seen (C : Chain S A) (cut : Bool) (m : ℕ) (s : S) (a : A) (s' : S) : Seen S :=
  { state := s, reward := C.reward s a s', next := s', absorbing := C.absorbing s a s', last := C.absorbing s a s' || (m == 0 && cut) }

/-- The expectation of a function of the rest of the trajectory, of which at most `m + 1` steps are observed, when action `a` is
executed in state `s` and the other actions are drawn with the policy. -/
def Chain.expect (C : Chain S A) (cut : Bool) : ℕ → S → A → (List (Seen S) → ℝ) → ℝ
  | 0, s, a, F => ∑ s', C.trans s a s' * F [C.seen cut 0 s a s']
  | m + 1, s, a, F => ∑ s', C.trans s a s' * if C.absorbing s a s' then F [C.seen cut (m + 1) s a s']
      else ∑ a', C.pol s' a' * C.expect cut m s' a' (fun l => F (C.seen cut (m + 1) s a s' :: l))

/-- The expected reward of an action and the discounted value of what follows. -/
def Chain.actionValue (C : Chain S A) (γ : ℝ) (V : S → ℝ) (s : S) (a : A) : ℝ :=
  ∑ s', C.trans s a s' * (C.reward s a s' + γ * if C.absorbing s a s' then 0 else V s')

/-- The values of the policy: each is the average of the values of the actions. -/
def Chain.IsValue (C : Chain S A) (γ : ℝ) (V : S → ℝ) : Prop := ∀ s, V s = ∑ a, C.pol s a * C.actionValue γ V s a

/-- The arrays for a dataset and the predictions of a critic. -/
def dataOf {S : Type} (V : S → ℝ) (l : List (Seen S)) : Data :=
  { r := fun i => ((l[i]?).map (·.reward)).getD 0
    v := fun i => ((l[i]?).map (fun o => V o.state)).getD 0
    vNext := fun i => ((l[i]?).map (fun o => V o.next)).getD 0
    absorbing := fun i => ((l[i]?).map (·.absorbing)).getD false
    last := fun i => ((l[i]?).map (·.last)).getD false }

/-- The steps before and after a trajectory in the dataset: absorbing steps are flagged as last ones, as in all the data collected by
the core, and nothing follows a trajectory that the end of the dataset has cut. -/
structure Around (pre : List (Seen S)) (post : List (Seen S) → List (Seen S)) : Prop where
  pre_ok : ∀ o ∈ pre, o.absorbing = true → o.last = true
  post_ok : ∀ l, ∀ o ∈ post l, o.absorbing = true → o.last = true
  cut_ok : ∀ l, (∃ o, l.getLast? = some o ∧ o.last = true) ∨ post l = []

end

end Verif.ValueFn
