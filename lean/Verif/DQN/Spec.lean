/-
Small specifications for the deep and batch value-based agents.
-/
import Verif.DQN.Model

namespace Verif.DQN

open Verif.TD (Trans IsMax)

/-- A choice of a maximising action, such as `np.argmax`. -/
def Greedy {A : Type} (argmax : (A → ℝ) → A) : Prop := ∀ (q : A → ℝ) (a : A), q a ≤ q (argmax q)

/-- `j` is the last number up to `k` with the property. -/
def IsLast (P : ℕ → Prop) (k j : ℕ) : Prop := j ≤ k ∧ P j ∧ ∀ i, j < i → i ≤ k → ¬ P i

/-- Mean of a discrete distribution. -/
noncomputable def mean (z p : List ℝ) : ℝ := (List.zipWith (· * ·) p z).sum

/-- `y` is a target for the transition: the reward (clipped to [-1, 1] if `clip`) plus, unless the transition is
absorbing, the discounted value `v` of the next state. -/
def IsTarget {S A : Type} (γ : ℝ) (clip : Bool) (t : Trans S A) (v y : ℝ) : Prop :=
  y = (if clip then max (-1) (min t.reward 1) else t.reward) + (if t.absorbing then 0 else γ * v)

/-- The list `ys` has one value for every transition of the batch, in the same order, related to it by `P`. -/
def Each {S A B : Type} (batch : List (Trans S A)) (ys : List B) (P : Trans S A → B → Prop) : Prop :=
  ys.length = batch.length ∧ ∀ (i : ℕ) t y, batch[i]? = some t → ys[i]? = some y → P t y

end Verif.DQN
