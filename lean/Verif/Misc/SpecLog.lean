/-
What C62 says, without the model of the code.
-/
import Mathlib.Data.EReal.Basic
import Mathlib.Data.List.Basic

namespace Verif.Misc

/-- What a user does with a buffer, as far as its contents are concerned. -/
inductive Event (α : Type)
  /-- values are offered -/
  | offer (data : List α)
  /-- the buffer is emptied -/
  | clear
  /-- tracking is switched -/
  | switch (on : Bool)

/-- The values offered while tracking was on, since the last time the buffer was emptied; tracking is on at first and `acc` has the
values so far. -/
def tracked {α : Type} : Bool → List α → List (Event α) → List α
  | _, acc, [] => acc
  | on, acc, .offer data :: rest => tracked on (if on then acc ++ data else acc) rest
  | on, _, .clear :: rest => tracked on [] rest
  | _, acc, .switch on :: rest => tracked on acc rest

/-- The last `n` items of a list, all of them for `none`. -/
def lastItems {α : Type} : Option ℕ → List α → List α
  | none, l => l
  | some n, l => l.drop (l.length - n)

/-- `a` is the last of the agents with the highest performance among the evaluations; NaN (`none`) does not count. -/
def LastBest {A : Type} (l : List (A × Option EReal)) (a : A) : Prop :=
  ∃ pre post J, l = pre ++ (a, some J) :: post ∧
    (∀ p ∈ pre, ∀ J', p.2 = some J' → J' ≤ J) ∧ (∀ p ∈ post, ∀ J', p.2 = some J' → J' < J)

end Verif.Misc
