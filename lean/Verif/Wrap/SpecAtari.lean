/-
What C103 says, without the model of the wrapper.
-/
import Mathlib.Data.Real.Basic
import Mathlib.Data.List.Basic

namespace Verif.Wrap

/-- The last `n` items of a list. -/
def lastN {α : Type} (n : ℕ) (l : List α) : List α := l.drop (l.length - n)

/-- The outputs of a machine for one action repeated at most `n` times, until one of them is the last (`stop`). -/
def repeated {G O : Type} (next : G → O) (game : O → G) (stop : O → Bool) : ℕ → G → List O
  | 0, _ => []
  | n + 1, g => next g :: (if stop (next g) then [] else repeated next game stop n (game (next g)))

/-- The state of a machine after a list of actions. -/
def after {G : Type} (next : G → ℕ → G) (g : G) (actions : List ℕ) : G := actions.foldl next g

end Verif.Wrap
