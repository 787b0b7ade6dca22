/-
What C63 says, without the model of the code.
-/
import Mathlib.Data.List.Basic

namespace Verif.Misc

/-- The entries of an observation whose indices, counted from `i`, are not removed. -/
def keptFrom {α : Type} (removed : ℕ → Bool) : ℕ → List α → List α
  | _, [] => []
  | i, x :: l => if removed i then keptFrom removed (i + 1) l else x :: keptFrom removed (i + 1) l

/-- The entries of an observation that are not removed. -/
def kept {α : Type} (removed : ℕ → Bool) (l : List α) : List α := keptFrom removed 0 l

/-- The calls of `remove_obs`, in order: the key and the index in the original observation. -/
abbrev Removals (K : Type) := List (K × ℕ)

/-- Whether an index of a key is among the removals. -/
def isRemoved {K : Type} [DecidableEq K] (r : Removals K) (key : K) (i : ℕ) : Bool := r.contains (key, i)

/-- The indices removed from one observation, in the order of the calls. -/
def indicesOf {K : Type} [DecidableEq K] (r : Removals K) (key : K) : List ℕ :=
  (r.filter (fun c => c.1 = key)).map Prod.snd

end Verif.Misc
