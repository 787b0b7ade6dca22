/-
Model of the constructors and the rendering of wrapped environments: /repo/mushroom_rl/environments/gym_env.py, gymnasium_env.py, igibson_env.py,
habitat_env.py.

Dictionaries of keyword arguments are lists of pairs with different keys. A wrapper class is a function that may fail, for example because of an argument
that it does not know.
-/
import Mathlib.Data.List.Basic
import Mathlib.Data.Rat.Defs

namespace Verif.Wrap.Stack

/-- Keyword arguments. -/
abbrev Kw (V : Type) := List (String × V)

/-- A wrapper class: its constructor. -/
abbrev Wrapper (E V : Type) := E → Kw V → Option E

/-- The elements of `wrappers`: a class, or a tuple of a class and its arguments. -/
inductive Item (E V : Type)
  | plain (w : Wrapper E V)
  | tuple (w : Wrapper E V) (kw : Kw V)

/-- `f(**a, **b)`: a repeated argument is a TypeError. -/
def merge {V : Type} (a b : Kw V) : Option (Kw V) := if a.any fun p => b.any fun q => p.1 == q.1 then none else some (a ++ b)

/-- One round of the loop. gym_env.py L57-61, gymnasium_env.py L61-65. -/
def wrapOne {E V : Type} (envArgs : Kw V) (env : E) : Item E V × Kw V → Option E
  | (.tuple w kw, args) => (merge args kw).bind (w env)
  | (.plain w, args) => (merge args envArgs).bind (w env)

/-- The environment after the loop; `make` is `gym.make(name, …)`. `zip` stops at the end of the shorter list. gym_env.py L52-61, gymnasium_env.py L56-65. -/
def build {E V : Type} (make : Kw V → Option E) (envArgs : Kw V) (wrappers : Option (List (Item E V))) (wrappersArgs : Option (List (Kw V))) : Option E :=
  (make envArgs).bind fun env =>
    match wrappers with
    | none => some env
    | some ws =>
      let args := wrappersArgs.getD (List.replicate ws.length [])
      (ws.zip args).foldlM (wrapOne envArgs) env

/-! ### Rendering -/

/-- What the picture depends on: the observation that the wrapped environment shows, and the image that the interface has kept. -/
structure Shown (I : Type) where
  current : I
  kept : Option I

/-- `reset`: iGibson and Habitat keep no image. igibson_env.py L113-115, habitat_env.py L51-52, L154-155, L251-254. -/
def Shown.reset {I : Type} (s : Shown I) (obs : I) : Shown I := { s with current := obs }

/-- `step`. igibson_env.py L117-121, habitat_env.py L57-62, L160-167. -/
def Shown.step {I : Type} (_ : Shown I) (obs : I) : Shown I := ⟨obs, some obs⟩

/-- `render(record=True)`; without an image the viewer fails. igibson_env.py L129-135, habitat_env.py L264-274. -/
def Shown.render {I : Type} (s : Shown I) : Option I := s.kept

/-- Calls of an interface. -/
inductive View (I : Type)
  | reset (obs : I)
  | step (obs : I)

/-- A history of calls. -/
def Shown.call {I : Type} (s : Shown I) : View I → Shown I
  | .reset obs => s.reset obs
  | .step obs => s.step obs

/-- The state of `Gym` and `Gymnasium` that rendering depends on. gym_env.py L45-50, gymnasium_env.py L47-54. -/
structure GymView where
  notPybullet : Bool
  first : Bool

/-- `render(record)`: the new state and whether the present frame is shown, and whether it is returned. gym_env.py L97-109, gymnasium_env.py L102-118. -/
def GymView.render (g : GymView) (record : Bool) : GymView × Bool × Bool :=
  if g.first || g.notPybullet then ({ g with first := false }, true, record) else (g, false, false)

/-! ### Actions of Habitat -/

/-- The non-negative index that a python slice bound means. -/
def bound (n : ℕ) (i : ℤ) : ℕ := if i < 0 then (i + n).toNat else min i.toNat n

/-- `action[:-grip]` and `action[-grip:]`. habitat_env.py L161-162. -/
def rearrange {α : Type} (action : List α) (grip : ℕ) : List α × List α :=
  (action.take (bound action.length (-grip)), action.drop (bound action.length (-grip)))

/-- The sum of the rewards of `get_optimal_policy_return`, for the rewards and the `done` flags that the steps of the path give; `none` is the path of
`get_shortest_path` if there is none, which cannot be iterated. habitat_env.py L103-112. -/
def pathReturn : Option (List (ℚ × Bool)) → Option ℚ
  | none => none
  | some l => some ((l.foldl (fun (acc : ℚ × Bool) x => if acc.2 then acc else (acc.1 + x.1, x.2)) (0, false)).1)

end Verif.Wrap.Stack
