/-
Vocabulary for learning in a grid world.
-/
import Verif.System.ModelGridQ

namespace Verif.System

open Verif.TD Verif.Finite

noncomputable section

/-- Number of moves between two cells of a grid without obstacles. -/
def apart (a b : ℕ × ℕ) : ℕ := (a.1 - b.1) + (b.1 - a.1) + ((a.2 - b.2) + (b.2 - a.2))

/-- Number of moves between a state and the goal. -/
def toGoal (g : Grid) (s : ℕ) : ℕ := apart (toGrid s g.width) g.goal

/-- The states in which an episode can go on: the cells other than the goal. -/
def Live (g : Grid) (s : ℕ) : Prop := s < g.height * g.width ∧ toGrid s g.width ≠ g.goal

/-- The action has the largest value of the state. -/
def Greedy (Q : Table ℕ (Fin 4)) (s : ℕ) (a : Fin 4) : Prop := ∀ b, Q s b ≤ Q s a

/-- The constructor accepts the grid, and the start is one of its cells (which the constructor does not check). -/
def Proper (g : Grid) : Prop := g.accepted ∧ g.start.1 < g.height ∧ g.start.2 < g.width

/-- Every greedy action of every cell other than the goal is the first move of a shortest path to the goal. -/
def Shortest (g : Grid) (Q : Table ℕ (Fin 4)) : Prop :=
  ∀ x, Live g x → ∀ a, Greedy Q x a → toGoal g (g.step x a).1 + 1 = toGoal g x

/-- Reward, absorbing flag and last flag of the transitions of an episode that takes a shortest path from the start. -/
def shortestEpisode (g : Grid) : List (ℝ × Bool × Bool) :=
  List.replicate (toGoal g g.reset - 1) (0, false, false) ++ [(10, true, true)]

/-- The grid world as a deterministic problem. -/
def gridMDP (g : Grid) : DetMDP ℕ (Fin 4) :=
  { reward := fun s a => ((g.step s a).2.1 : ℝ)
    next := fun s a => (g.step s a).1
    absorbing := fun s a => (g.step s a).2.2 }

/-- The discounted return of the shortest path that begins with the action. -/
def shortestReturn (g : Grid) (γ : ℝ) : Table ℕ (Fin 4) := fun s a => 10 * γ ^ toGoal g (g.step s a).1

end

end Verif.System
