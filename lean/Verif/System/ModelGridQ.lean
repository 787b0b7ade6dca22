/-
Model of a whole experiment: `Core` with a `GridWorld` and a `QLearning` agent.
/repo/mushroom_rl/environments/grid_world.py, algorithms/value/td/q_learning.py, core/core.py.
-/
import Verif.TD.SpecLive
import Verif.Finite.Model

namespace Verif.System

open Verif.TD Verif.Finite

noncomputable section

/-- Everything that is neither the environment nor the agent's table: the policy, the callbacks, with their own state
`E`. The policy and the callbacks see the table. core.py L14-40. -/
structure Rest (E : Type) where
  horizon : Option ℕ
  draw : E → Table ℕ (Fin 4) → ℕ → E × Fin 4
  callbackStep : E → Table ℕ (Fin 4) → Core.Sample ℕ (Fin 4) ℝ Unit → E
  callbacksFit : List (E → Table ℕ (Fin 4) → List (Core.Sample ℕ (Fin 4) ℝ Unit) → E)

/-- A grid world inside `Core`; the first component of the world is the attribute `_state` of the environment.
grid_world.py L39-53, L134-144. States and actions, which are arrays of one integer, are integers here; there are no
preprocessors. -/
def gridUser {E : Type} (g : Grid) (r : Rest E) : User (ℕ × E) ℕ (Fin 4) (Table ℕ (Fin 4)) :=
  { horizon := r.horizon
    envReset := fun w req => match req with
      | none => ((g.reset, w.2), g.reset)
      | some x => ((x, w.2), x)
    envStep := fun w a => (((g.step w.1 a).1, w.2), ((g.step w.1 a).1, ((g.step w.1 a).2.1 : ℝ), (g.step w.1 a).2.2))
    draw := fun w Q s => ((w.1, (r.draw w.2 Q s).1), (r.draw w.2 Q s).2)
    corePre := []
    agentPre := []
    callbackStep := fun w Q t => (w.1, r.callbackStep w.2 Q t)
    callbacksFit := r.callbacksFit.map (fun f => fun w Q b => (w.1, f w.2 Q b)) }

/-- The learning rate, which has its own state. q_learning.py L12-23. -/
def gridRate {E : Type} (rate : E → ℕ → Fin 4 → E × ℝ) : ℕ × E → ℕ → Fin 4 → (ℕ × E) × ℝ :=
  fun w s a => ((w.1, (rate w.2 s a).1), (rate w.2 s a).2)

/-- `Core(QLearning(...), GridWorld(...))`. -/
def gridCore {E : Type} (g : Grid) (r : Rest E) (γ : ℝ) (rate : E → ℕ → Fin 4 → E × ℝ) :
    Core.Sys ((ℕ × E) × Table ℕ (Fin 4)) ℕ (Fin 4) ℝ Unit Unit :=
  tdSys (gridUser g r) (qLearningRule γ (gridRate rate))

end

end Verif.System
