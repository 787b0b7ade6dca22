/-
Model of an evaluation: the program that `Core.evaluate` runs when environment and agent take their random numbers, in the order of the calls, from one random generator.
-/
import Verif.Eval.Lemmas
import Verif.System.Props

namespace Verif.Eval

noncomputable section

variable {E S X A P T U : Type}

/-- The state in which `env.reset(state)` puts the environment: environment.py L143-154. -/
def Sim.startOf (m : Sim S X A P T U) : Option X → U → S
  | none => m.start
  | some x => m.place x

/-- The program, for the loop of Core/Model.lean: core.py L70-208. The world is what the callbacks keep, the hidden state of the environment and the random numbers that
are still to come. Each call of `env.reset`, `env.step`, `agent.episode_start` and `policy.draw_action` takes one (a draw can be a whole array). Simplified: no
preprocessors (running statistics would make the episodes depend on each other), and the callback after each step changes only what it owns. -/
def simSys (m : Sim S X A P T U) (H : ℕ) (episodic : Bool) (callback : E → Core.Sample X A ℝ P → E) : Core.Sys (E × S × (ℕ → U)) X A ℝ P T :=
  { horizon := some H
    isEpisodic := episodic
    envReset := fun w req => ((w.1, m.startOf req (w.2.2 0), shift w.2.2), m.see (m.startOf req (w.2.2 0)))
    episodeStart := fun w x => ((w.1, w.2.1, shift w.2.2), (some (m.begins x (w.2.2 0)).1, (m.begins x (w.2.2 0)).2))
    envStep := fun w a => ((w.1, m.next w.2.1 a (w.2.2 0), shift w.2.2),
      (m.see (m.next w.2.1 a (w.2.2 0)), m.reward w.2.1 a (m.next w.2.1 a (w.2.2 0)), m.absorbing w.2.1 a (m.next w.2.1 a (w.2.2 0))))
    policyDraw := fun w x ps => ((w.1, w.2.1, shift w.2.2),
      ((m.act x (ps.getD (m.begins x (w.2.2 0)).1) (w.2.2 0)).1, some (m.act x (ps.getD (m.begins x (w.2.2 0)).1) (w.2.2 0)).2))
    fit := fun w next _ _ => (w, next)
    corePre := []
    agentPre := []
    callbackStep := fun w x => (callback w.1 x, w.2)
    callbacksFit := [] }

end

end Verif.Eval
