/-
Model of a vectorized evaluation: the program that `VectorCore.evaluate` runs when every call for an environment gets its own random number.
-/
import Verif.Eval.Lemmas
import Verif.Vector.Props

namespace Verif.Eval

noncomputable section

variable {S X A P T U : Type}

/-- The random numbers of one iteration of the loop: for each environment the one of its reset, the one of the start of the episode in the agent, the one of the policy and the
one of its step. -/
abbrev Draws (U : Type) := ℕ → U × U × U × U

/-- The program, for the loop of Vector/Model.lean: vectorized_core.py L71-202. The world holds the hidden states of the environments, the random numbers of the present
iteration and those of the iterations to come; a random number that an inactive environment does not need is not used. The numbers of the present iteration are the first of
those to come until the policy is asked. `noReward` and `garbage`: what uninitialised arrays hold. -/
def vecSys (m : Sim S X A P T U) (episodic : Bool) (noReward : ℝ) (garbage : ℕ → ℕ → ℕ → Bool × P × P) : Vector.Sys ((ℕ → S) × Draws U × (ℕ → Draws U)) X A ℝ P T :=
  { isEpisodic := episodic
    envReset := fun w i => ((fun j => if j = i then m.start (w.2.2 0 i).1 else w.1 j, w.2), m.see (m.start (w.2.2 0 i).1))
    envStep := fun w i a => ((fun j => if j = i then m.next (w.1 i) a (w.2.1 i).2.2.2 else w.1 j, w.2),
      (m.see (m.next (w.1 i) a (w.2.1 i).2.2.2), m.reward (w.1 i) a (m.next (w.1 i) a (w.2.1 i).2.2.2), m.absorbing (w.1 i) a (m.next (w.1 i) a (w.2.1 i).2.2.2)))
    noReward := noReward
    episodeStart := fun w xs _ => (w, (fun i => (m.begins (xs i) (w.2.2 0 i).2.1).1, fun i => (m.begins (xs i) (w.2.2 0 i).2.1).2))
    draw := fun w xs ps => ((w.1, w.2.2 0, shift w.2.2),
      (fun i => (m.act (xs i) (ps i) (w.2.2 0 i).2.2.1).1, fun i => (m.act (xs i) (ps i) (w.2.2 0 i).2.2.1).2))
    fit := fun w _ _ => w
    garbage := garbage }

end

end Verif.Eval
