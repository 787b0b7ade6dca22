/-
Specification vocabulary for the callbacks of the vectorized loop: the same experiment seen next to the memory of the
callbacks, and a journal of the calls.
-/
import Verif.Vector.ModelCallbacks
import Verif.Vector.Spec

namespace Verif.Vector.Callbacks

open Verif.Dataset (Row)

variable {W O X A R P T : Type}

/-- The same environments, agent and policy in a world that also has a place `O` for the memory of the callbacks, of
which they take no notice. -/
def beside (O : Type) (sys : Sys W X A R P T) : Sys (W × O) X A R P T where
  isEpisodic := sys.isEpisodic
  envReset v i := (((sys.envReset v.1 i).1, v.2), (sys.envReset v.1 i).2)
  envStep v i a := (((sys.envStep v.1 i a).1, v.2), (sys.envStep v.1 i a).2)
  noReward := sys.noReward
  episodeStart v xs m := (((sys.episodeStart v.1 xs m).1, v.2), (sys.episodeStart v.1 xs m).2)
  draw v xs ps := (((sys.draw v.1 xs ps).1, v.2), (sys.draw v.1 xs ps).2)
  fit v rows th := (sys.fit v.1 rows th, v.2)
  garbage := sys.garbage

/-- The run without the memory of the callbacks. -/
def St.base (s : St (W × O) X A R P T) : St W X A R P T :=
  { w := s.w.1, running := s.running, totE := s.totE, totS := s.totS, curE := s.curE, curS := s.curS, last := s.last
    mask := s.mask, state := s.state, envState := s.envState, policyState := s.policyState
    episodeSteps := s.episodeSteps, data := s.data, masks := s.masks, thetas := s.thetas, fits := s.fits, log := s.log }

/-- Callbacks that only use their own memory. -/
structure Observers (cb : Callbacks (W × O) X A R P T) : Prop where
  step : ∀ v row, (cb.step v row).1 = v.1
  fit : ∀ f ∈ cb.fit, ∀ v data masks thetas, (f v data masks thetas).1 = v.1

/-- A call of a callback, with its argument. -/
inductive Call (X A R P T : Type) where
  | step (row : Nat → Row X A R P)
  | fit (data : List (Nat → Row X A R P)) (masks : List (Nat → Bool)) (thetas : Nat → List T)

/-- A step callback and a fit callback that write down every call. -/
def journal : Callbacks (W × List (Call X A R P T)) X A R P T where
  step v row := (v.1, v.2 ++ [.step row])
  fit := [fun v data masks thetas => (v.1, v.2 ++ [.fit data masks thetas])]

/-- The step calls in order, each with the number of fit calls before it (`k` have been made before the list). -/
def stepCalls : Nat → List (Call X A R P T) → List ((Nat → Row X A R P) × Nat)
  | _, [] => []
  | k, .step row :: l => (row, k) :: stepCalls k l
  | k, .fit _ _ _ :: l => stepCalls (k + 1) l

/-- What `dataset.flatten(n_steps)` gives for the datasets of the fit calls, in order. -/
def fitCalls (n : Nat) (perFitSteps : Option Nat) :
    List (Call X A R P T) → List (Option (List (Row X A R Unit) × List T))
  | [] => []
  | .step _ :: l => fitCalls n perFitSteps l
  | .fit data masks thetas :: l => (flatten n perFitSteps data masks thetas).1 :: fitCalls n perFitSteps l

/-- A `CollectDataset` among the fit callbacks. -/
def collector (n : Nat) : Callbacks (W × Option (List (Row X A R Unit) × List T)) X A R P T where
  step v _ := v
  fit := [fun v data masks thetas => (v.1, collect n v.2 data masks thetas)]

end Verif.Vector.Callbacks
