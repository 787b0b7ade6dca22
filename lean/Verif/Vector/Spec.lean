/-
Specification vocabulary for the vectorized loop. A history is the list of what has been collected: for every loop
iteration the activity mask, the transition of every environment, and the number of fits that had been done before.
-/
import Verif.Vector.Model
import Verif.Dataset.Spec

namespace Verif.Vector

open Verif.Dataset (Row setLast closeEnd)

variable {W X A R P T : Type}

abbrev History (X A R P : Type) := List ((Nat → Bool) × (Nat → Row X A R P) × Nat)

/-- Number of environment steps made by active environments (`n` environments). -/
def steps (n : Nat) (h : History X A R P) : Nat := (h.map (fun e => cnt e.1 n)).sum

/-- Number of episodes completed by active environments. -/
def episodes (n : Nat) (h : History X A R P) : Nat :=
  (h.map (fun e => cnt (fun i => e.1 i && (e.2.1 i).last) n)).sum

/-- The transitions of environment `i`, in time order. -/
def trajectory (h : History X A R P) (i : Nat) : List (Row X A R P) :=
  h.filterMap (fun e => if e.1 i then some (e.2.1 i) else none)

/-- The part of the history between fit `k` and fit `k + 1`. -/
def between (h : History X A R P) (k : Nat) : History X A R P := h.filter (fun e => e.2.2 == k)

/-- The concatenation of the trajectories of all the environments, each with its final transition marked `last`. -/
def blocks (n : Nat) (h : History X A R P) : List (Row X A R P) :=
  ((List.range n).map (fun i => closeEnd (trajectory h i))).flatten

/-- The same transitions without the internal states of the policy. -/
def noPolicyStates (l : List (Row X A R P)) : List (Row X A R Unit) :=
  l.map (fun r => { state := r.state, action := r.action, reward := r.reward, nextState := r.nextState
                    absorbing := r.absorbing, last := r.last, policyState := (), policyNextState := () })

/-- An environment stops being active only at the end of an episode. -/
def StopsAtEnd (n : Nat) (h : History X A R P) : Prop :=
  ∀ t e e', h[t]? = some e → h[t + 1]? = some e' → ∀ i < n, e.1 i = true → e'.1 i = false → (e.2.1 i).last = true

/-- `log` as pairs of arrays. -/
def rowsOf (h : History X A R P) : List (Nat → Row X A R P) := h.map (fun e => e.2.1)
def masksOf (h : History X A R P) : List (Nat → Bool) := h.map (fun e => e.1)

/-- What `VectorCore.evaluate` returns when its loop runs for at most `fuel` iterations: `none` if the loop is still
running. -/
def evaluate (sys : Sys W X A R P T) (l : Logic) (n : Nat) (horizon nSteps nEpisodes : Option Nat) (cap : Nat)
    (w : W) (x0 : Nat → X) (p0 : Nat → P) (fuel : Nat) :
    Except Err (Option (St W X A R P T × Option (List (Row X A R Unit)))) :=
  let c := l.evaluateCfg n horizon nSteps nEpisodes
  match loop sys c cap fuel (start w x0 p0) with
  | .error e => .error e
  | .ok (true, s) => .ok (some (s, (flatten n none s.data s.masks s.thetas).1.map (·.1)))
  | .ok (false, _) => .ok none

/-- What `VectorCore.learn` does in at most `fuel` iterations. -/
def learnCfg (l : Logic) (n : Nat) (horizon nSteps nEpisodes : Option Nat) : Cfg :=
  { n := n, horizon := horizon, nSteps := nSteps, nEpisodes := nEpisodes, perFitSteps := l.perFitSteps,
    perFitEps := l.perFitEps, learning := true }

end Verif.Vector
