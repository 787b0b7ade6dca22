/-
Specification for C144: what happens to the observations of a run.
-/
import Verif.System.ModelPre
import Verif.Core.Spec
import Verif.Stats.Spec

namespace Verif.System.Pre

noncomputable section

open Verif.Core (Event)

variable {E Q X A R P T : Type}

/-- The observations that the environment returned, in order: one for every reset and one for every step. -/
def observations : List (Event X A R P T) → List X
  | [] => []
  | .reset _ obs _ _ _ :: es => obs :: observations es
  | .step _ _ obs _ _ _ :: es => obs :: observations es
  | .fit _ _ _ :: es => observations es

/-- The states that the agent got for them: the state an episode starts from, and the next state of every transition. -/
def shown : List (Event X A R P T) → List X
  | [] => []
  | .reset _ _ start _ _ :: es => start :: shown es
  | .step _ _ _ _ _ smp :: es => smp.nextState :: shown es
  | .fit _ _ _ :: es => shown es

/-- One observation goes through the preprocessors: every one of them learns from what the previous ones make of it, and then changes it. -/
def through : List (Stat Q X) → Q → X → Q × X
  | [], q, x => (q, x)
  | p :: ps, q, x => through ps (p.update q x) (p.apply (p.update q x) x)

/-- A list of observations goes through, one after the other. -/
def replay (ps : List (Stat Q X)) : Q → List X → Q × List X
  | q, [] => (q, [])
  | q, x :: xs =>
    let r := replay ps (through ps q x).1 xs
    (r.1, (through ps q x).2 :: r.2)

/-- The agent has the preprocessors `ps`, and no one but them changes what they have learned; everybody may read it. -/
structure Owns (ps : List (Stat Q X)) (sys : Core.Sys (E × Q) X A R P T) : Prop where
  pre : sys.corePre = ps.map Stat.lift
  envReset : ∀ w req, (sys.envReset w req).1.2 = w.2
  episodeStart : ∀ w x, (sys.episodeStart w x).1.2 = w.2
  envStep : ∀ w a, (sys.envStep w a).1.2 = w.2
  policyDraw : ∀ w x p, (sys.policyDraw w x p).1.2 = w.2
  fit : ∀ w a b t, (sys.fit w a b t).1.2 = w.2
  callbackStep : ∀ w smp, (sys.callbackStep w smp).2 = w.2
  callbacksFit : ∀ cb ∈ sys.callbacksFit, ∀ w b, (cb w b).2 = w.2

/-- Standardised with the mean and the deviation of the samples `xs` and of one more sample, 0, and one more squared deviation, 1, and clipped. -/
def standardised (clipObs : ℝ) (xs : List ℝ) (x : ℝ) : ℝ :=
  let mean := Stats.average (0 :: xs)
  let std := √((1 + Stats.squaredDeviations mean (0 :: xs)) / (1 + xs.length))
  min (max ((x - mean) / std) (-clipObs)) clipObs

end

end Verif.System.Pre
