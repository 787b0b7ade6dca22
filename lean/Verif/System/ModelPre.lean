/-
Preprocessors of observations inside whole runs: with `Core` and with `VectorCore`.

Files: mushroom_rl/core/core.py (the loop is that of `Verif.Core`), mushroom_rl/core/vectorized_core.py,
mushroom_rl/rl_utils/preprocessors.py.

Not modelled here: that `MinMaxPreprocessor` writes into the array it is given (see `Verif.Stats`), the contents of the
episode infos.
-/
import Verif.Core.Model
import Verif.Vector.Model
import Verif.Stats.Model

namespace Verif.System.Pre

noncomputable section

variable {E Q X A R P T W I : Type}

/-! ### Core -/

/-- A preprocessor, on the joint state `Q` of all the preprocessors of an agent: `update`, then `__call__`. preprocessors.py L7-34. -/
structure Stat (Q X : Type) where
  update : Q → X → Q
  apply : Q → X → X

/-- A preprocessor in the world of a run, whose second part holds the preprocessors. -/
def Stat.lift (p : Stat Q X) : Core.Preproc (E × Q) X :=
  { update := fun w x => (w.1, p.update w.2 x), apply := fun w x => p.apply w.2 x }

/-- `StandardizationPreprocessor` for observations with one axis of length `d`. preprocessors.py L70-80, for each component the update and the call of
`Verif.Stats`. -/
def standardization (d : ℕ) (clipObs alpha : ℝ) : Stat (Fin d → Stats.RunStd) (Fin d → ℝ) where
  update q x := fun i => (q i).update alpha [x i]
  apply q x := fun i => Stats.standardize clipObs (q i) (x i)

/-- The statistics of a new `StandardizationPreprocessor`. preprocessors.py L55-60. -/
def fresh (d : ℕ) : Fin d → Stats.RunStd := fun _ => .init

/-! ### VectorCore -/

/-- What `VectorCore` hands to its preprocessors: the array of the observations of all the environments, or the pair that `reset_all` returns. -/
inductive Arg (X I : Type) where
  | array (xs : ℕ → X)
  | pair (xs : ℕ → X) (infos : I)

/-- A preprocessor for such arguments. -/
structure VPre (Q X I : Type) where
  update : Q → Arg X I → Except Vector.Err Q
  apply : Q → Arg X I → Except Vector.Err (Arg X I)

/-- vectorized_core.py L215-230: `_preprocess`. -/
def preprocess : List (VPre Q X I) → Q → Arg X I → Except Vector.Err (Q × Arg X I)
  | [], q, a => .ok (q, a)
  | p :: ps, q, a => do
    let q ← p.update q a
    let a ← p.apply q a
    preprocess ps q a

/-- `np.atleast_2d` of a tuple of an array of numbers and a list of dictionaries raises (`ValueError`, the shapes differ), and so does `obs - mean`.
Simplified: PyTorch raises a `TypeError` at the same place. preprocessors.py L70-80, running_stats.py L60, array_backend.py L251-252, L382-383. -/
def standardizationV (n d : ℕ) (clipObs alpha : ℝ) : VPre (Fin d → Stats.RunStd) (Fin d → ℝ) I where
  update q a := match a with
    | .array xs => .ok fun i => (q i).update alpha ((List.range n).map fun e => xs e i)
    | .pair _ _ => .error .value
  apply q a := match a with
    | .array xs => .ok (.array fun e i => Stats.standardize clipObs (q i) (xs e i))
    | .pair _ _ => .error .value

/-- vectorized_core.py L186: `state, episode_info = self._preprocess(...)`. Simplified: an array instead of a pair is an error, also if it happens to have
two rows. -/
def unpack : Arg X I → Except Vector.Err ((ℕ → X) × I)
  | .pair xs infos => .ok (xs, infos)
  | .array _ => .error .value

/-- vectorized_core.py L194, L171: the result of `_preprocess` of an array becomes the state. Simplified: a pair is an error. -/
def asArray : Arg X I → Except Vector.Err (ℕ → X)
  | .array xs => .ok xs
  | .pair _ _ => .error .value

/-- The two passes of `_reset` over the preprocessors: the states given to `episode_start_vectorized`, and the states the run goes on with.
vectorized_core.py L186-194. -/
def resetStates (ps : List (VPre Q X I)) (q : Q) (xs : ℕ → X) (infos : I) : Except Vector.Err (Q × (ℕ → X) × (ℕ → X)) := do
  let (q, a) ← preprocess ps q (.pair xs infos)
  let (xs, _) ← unpack a
  let (q, a) ← preprocess ps q (.array xs)
  let ys ← asArray a
  return (q, xs, ys)

/-- `Vector.resetPart` with preprocessors; `infos` is the second part of the result of `reset_all`. vectorized_core.py L107-112 and L177-202. -/
def resetPart (sys : Vector.Sys W X A R P T) (ps : List (VPre Q X I)) (infos : I) (c : Vector.Cfg) (s : Vector.St W X A R P T) (q : Q) :
    Except Vector.Err (Vector.St W X A R P T × Q) :=
  if Vector.anyOf s.last c.n then
    match Vector.getMask c s.running s.last s.totE s.curE with
    | .error e => .error e
    | .ok mask =>
      let resetMask := fun i => s.last i && mask i
      let (w, obs) := Vector.resetAll sys resetMask c.n s.w s.envState
      match resetStates ps q obs infos with
      | .error e => .error e
      | .ok (q, xs, ys) =>
        let (w, pst, thetas) := sys.episodeStart w xs resetMask
        .ok ({ s with
          w := w, mask := mask, running := mask, state := ys, envState := obs
          policyState := fun i => if resetMask i then pst i else s.policyState i
          episodeSteps := fun i => if s.last i then 0 else s.episodeSteps i
          thetas := if sys.isEpisodic && Vector.anyOf resetMask c.n then
              (fun i => if resetMask i then s.thetas i ++ [thetas i] else s.thetas i)
            else s.thetas }, q)
  else .ok (s, q)

/-- `Vector.stepPart` with preprocessors. vectorized_core.py L140-175, then L114-121. -/
def stepPart (sys : Vector.Sys W X A R P T) (ps : List (VPre Q X I)) (c : Vector.Cfg) (cap : ℕ) (s : Vector.St W X A R P T) (q : Q) :
    Except Vector.Err (Vector.St W X A R P T × Q) :=
  let (w, act, ps') := sys.draw s.w s.state s.policyState
  let (w, obs, rs, ab) := Vector.stepAll sys s.mask act c.n w s.envState
  let steps := fun i => if s.mask i then s.episodeSteps i + 1 else s.episodeSteps i
  let last := fun i => ab i || (match c.horizon with
    | some h => decide (h ≤ steps i)
    | none => false)
  match preprocess ps q (.array obs) with
  | .error e => .error e
  | .ok (q, a) => match asArray a with
    | .error e => .error e
    | .ok xs =>
      let row := fun i => { state := s.state i, action := act i, reward := rs i, nextState := xs i, absorbing := ab i,
                            last := last i, policyState := s.policyState i, policyNextState := ps' i : Dataset.Row X A R P }
      let s := { s with w := w, state := xs, envState := obs, policyState := ps', episodeSteps := steps }
      let s := Vector.afterStep c s.running (fun i => last i && s.mask i) s
      if s.data.length < cap then
        if c.n = 1 then .error .type
        else .ok ({ s with data := s.data ++ [row], masks := s.masks ++ [s.mask], last := last
                           log := s.log ++ [(s.mask, row, s.fits.length)] }, q)
      else .error .index

/-- One iteration of the loop. vectorized_core.py L107-131. -/
def iter (sys : Vector.Sys W X A R P T) (ps : List (VPre Q X I)) (infos : I) (c : Vector.Cfg) (cap : ℕ) (s : Vector.St W X A R P T) (q : Q) :
    Except Vector.Err (Vector.St W X A R P T × Q) := do
  let (s, q) ← resetPart sys ps infos c s q
  let (s, q) ← stepPart sys ps c cap s q
  return (Vector.fitPart sys c cap s, q)

/-- The loop, as `Vector.loop`. vectorized_core.py L106. -/
def loop (sys : Vector.Sys W X A R P T) (ps : List (VPre Q X I)) (infos : I) (c : Vector.Cfg) (cap : ℕ) :
    ℕ → Vector.St W X A R P T → Q → Except Vector.Err (Bool × Vector.St W X A R P T × Q)
  | 0, s, q => .ok (!Vector.moveRequired c s, s, q)
  | fuel + 1, s, q =>
    if Vector.moveRequired c s then
      match iter sys ps infos c cap s q with
      | .error e => .error e
      | .ok (s, q) => loop sys ps infos c cap fuel s q
    else .ok (true, s, q)

/-- A preprocessor written by a user that accepts both kinds of argument: every observation is changed by `f`, and the number of observations it has been
given is counted. It is the kind of preprocessor that `VectorCore` does run. -/
def rowwise (n : ℕ) (f : X → X) : VPre ℕ X I where
  update q _ := .ok (q + n)
  apply _ a := match a with
    | .array xs => .ok (.array fun e => f (xs e))
    | .pair xs infos => .ok (.pair (fun e => f (xs e)) infos)

end

end Verif.System.Pre
