/-
Model of the vectorized experiment loop: `VectorCore`, `VectorizedCoreLogic`, `VectorizedDataset`.

Files: mushroom_rl/core/vectorized_core.py, mushroom_rl/core/_impl/vectorized_core_logic.py,
mushroom_rl/core/_impl/core_logic.py, mushroom_rl/core/dataset.py (L544-649), mushroom_rl/core/array_backend.py
(`pack_padded_sequence` of the numpy backend, L271-275), mushroom_rl/core/_impl/numpy_dataset.py (`get_view`).

A per-environment array of length `n` is a function on environment indices (only indices below `n` matter). Everything
a user plugs in is an arbitrary function on an arbitrary world state `W`. The environments follow the protocol of
`MultiprocessEnvironment` (multiprocess_environment.py L95-133): only the selected ones are stepped or reset, the
observations of the others stay the same and their absorbing flags are false.
Not modelled here: core preprocessors (`_reset` hands them the pair returned by `reset_all`, which no preprocessor of the
library accepts; see System/ModelPre.lean), rendering, step and episode infos, `initial_states`. For callbacks see ModelCallbacks.lean.
-/
import Verif.Dataset.Model

namespace Verif.Vector

open Verif.Dataset (Row)

inductive Err where
  | value   -- ValueError: shape mismatch in a masked assignment
  | index   -- IndexError: no free row in the dataset
  | type    -- TypeError: a dataset for one environment has no masks
deriving DecidableEq, Repr

variable {W X A R P T : Type}

/-- `flags.sum()` over the environments. -/
def cnt (f : Nat → Bool) : Nat → Nat
  | 0 => 0
  | n + 1 => cnt f n + (if f n then 1 else 0)

/-- `flags.any()`. -/
def anyOf (f : Nat → Bool) (n : Nat) : Bool := decide (0 < cnt f n)

/-! ### VectorizedCoreLogic -/

/-- Parameters of a run. `perFitSteps`/`perFitEps` are `_n_steps_per_fit` and `_n_episodes_per_fit`; `learning` tells
whether `fit_required` is the condition set by `initialize_learn` or the constant set by `initialize_evaluate`. -/
structure Cfg where
  n : Nat
  horizon : Option Nat
  nSteps : Option Nat
  nEpisodes : Option Nat
  perFitSteps : Option Nat
  perFitEps : Option Nat
  learning : Bool
deriving Repr

/-- The attributes of the logic that survive between runs: core_logic.py L9-20. -/
structure Logic where
  perFitSteps : Option Nat
  perFitEps : Option Nat
deriving Repr, DecidableEq

/-- core_logic.py L22-32: `initialize_learn` (exactly one of the two must be given). -/
def Logic.initializeLearn (_ : Logic) (perFitSteps perFitEps : Option Nat) : Option Logic :=
  match perFitSteps, perFitEps with
  | some k, none => some { perFitSteps := some k, perFitEps := none }
  | none, some k => some { perFitSteps := none, perFitEps := some k }
  | _, _ => none

/-- core_logic.py L34-35: `initialize_evaluate` only replaces `fit_required`. -/
def Logic.initializeEvaluate (l : Logic) : Logic := l

/-- The run that `evaluate` (vectorized_core.py L71-98) starts. -/
def Logic.evaluateCfg (l : Logic) (n : Nat) (horizon nSteps nEpisodes : Option Nat) : Cfg :=
  let l := l.initializeEvaluate
  { n := n, horizon := horizon, nSteps := nSteps, nEpisodes := nEpisodes, perFitSteps := l.perFitSteps,
    perFitEps := l.perFitEps, learning := false }

/-- State of a run. -/
structure St (W X A R P T : Type) where
  w : W
  running : Nat → Bool
  totE : Nat
  totS : Nat
  curE : Nat
  curS : Nat
  last : Nat → Bool
  mask : Nat → Bool
  /-- `VectorCore._state` and the `_states` of the environment -/
  state : Nat → X
  envState : Nat → X
  policyState : Nat → P
  episodeSteps : Nat → Nat
  /-- the rows stored in the dataset (one per time step, for all the environments) and their masks -/
  data : List (Nat → Row X A R P)
  masks : List (Nat → Bool)
  thetas : Nat → List T
  /-- the fits so far: flattened rows and theta list given to each -/
  fits : List (List (Row X A R Unit) × List T)
  /-- everything that has been collected so far: masks and rows, and the number of fits done before -/
  log : List ((Nat → Bool) × (Nat → Row X A R P) × Nat)

/-- What the user supplies. -/
structure Sys (W X A R P T : Type) where
  isEpisodic : Bool
  /-- the reset of environment `i` -/
  envReset : W → Nat → W × X
  /-- the step of environment `i` -/
  envStep : W → Nat → A → W × (X × R × Bool)
  /-- the reward that `np.empty` leaves for an environment that is not stepped -/
  noReward : R
  /-- `agent.episode_start_vectorized`: policy states and parameters of all the environments -/
  episodeStart : W → (Nat → X) → (Nat → Bool) → W × ((Nat → P) × (Nat → T))
  /-- `agent.draw_action` -/
  draw : W → (Nat → X) → (Nat → P) → W × ((Nat → A) × (Nat → P))
  fit : W → List (Row X A R Unit) → List T → W
  /-- uninitialised memory read by fit number `k`, for row `j` and environment `i`: mask, policy states -/
  garbage : Nat → Nat → Nat → Bool × P × P

/-- vectorized_core_logic.py L13-45: `get_mask`. `mask[last] = new_mask` gives the j-th environment whose flag is set
the j-th entry of `new_mask`; numpy broadcasts an array with a single entry, any other length mismatch raises. -/
def getMask (c : Cfg) (running last : Nat → Bool) (totE curE : Nat) : Except Err (Nat → Bool) :=
  let terminated := cnt (fun i => last i && running i) c.n
  let runningEp := cnt (fun i => !last i && running i) c.n
  let firstBatch := decide (runningEp = 0 ∧ terminated = 0)
  let terminated := if firstBatch then c.n else terminated
  let maxRuns := terminated
  let maxRuns := match c.nEpisodes with
    | some ne => min (ne - totE - runningEp) maxRuns
    | none => maxRuns
  let maxRuns := match c.perFitEps with
    | some k => min (k - curE - runningEp) maxRuns
    | none => maxRuns
  let newMask := fun j => decide (j < maxRuns)
  if firstBatch then .ok newMask
  else if cnt last c.n = terminated then .ok (fun i => if last i then newMask (cnt last i) else running i)
  else if terminated = 1 then .ok (fun i => if last i then newMask 0 else running i)
  else .error .value

/-- core_logic.py L88-95: `_move_steps_condition`, `_move_episodes_condition`. -/
def moveRequired (c : Cfg) (s : St W X A R P T) : Bool :=
  match c.nSteps with
  | some ns => decide (s.totS < ns)
  | none => match c.nEpisodes with
    | some ne => decide (s.totE < ne)
    | none => false

/-- core_logic.py L91-98: `_fit_steps_condition`, `_fit_episodes_condition`; constantly false in `evaluate`. -/
def fitRequired (c : Cfg) (s : St W X A R P T) : Bool :=
  c.learning && match c.perFitSteps with
    | some k => decide (k ≤ s.curS)
    | none => match c.perFitEps with
      | some k => decide (k ≤ s.curE)
      | none => false

/-- vectorized_core_logic.py L55-64: `after_step`. -/
def afterStep (c : Cfg) (running completed : Nat → Bool) (s : St W X A R P T) : St W X A R P T :=
  let nActive := cnt running c.n
  let done := cnt completed c.n
  { s with totS := s.totS + nActive, curS := s.curS + nActive, totE := s.totE + done, curE := s.curE + done }

/-- vectorized_core_logic.py L66-72: `after_fit_vectorized`. -/
def afterFit (c : Cfg) (s : St W X A R P T) : St W X A R P T :=
  let s := { s with curE := 0, curS := 0 }
  match c.perFitEps with
  | some _ => { s with running := fun _ => false, last := fun _ => true }
  | none => s

/-! ### VectorizedDataset -/

/-- `pack_padded_sequence`: the entries of environment `i` that are masked, in time order. -/
def packEnv (data : List (Nat → Row X A R P)) (masks : List (Nat → Bool)) (i : Nat) : List (Row X A R P) :=
  (data.zip masks).filterMap (fun p => if p.2 i then some (p.1 i) else none)

/-- `pack_padded_sequence` in column-major order: environment after environment. -/
def pack (data : List (Nat → Row X A R P)) (masks : List (Nat → Bool)) (n : Nat) : List (Row X A R P) :=
  ((List.range n).map (packEnv data masks)).flatten

/-- dataset.py L600-601: `last_padded[-1, :] = True`, in place on the stored flags. -/
def closeLast (data : List (Nat → Row X A R P)) : List (Nat → Row X A R P) :=
  match data.getLast? with
  | some r => data.dropLast ++ [fun i => { r i with last := true }]
  | none => data

/-- dataset.py L164-228: `from_array` does not hand the policy states it receives to the storage (L214-219), so the
transitions of the new dataset have none. -/
def stateless (r : Row X A R P) : Row X A R Unit :=
  { state := r.state, action := r.action, reward := r.reward, nextState := r.nextState, absorbing := r.absorbing
    last := r.last, policyState := (), policyNextState := () }

/-- dataset.py L590-632: `flatten`: the flattened rows and theta list, and the stored rows afterwards. `None` if the
dataset is empty. -/
def flatten (n : Nat) (perFitSteps : Option Nat) (data : List (Nat → Row X A R P)) (masks : List (Nat → Bool))
    (thetas : Nat → List T) : Option (List (Row X A R Unit) × List T) × List (Nat → Row X A R P) :=
  if data.length = 0 then (none, data)
  else
    let data := closeLast data
    let rows := pack data masks n
    let rows := match perFitSteps with
      | some k => rows.take k
      | none => rows
    (some (rows.map stateless, ((List.range n).map thetas).flatten), data)

/-- `mask.sum()`. -/
def maskSum (n : Nat) (masks : List (Nat → Bool)) : Nat := (masks.map (fun m => cnt m n)).sum

/-- dataset.py L562-588: `clear`. The residual rows are the last `ceil(n_extra / n_envs)` time rows; their masks (and
policy states) are read from the end of the allocated arrays (numpy_dataset.py L152-180), where only the rows below
`len` have ever been written; the assignment to `mask.flatten()` changes a copy and has no effect. `cap` is the number
of allocated time rows. -/
def residual (n cap : Nat) (garbage : Nat → Nat → Bool × P × P) (k : Nat) (data : List (Nat → Row X A R P))
    (masks : List (Nat → Bool)) : List (Nat → Row X A R P) × List (Nat → Bool) :=
  let nDataset := maskSum n masks
  if k < nDataset then
    let extra := nDataset - k
    let par := (extra + n - 1) / n
    let rows := data.drop (data.length - par)
    let raw (j : Nat) : Nat := cap - par + j
    (rows.zipIdx.map (fun p => fun i =>
        let row := p.1 i
        match data[raw p.2]? with
        | some src => { row with policyState := (src i).policyState, policyNextState := (src i).policyNextState }
        | none => { row with policyState := (garbage (raw p.2) i).2.1, policyNextState := (garbage (raw p.2) i).2.2 }),
     (List.range par).map (fun j => match masks[raw j]? with
        | some m => m
        | none => fun i => (garbage (raw j) i).1))
  else ([], [])

def clear (n cap : Nat) (garbage : Nat → Nat → Bool × P × P) (perFitSteps : Option Nat)
    (data : List (Nat → Row X A R P)) (masks : List (Nat → Bool)) :
    List (Nat → Row X A R P) × List (Nat → Bool) :=
  match perFitSteps with
  | some k => residual n cap garbage k data masks
  | none => ([], [])

/-! ### VectorCore -/

/-- multiprocess_environment.py L95-111: `reset_all`, one selected environment after the other. -/
def resetAll (sys : Sys W X A R P T) (mask : Nat → Bool) : Nat → W → (Nat → X) → W × (Nat → X)
  | 0, w, xs => (w, xs)
  | n + 1, w, xs =>
    let (w, xs) := resetAll sys mask n w xs
    if mask n then
      let (w, x) := sys.envReset w n
      (w, fun i => if i = n then x else xs i)
    else (w, xs)

/-- multiprocess_environment.py L113-133: `step_all`. -/
def stepAll (sys : Sys W X A R P T) (mask : Nat → Bool) (act : Nat → A) :
    Nat → W → (Nat → X) → W × ((Nat → X) × (Nat → R) × (Nat → Bool))
  | 0, w, xs => (w, xs, fun _ => sys.noReward, fun _ => false)
  | n + 1, w, xs =>
    let (w, xs, rs, ab) := stepAll sys mask act n w xs
    if mask n then
      let (w, x, r, a) := sys.envStep w n (act n)
      (w, fun i => if i = n then x else xs i, fun i => if i = n then r else rs i, fun i => if i = n then a else ab i)
    else (w, xs, rs, ab)

/-- vectorized_core.py L107-112 and L177-202: the part of an iteration that is executed if some episode has ended. -/
def resetPart (sys : Sys W X A R P T) (c : Cfg) (s : St W X A R P T) : Except Err (St W X A R P T) :=
  if anyOf s.last c.n then
    match getMask c s.running s.last s.totE s.curE with
    | .error e => .error e
    | .ok mask =>
      let resetMask := fun i => s.last i && mask i
      let (w, xs) := resetAll sys resetMask c.n s.w s.envState
      let (w, ps, thetas) := sys.episodeStart w xs resetMask
      .ok { s with
        w := w, mask := mask, running := mask, state := xs, envState := xs
        policyState := fun i => if resetMask i then ps i else s.policyState i
        episodeSteps := fun i => if s.last i then 0 else s.episodeSteps i
        thetas := if sys.isEpisodic && anyOf resetMask c.n then
            (fun i => if resetMask i then s.thetas i ++ [thetas i] else s.thetas i)
          else s.thetas }
  else .ok s

/-- vectorized_core.py L140-175: `_step`, then `after_step` and `append_vectorized` (L114-121). `cap` is the number of
time rows allocated by the dataset. With a single environment the dataset has no array of masks (dataset.py L91-96,
numpy_dataset.py L28-31), so that storing the mask (L130-131) raises. -/
def stepPart (sys : Sys W X A R P T) (c : Cfg) (cap : Nat) (s : St W X A R P T) : Except Err (St W X A R P T) :=
  let (w, act, ps') := sys.draw s.w s.state s.policyState
  let (w, xs, rs, ab) := stepAll sys s.mask act c.n w s.envState
  let steps := fun i => if s.mask i then s.episodeSteps i + 1 else s.episodeSteps i
  let last := fun i => ab i || (match c.horizon with
    | some h => decide (h ≤ steps i)
    | none => false)
  let row := fun i => { state := s.state i, action := act i, reward := rs i, nextState := xs i, absorbing := ab i,
                        last := last i, policyState := s.policyState i, policyNextState := ps' i : Row X A R P }
  let s := { s with w := w, state := xs, envState := xs, policyState := ps', episodeSteps := steps }
  let s := afterStep c s.running (fun i => last i && s.mask i) s
  if s.data.length < cap then
    if c.n = 1 then .error .type
    else .ok { s with data := s.data ++ [row], masks := s.masks ++ [s.mask], last := last
                      log := s.log ++ [(s.mask, row, s.fits.length)] }
  else .error .index

/-- vectorized_core.py L123-131: the fit. -/
def fitPart (sys : Sys W X A R P T) (c : Cfg) (cap : Nat) (s : St W X A R P T) : St W X A R P T :=
  if fitRequired c s then
    let (flat, data) := flatten c.n c.perFitSteps s.data s.masks s.thetas
    let batch := flat.getD ([], [])
    let s := { s with w := sys.fit s.w batch.1 batch.2, fits := s.fits ++ [batch], data := data }
    let s := afterFit c s
    let (data, masks) := clear c.n cap (sys.garbage s.fits.length) c.perFitSteps s.data s.masks
    { s with data := data, masks := masks, thetas := fun _ => [] }
  else s

/-- One iteration of the loop (vectorized_core.py L107-131). -/
def iter (sys : Sys W X A R P T) (c : Cfg) (cap : Nat) (s : St W X A R P T) : Except Err (St W X A R P T) :=
  match resetPart sys c s with
  | .error e => .error e
  | .ok s => match stepPart sys c cap s with
    | .error e => .error e
    | .ok s => .ok (fitPart sys c cap s)

/-- `fuel` iterations of the loop, or fewer if it stops before; the flag tells whether it has stopped. -/
def loop (sys : Sys W X A R P T) (c : Cfg) (cap : Nat) : Nat → St W X A R P T → Except Err (Bool × St W X A R P T)
  | 0, s => .ok (!moveRequired c s, s)
  | fuel + 1, s =>
    if moveRequired c s then
      match iter sys c cap s with
      | .error e => .error e
      | .ok s => loop sys c cap fuel s
    else .ok (true, s)

/-- vectorized_core.py L101-104 and core_logic.py L37-56: the state at the start of a run. -/
def start (w : W) (x0 : Nat → X) (p0 : Nat → P) : St W X A R P T :=
  { w := w, running := fun _ => false, totE := 0, totS := 0, curE := 0, curS := 0, last := fun _ => true
    mask := fun _ => false, state := x0, envState := x0, policyState := p0, episodeSteps := fun _ => 0, data := []
    masks := [], thetas := fun _ => [], fits := [], log := [] }

/-- dataset.py L79-89: time rows allocated. `None` if the assertion on the horizon fails. -/
def capacity (horizon nSteps nEpisodes : Option Nat) : Option Nat :=
  match nSteps, nEpisodes with
  | some ns, none => some ns
  | none, some ne => horizon.map (fun h => h * ne)
  | _, _ => none

end Verif.Vector
