/-
Model of the transition container: `Dataset` and its storage back-ends.

Files: mushroom_rl/core/dataset.py, mushroom_rl/core/_impl/numpy_dataset.py (torch_dataset.py has the same code with
torch calls), mushroom_rl/core/_impl/list_dataset.py, mushroom_rl/utils/callbacks/collect_dataset.py.

Simplifications: a numpy array with leading dimension `n` is a list of `n` entries; uninitialised memory
(`np.empty`) is an arbitrary list given as an argument; step infos, episode infos and theta lists are not part of
this file (theta lists are in `Verif.Core`).
-/
import Mathlib.Algebra.Order.Field.Basic

namespace Verif.Dataset

inductive Err where
  | index       -- IndexError
  | type        -- TypeError
  | assertion   -- AssertionError
deriving DecidableEq, Repr

/-- One transition (core.py L166). For a stateless agent `P = Unit`. -/
structure Row (X A R P : Type) where
  state : X
  action : A
  reward : R
  nextState : X
  absorbing : Bool
  last : Bool
  policyState : P
  policyNextState : P
deriving DecidableEq, Repr

/-- `NumpyDataset`: preallocated arrays and a logical length (numpy_dataset.py L13-26). -/
structure NpDs (X A R P : Type) where
  states : List X
  actions : List A
  rewards : List R
  nextStates : List X
  absorbing : List Bool
  last : List Bool
  policyStates : List P
  policyNextStates : List P
  len : Nat
deriving Repr

variable {X A R P : Type}

/-- numpy_dataset.py L13-26: freshly allocated arrays; the contents `g*` are whatever `np.empty` returns. -/
def NpDs.new (gs : List X) (ga : List A) (gr : List R) (gn : List X) (gab gl : List Bool) (gp gpn : List P) :
    NpDs X A R P :=
  { states := gs, actions := ga, rewards := gr, nextStates := gn, absorbing := gab, last := gl,
    policyStates := gp, policyNextStates := gpn, len := 0 }

/-- numpy_dataset.py L113-133: `append`. The first assignment raises `IndexError` when there is no row left. -/
def NpDs.append (d : NpDs X A R P) (r : Row X A R P) : Except Err (NpDs X A R P) :=
  let i := d.len
  if i < d.states.length then
    .ok { states := d.states.set i r.state
          actions := d.actions.set i r.action
          rewards := d.rewards.set i r.reward
          nextStates := d.nextStates.set i r.nextState
          absorbing := d.absorbing.set i r.absorbing
          last := d.last.set i r.last
          policyStates := d.policyStates.set i r.policyState
          policyNextStates := d.policyNextStates.set i r.policyNextState
          len := i + 1 }
  else .error .index

/-- numpy_dataset.py L135-147: `clear` allocates new (uninitialised) arrays of the same shape `g`. -/
def NpDs.clear (g : NpDs X A R P) : NpDs X A R P := { g with len := 0 }

/-- numpy_dataset.py L221-251: the properties `state`, `action`, ..., which read the first `len` rows. -/
def NpDs.state (d : NpDs X A R P) : List X := d.states.take d.len
def NpDs.action (d : NpDs X A R P) : List A := d.actions.take d.len
def NpDs.reward (d : NpDs X A R P) : List R := d.rewards.take d.len
def NpDs.nextState (d : NpDs X A R P) : List X := d.nextStates.take d.len
def NpDs.absorbingF (d : NpDs X A R P) : List Bool := d.absorbing.take d.len
def NpDs.lastF (d : NpDs X A R P) : List Bool := d.last.take d.len
def NpDs.policyState (d : NpDs X A R P) : List P := d.policyStates.take d.len
def NpDs.policyNextState (d : NpDs X A R P) : List P := d.policyNextStates.take d.len

/-- Python / numpy indexing of a sequence of length `n` (negative indices count from the end). -/
def pyIdx (n : Nat) (i : Int) : Option Nat :=
  if 0 ≤ i then (if i < n then some i.toNat else none)
  else (if -(n : Int) ≤ i then some (i + n).toNat else none)

/-- numpy_dataset.py L199-201: `__getitem__` reads the allocated arrays. -/
def NpDs.rawItem (d : NpDs X A R P) (i : Int) : Except Err (X × A × R × X × Bool × Bool) :=
  match pyIdx d.states.length i with
  | none => .error .index
  | some j =>
    match d.states[j]?, d.actions[j]?, d.rewards[j]?, d.nextStates[j]?, d.absorbing[j]?, d.last[j]? with
    | some s, some a, some r, some n, some ab, some l => .ok (s, a, r, n, ab, l)
    | _, _, _, _, _, _ => .error .index

/-- dataset.py L266-272: `Dataset.__getitem__` with an `int`. -/
def NpDs.getItem (d : NpDs X A R P) (i : Int) : Except Err (X × A × R × X × Bool × Bool) :=
  if i < d.len then d.rawItem i else .error .index

/-- Python slicing `l[start:stop]` (step 1). -/
def clampIdx (n : Nat) (i : Int) : Nat := if i < 0 then (i + n).toNat else min i.toNat n

def pySlice {α : Type} (l : List α) (start stop : Option Int) : List α :=
  let b := match start with | some i => clampIdx l.length i | none => 0
  let e := match stop with | some i => clampIdx l.length i | none => l.length
  (l.take e).drop b

/-- numpy_dataset.py L181-192: `get_view(index, copy=False)` for a slice. The data columns are sliced from the first
`len` rows, the policy-state columns from the whole allocated arrays. -/
def NpDs.view (d : NpDs X A R P) (start stop : Option Int) : NpDs X A R P :=
  let states := pySlice d.state start stop
  { states := states
    actions := pySlice d.action start stop
    rewards := pySlice d.reward start stop
    nextStates := pySlice d.nextState start stop
    absorbing := pySlice d.absorbingF start stop
    last := pySlice d.lastF start stop
    policyStates := pySlice d.policyStates start stop
    policyNextStates := pySlice d.policyNextStates start stop
    len := states.length }

/-- numpy_dataset.py L203-219: `__add__`. `result._last[len(self)-1] = True` with Python indexing. -/
def NpDs.add (d e : NpDs X A R P) : Except Err (NpDs X A R P) :=
  let last := d.lastF ++ e.lastF
  match pyIdx last.length ((d.len : Int) - 1) with
  | none => .error .index
  | some j =>
    .ok { states := d.state ++ e.state
          actions := d.action ++ e.action
          rewards := d.reward ++ e.reward
          nextStates := d.nextState ++ e.nextState
          absorbing := d.absorbingF ++ e.absorbingF
          last := last.set j true
          policyStates := d.policyState ++ e.policyState
          policyNextStates := d.policyNextState ++ e.policyNextState
          len := d.len + e.len }

/-- numpy_dataset.py L265-272: `n_episodes`; `self.last[-1]` raises on an empty dataset. -/
def nEpisodes (last : List Bool) : Except Err Nat :=
  match pyIdx last.length (-1) with
  | none => .error .index
  | some j =>
    match last[j]? with
    | none => .error .index
    | some l => .ok (last.count true + (if l then 0 else 1))

/-! The following functions of `Dataset` only use the logical content, so they are modelled on lists of rows. -/

/-- dataset.py L331-348: `episodes_length`. -/
def episodesLengthLoop : List Bool → Nat → List Nat
  | [], _ => []
  | last :: rest, l =>
    let l := l + 1
    if last then l :: episodesLengthLoop rest 0 else episodesLengthLoop rest l

def episodesLength (rows : List (Row X A R P)) : List Nat := episodesLengthLoop (rows.map (·.last)) 0

/-- dataset.py L437-451: `get_init_states`. -/
def initStatesLoop : List (Row X A R P) → Bool → List X
  | [], _ => []
  | step :: rest, pick =>
    if pick then step.state :: initStatesLoop rest step.last else initStatesLoop rest step.last

def getInitStates (rows : List (Row X A R P)) : List X := initStatesLoop rows true

/-- dataset.py L468-474: the loop of `compute_J`. `i == len(self) - 1` is "no rows after this one". -/
def computeJLoop [Semiring R] (gamma : R) : List (Row X A R P) → R → Nat → List R
  | [], _, _ => []
  | row :: rest, j, episodeSteps =>
    let j := j + gamma ^ episodeSteps * row.reward
    let episodeSteps := episodeSteps + 1
    if row.last || rest.isEmpty then j :: computeJLoop gamma rest 0 0
    else computeJLoop gamma rest j episodeSteps

/-- dataset.py L453-479: `compute_J`. -/
def computeJ [Semiring R] (gamma : R) (rows : List (Row X A R P)) : List R :=
  let js := computeJLoop gamma rows 0 0
  if js.length = 0 then [0] else js

/-- Positions of the true flags: `np.argwhere(flags).ravel()` (dataset.py L412). -/
def argwhere (flags : List Bool) : List Nat := (List.range flags.length).filter (fun i => flags.getD i false)

/-- dataset.py L399-413: `select_first_episodes`. -/
def selectFirstEpisodes (rows : List (Row X A R P)) (n : Int) : Except Err (List (Row X A R P)) :=
  if 0 < n then
    let lastIdxs := argwhere (rows.map (·.last))
    match pyIdx lastIdxs.length (n - 1) with
    | none => .error .index
    | some j => match lastIdxs[j]? with
      | none => .error .index
      | some i => .ok (pySlice rows none (some (i + 1)))
  else .error .assertion

/-- dataset.py L498-502: index computed by the backward search for the last end of episode. `i` is the number of
rows still to be examined. -/
def metricsCut (last : List Bool) : Nat → Nat
  | 0 => 0
  | i + 1 => if last.getD i false then i + 1 else (if i = 0 then 0 else metricsCut last i)

/-- numpy `min`, `max`, `mean` of a nonempty array; Python raises on an empty one, which cannot happen at L507-509. -/
def listMin [LinearOrder R] : R → List R → R
  | x, [] => x
  | x, y :: ys => listMin (min x y) ys

def listMax [LinearOrder R] : R → List R → R
  | x, [] => x
  | x, y :: ys => listMax (max x y) ys

/-- dataset.py L481-511: `compute_metrics` (without the median): min, max, mean and number of episodes. -/
def computeMetrics [Field R] [LinearOrder R] (gamma : R) (rows : List (Row X A R P)) : R × R × R × Nat :=
  let i := metricsCut (rows.map (·.last)) rows.length
  let dataset := pySlice rows none (some i)
  if dataset.length > 0 then
    match computeJ gamma dataset with
    | [] => (0, 0, 0, 0)   -- unreachable: `compute_J` never returns an empty array
    | j :: js => (listMin j js, listMax j js, (j :: js).sum / ((j :: js).length : R), (j :: js).length)
  else (0, 0, 0, 0)

/-! List back-end. -/

/-- A Python value used as a boolean flag: a `bool` or a `numpy.bool_` (both are truthy/falsy, but only a Python
`True` is identical to `True`). -/
inductive Flag where
  | py (b : Bool)
  | np (b : Bool)
deriving DecidableEq, Repr

def Flag.truthy : Flag → Bool
  | .py b => b
  | .np b => b

/-- `x is True`. -/
def Flag.isTrue : Flag → Bool
  | .py b => b
  | .np _ => false

/-- list_dataset.py L153-162 (`n_episodes`): counts `sample[5] is True`, plus one if the final one `is not True`. -/
def listNEpisodes (last : List Flag) : Except Err Nat :=
  match pyIdx last.length (-1) with
  | none => .error .index
  | some j =>
    match last[j]? with
    | none => .error .index
    | some l => .ok (last.countP (·.isTrue) + (if l.isTrue then 0 else 1))

/-- list_dataset.py L99-107 (`__add__`): `result._dataset` is `None` (L34), so `result._dataset[-1] = ...` raises
`TypeError`; before that `self._dataset[-1]` raises `IndexError` on an empty dataset. -/
def listAdd (d _e : List (Row X A R P)) : Except Err (List (Row X A R P)) :=
  if d.isEmpty then .error .index else .error .type

/-- collect_dataset.py L17-24: `CollectDataset.__call__` on the datasets of successive fits (numpy back-end); the
stored dataset is a deep copy of the first one and `+` afterwards. -/
def collect : Option (NpDs X A R P) → List (NpDs X A R P) → Except Err (Option (NpDs X A R P))
  | acc, [] => .ok acc
  | none, d :: ds => collect (some d) ds
  | some acc, d :: ds =>
    match acc.add d with
    | .error e => .error e
    | .ok acc' => collect (some acc') ds

end Verif.Dataset
