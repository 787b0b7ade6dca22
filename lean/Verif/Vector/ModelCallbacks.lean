/-
Model of the callbacks of `VectorCore`: the loop of Model.lean with the calls of `callback_step` and `callbacks_fit`.

Files: mushroom_rl/core/vectorized_core.py (L18-45, L101-140), mushroom_rl/utils/callbacks/collect_dataset.py,
mushroom_rl/core/dataset.py (`__add__`), mushroom_rl/core/_impl/numpy_dataset.py (`__add__`).

A callback is an arbitrary function on the world, which may include memory of its own. Simplification: a callback may
call `flatten` on the dataset it receives (which is already closed when the callback gets it), but does not change it
in another way.
-/
import Verif.Vector.Model
import Verif.Dataset.Spec

namespace Verif.Vector.Callbacks

open Verif.Dataset (Row closeEnd)

variable {W O X A R P T : Type}

/-- vectorized_core.py L18-45: the callbacks handed to the constructor. `step` receives the samples of all the
environments, a fit callback the whole vectorized dataset: rows, masks and parameters. -/
structure Callbacks (V X A R P T : Type) where
  step : V → (Nat → Row X A R P) → V
  fit : List (V → List (Nat → Row X A R P) → List (Nat → Bool) → (Nat → List T) → V)

/-- vectorized_core.py L114-121: `_step`, the step callback, `after_step` and `append_vectorized`. -/
def stepPart (sys : Sys W X A R P T) (cb : Callbacks W X A R P T) (c : Cfg) (cap : Nat) (s : St W X A R P T) :
    Except Err (St W X A R P T) :=
  let (w, act, ps') := sys.draw s.w s.state s.policyState
  let (w, xs, rs, ab) := stepAll sys s.mask act c.n w s.envState
  let steps := fun i => if s.mask i then s.episodeSteps i + 1 else s.episodeSteps i
  let last := fun i => ab i || (match c.horizon with
    | some h => decide (h ≤ steps i)
    | none => false)
  let row := fun i => { state := s.state i, action := act i, reward := rs i, nextState := xs i, absorbing := ab i,
                        last := last i, policyState := s.policyState i, policyNextState := ps' i : Row X A R P }
  let w := cb.step w row
  let s := { s with w := w, state := xs, envState := xs, policyState := ps', episodeSteps := steps }
  let s := afterStep c s.running (fun i => last i && s.mask i) s
  if s.data.length < cap then
    if c.n = 1 then .error .type
    else .ok { s with data := s.data ++ [row], masks := s.masks ++ [s.mask], last := last
                      log := s.log ++ [(s.mask, row, s.fits.length)] }
  else .error .index

/-- vectorized_core.py L128-129: `for c in self.callbacks_fit: c(dataset)`. -/
def callFits (fs : List (W → List (Nat → Row X A R P) → List (Nat → Bool) → (Nat → List T) → W)) (w : W)
    (data : List (Nat → Row X A R P)) (masks : List (Nat → Bool)) (thetas : Nat → List T) : W :=
  fs.foldl (fun w f => f w data masks thetas) w

/-- vectorized_core.py L123-131: the fit, then every fit callback, then `clear`. -/
def fitPart (sys : Sys W X A R P T) (cb : Callbacks W X A R P T) (c : Cfg) (cap : Nat) (s : St W X A R P T) :
    St W X A R P T :=
  if fitRequired c s then
    let (flat, data) := flatten c.n c.perFitSteps s.data s.masks s.thetas
    let batch := flat.getD ([], [])
    let s := { s with w := sys.fit s.w batch.1 batch.2, fits := s.fits ++ [batch], data := data }
    let s := afterFit c s
    let s := { s with w := callFits cb.fit s.w s.data s.masks s.thetas }
    let (data, masks) := clear c.n cap (sys.garbage s.fits.length) c.perFitSteps s.data s.masks
    { s with data := data, masks := masks, thetas := fun _ => [] }
  else s

/-- One iteration of the loop (vectorized_core.py L107-131). -/
def iter (sys : Sys W X A R P T) (cb : Callbacks W X A R P T) (c : Cfg) (cap : Nat) (s : St W X A R P T) :
    Except Err (St W X A R P T) :=
  match resetPart sys c s with
  | .error e => .error e
  | .ok s => match stepPart sys cb c cap s with
    | .error e => .error e
    | .ok s => .ok (fitPart sys cb c cap s)

/-- vectorized_core.py L107: the loop, for at most `fuel` iterations; the flag tells whether it has stopped. -/
def loop (sys : Sys W X A R P T) (cb : Callbacks W X A R P T) (c : Cfg) (cap : Nat) :
    Nat → St W X A R P T → Except Err (Bool × St W X A R P T)
  | 0, s => .ok (!moveRequired c s, s)
  | fuel + 1, s =>
    if moveRequired c s then
      match iter sys cb c cap s with
      | .error e => .error e
      | .ok s => loop sys cb c cap fuel s
    else .ok (true, s)

/-! ### CollectDataset -/

/-- numpy_dataset.py `__add__`: `result._last[len(self) - 1] = True` (the index is -1 if the left operand is empty). -/
def joinRows (a b : List (Row X A R Unit)) : List (Row X A R Unit) :=
  match a with
  | [] => closeEnd b
  | _ => closeEnd a ++ b

/-- collect_dataset.py L17-24: `CollectDataset.__call__` for a vectorized dataset: `dataset.flatten()` without a number
of steps, then a copy or `self._dataset += dataset`. The memory is the rows and the parameters collected, `none` before
the first call. (`flatten` gives `None` only for an empty dataset, which the core never hands over.) -/
def collect (n : Nat) (mem : Option (List (Row X A R Unit) × List T)) (data : List (Nat → Row X A R P))
    (masks : List (Nat → Bool)) (thetas : Nat → List T) : Option (List (Row X A R Unit) × List T) :=
  match (flatten n none data masks thetas).1 with
  | none => mem
  | some (rows, th) => match mem with
    | none => some (rows, th)
    | some (rows', th') => some (joinRows rows' rows, th' ++ th)

end Verif.Vector.Callbacks
