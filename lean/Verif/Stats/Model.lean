/-
Model of /repo/mushroom_rl/rl_utils/running_stats.py, rl_utils/preprocessors.py and rl_utils/optimizers.py.
Floating point numbers are real numbers. Arrays are functions on the index type of their components. Where the code
writes into an array that it received, the model also returns the content of that array after the call.
-/
import Mathlib.Analysis.Real.Sqrt
import Mathlib.Algebra.BigOperators.Fin

namespace Verif.Stats

noncomputable section

/-! ### running_stats.py -/

/-- One component of a `RunningStandardization`. running_stats.py L30-32. -/
structure RunStd where
  n : ℕ
  m : ℝ
  s : ℝ

/-- Initial and reset statistics of a component. running_stats.py L30-32, L48-50. -/
def RunStd.init : RunStd := ⟨1, 0, 1⟩

/-- `value.mean(0)` of one component of a batch. -/
def mean (xs : List ℝ) : ℝ := xs.sum / xs.length

/-- `update_stats` for one component of a batch of vectors. `alpha` is the minimum learning rate. running_stats.py L52-66.
Batches are not empty (`mean` of an empty array is not a number). Observations with two dimensions, whose first
dimension the code takes for a batch, are in ModelGrid.lean. -/
def RunStd.update (alpha : ℝ) (g : RunStd) (xs : List ℝ) : RunStd :=
  let n := g.n + xs.length
  let a := max ((xs.length : ℝ) / n) alpha
  let newM := (1 - a) * g.m + a * mean xs
  let newS := g.s + (mean xs - g.m) * (mean xs - newM)
  ⟨n, newM, newS⟩

/-- `std`. running_stats.py L78-84. -/
def RunStd.std (g : RunStd) : ℝ := √(g.s / g.n)

/-- `RunningExpWeightedAverage.update_stats` of one component. running_stats.py L129-140. -/
def expUpdate (alpha avg : ℝ) (xs : List ℝ) : ℝ := xs.foldl (fun avg x => (1 - alpha) * avg + alpha * x) avg

/-- `deque.append` with `maxlen`. -/
def pushBounded {X : Type} (w : ℕ) (buf : List X) (x : X) : List X :=
  let b := buf ++ [x]
  b.drop (b.length - w)

/-- `RunningAveragedWindow.update_stats`. running_stats.py L195-206. -/
def windowUpdate {X : Type} (w : ℕ) (buf xs : List X) : List X := xs.foldl (pushBounded w) buf

/-- `RunningAveragedWindow.reset`: a `deque` with `maxlen` that holds the initial value. running_stats.py L181-193. -/
def windowReset {X : Type} (w : ℕ) (x : X) : List X := pushBounded w [] x

/-! ### preprocessors.py -/

/-- `clip`. -/
def clip (x lo hi : ℝ) : ℝ := min (max x lo) hi

/-- `StandardizationPreprocessor.__call__` for one component. preprocessors.py L70-77. -/
def standardize (c : ℝ) (g : RunStd) (x : ℝ) : ℝ := clip ((x - g.m) / g.std) (-c) c

/-- The attributes of a `MinMaxPreprocessor` on observations with `d` components. `masked` marks the components in
`_obs_mask`. preprocessors.py L90-128. -/
structure MinMax (d : ℕ) where
  masked : Fin d → Bool
  runNorm : Bool
  obsMean : Fin d → ℝ
  obsDelta : Fin d → ℝ

/-- Component `i` counts as bounded. preprocessors.py L107-108. -/
def isBounded (low high : ℝ) : Bool := decide (|low| < 10 ^ 20) && decide (|high| < 10 ^ 20)

/-- The constructor of `MinMaxPreprocessor`. The sum in the assertion is the sum of the indices in `_obs_mask`, which is an
array of indices. `len(squeeze(mask))` fails if the mask has exactly one entry, because `squeeze` then gives an array
without dimensions. Both failures are `none`. preprocessors.py L90-128. -/
def MinMax.make {d : ℕ} (low high : Fin d → ℝ) : Option (MinMax d) :=
  let masked : Fin d → Bool := fun i => isBounded (low i) (high i)
  let mask : List (Fin d) := (List.finRange d).filter (fun i => masked i)
  if (mask.map Fin.val).sum > 0 ∧ mask.length ≠ 1 then
    some ⟨masked, decide (mask.length ≠ d),
      fun i => if masked i then (high i + low i) / 2 else 0,
      fun i => if masked i then (high i - low i) / 2 else 1⟩
  else none

/-- `MinMaxPreprocessor.__call__`: the content of the array passed by the caller after the call, and the returned
observation. When `run_norm_obs` is false the code writes into the array of the caller and returns it.
preprocessors.py L130-139. -/
def MinMax.call {d : ℕ} (p : MinMax d) (c : ℝ) (g : Fin d → RunStd) (obs : Fin d → ℝ) : (Fin d → ℝ) × (Fin d → ℝ) :=
  let origObs := obs
  let obs' := if p.runNorm then fun i => standardize c (g i) (obs i) else obs
  let out := fun i => if p.masked i then (origObs i - p.obsMean i) / p.obsDelta i else obs' i
  if p.runNorm then (obs, out) else (out, out)

/-! ### optimizers.py -/

/-- `grads *= -1` on the array of the caller. optimizers.py L77-78, L116-117, L154-155. -/
def flip {I : Type} (maximize : Bool) (g : I → ℝ) : I → ℝ := if maximize then g else fun i => g i * -1

/-- `SGDOptimizer.__call__`: the gradient array after the call and the new parameters. `lr` is the value of the learning
rate. optimizers.py L115-118. -/
def sgd {I : Type} (maximize : Bool) (lr : ℝ) (params grads : I → ℝ) : (I → ℝ) × (I → ℝ) :=
  let grads := flip maximize grads
  (grads, fun i => params i + lr * grads i)

/-- `gradient.dot(nat_gradient)`. -/
def dot {I : Type} [Fintype I] (a b : I → ℝ) : ℝ := ∑ i, a i * b i

/-- `AdaptiveOptimizer.get_value` with gradient and natural gradient. optimizers.py L81-91. -/
def stepLength {I : Type} [Fintype I] (eps : ℝ) (g nat : I → ℝ) : ℝ :=
  let lam := √(dot g nat / (4 * eps))
  let lam := max lam (1e-8)
  1 / (2 * lam)

/-- `AdaptiveOptimizer.__call__` with gradient and natural gradient: the natural gradient array after the call and the new
parameters. optimizers.py L70-79. -/
def adaptive {I : Type} [Fintype I] (maximize : Bool) (eps : ℝ) (params g nat : I → ℝ) : (I → ℝ) × (I → ℝ) :=
  let lr := stepLength eps g nat
  let grads := flip maximize nat
  (grads, fun i => params i + lr * grads i)

/-- `AdaptiveOptimizer.__call__` with the gradient only. optimizers.py L70-79, L92-93. -/
def adaptive1 {I : Type} [Fintype I] (maximize : Bool) (eps : ℝ) (params g : I → ℝ) : (I → ℝ) × (I → ℝ) :=
  adaptive maximize eps params g g

/-- Attributes of an `AdamOptimizer`; the arrays start at zero at the first call. optimizers.py L140-145, L157-160. -/
structure Adam (I : Type) where
  m : I → ℝ
  v : I → ℝ
  t : ℕ

def Adam.init {I : Type} : Adam I := ⟨fun _ => 0, fun _ => 0, 0⟩

/-- `AdamOptimizer.__call__`: the optimizer, the gradient array after the call, and the new parameters.
optimizers.py L153-171. -/
def Adam.call {I : Type} (maximize : Bool) (lr β1 β2 eps : ℝ) (o : Adam I) (params grads : I → ℝ) :
    Adam I × (I → ℝ) × (I → ℝ) :=
  let grads := flip maximize grads
  let t := o.t + 1
  let m := fun i => β1 * o.m i + (1 - β1) * grads i
  let v := fun i => β2 * o.v i + (1 - β2) * grads i ^ 2
  let mHat := fun i => m i / (1 - β1 ^ t)
  let vHat := fun i => v i / (1 - β2 ^ t)
  (⟨m, v, t⟩, grads, fun i => params i + lr * mHat i / (√(vHat i) + eps))

end

end Verif.Stats
