/-
Model of /repo/mushroom_rl/utils/angles.py, utils/minibatches.py and utils/numerical_gradient.py.
Floating point numbers are real numbers.
-/
import Mathlib.Analysis.Real.Pi.Bounds
import Mathlib.Algebra.Order.Floor.Ring

namespace Verif.Utils

noncomputable section

open Real

/-! ### angles.py -/

/-- `math.trunc`: rounding towards zero. -/
def trunc (x : ℝ) : ℤ := if 0 ≤ x then ⌊x⌋ else ⌈x⌉

/-- `math.fmod`: the remainder with the sign of the dividend. -/
def fmod (x y : ℝ) : ℝ := x - trunc (x / y) * y

/-- `normalize_angle_positive`. angles.py L40-53. -/
def normalizeAnglePositive (angle : ℝ) : ℝ := fmod (fmod angle (2 * π) + 2 * π) (2 * π)

/-- `normalize_angle`. angles.py L56-71. -/
def normalizeAngle (angle : ℝ) : ℝ :=
  let a := normalizeAnglePositive angle
  if a > π then a - 2 * π else a

/-- `shortest_angular_distance`. angles.py L74-86. -/
def shortestAngularDistance (fromAngle toAngle : ℝ) : ℝ := normalizeAngle (toAngle - fromAngle)

/-! ### minibatches.py -/

/-- `minibatch_number`. minibatches.py L4-16. -/
def minibatchNumber (size batchSize : ℕ) : ℕ := ⌈(size : ℝ) / batchSize⌉₊

/-- The index lists of the batches, `indexes[batch_start:batch_end]`; `indexes` is the shuffled index array.
minibatches.py L31-42. -/
def batchIndexes (size batchSize : ℕ) (indexes : List ℕ) : List (List ℕ) :=
  (List.range (minibatchNumber size batchSize)).map (fun i =>
    (indexes.take (min size ((i + 1) * batchSize))).drop (i * batchSize))

/-- `minibatch_generator`: the batches of one pass. Each batch is a list with one selected part for every array of the
dataset. minibatches.py L19-42. -/
def minibatchGenerator {X : Type} [Inhabited X] (batchSize : ℕ) (dataset : List (List X)) (indexes : List ℕ) :
    List (List (List X)) :=
  (batchIndexes (dataset.headD []).length batchSize indexes).map (fun idx =>
    dataset.map (fun column => idx.map (fun j => column.getD j default)))

/-! ### numerical_gradient.py -/

/-- `params + perturb` with `perturb[i] = eps`. -/
def perturb {n : ℕ} (w : Fin n → ℝ) (i : Fin n) (eps : ℝ) : Fin n → ℝ := fun j => w j + if j = i then eps else 0

/-- `numerical_diff_function`. numerical_gradient.py L73-100. -/
def numericalDiffFunction {n : ℕ} (f : (Fin n → ℝ) → ℝ) (params : Fin n → ℝ) (eps : ℝ) (i : Fin n) : ℝ :=
  (f (perturb params i eps) - f (perturb params i (-eps))) / (2 * eps)

/-- A policy as `numerical_diff_policy` sees it: weights that can be read and written, and a value for a given state and
action. -/
structure Pol (P : Type) (n : ℕ) where
  get : P → Fin n → ℝ
  set : P → (Fin n → ℝ) → P
  value : P → ℝ

/-- `numerical_diff_policy`: the policy after the call and the gradient. The loop state is the policy and the array `g`.
numerical_gradient.py L4-36. `numerical_diff_dist` (L39-70) is the same code with `set_parameters`. -/
def numericalDiffPolicy {P : Type} {n : ℕ} (pol : Pol P n) (p : P) (eps : ℝ) : P × (Fin n → ℝ) :=
  let wStart := pol.get p
  let r := (List.finRange n).foldl (fun (st : P × (Fin n → ℝ)) i =>
    let p := pol.set st.1 (perturb wStart i (-eps))
    let v1 := pol.value p
    let p := pol.set p (perturb wStart i eps)
    let v2 := pol.value p
    (p, fun j => if j = i then (v2 - v1) / (2 * eps) else st.2 j)) (p, fun _ => 0)
  (pol.set r.1 wStart, r.2)

end

end Verif.Utils
