/-
Model of /repo/mushroom_rl/approximators (linear approximator, action-indexed regressor, regressor with one output per
action, tile-coding approximator, ensembles) and of the weights functions of utils/torch.py. Floating point numbers are real
numbers; a torch parameter is represented by its flattened data.
-/
import Verif.Features.Spec
import Mathlib.LinearAlgebra.Matrix.Defs
import Mathlib.Data.Matrix.Mul

namespace Verif.Approx

open Verif.Features

noncomputable section

/-! ### parametric/linear.py -/

/-- The weights matrix of a linear approximator: `rows` outputs times `cols` features. linear.py L27-38. -/
structure Linear where
  rows : ℕ
  cols : ℕ
  w : List (List ℝ)

/-- `w.reshape((rows, cols))`: ValueError (`none`) if the size is different. -/
def reshape (rows cols : ℕ) (w : List ℝ) : Option (List (List ℝ)) :=
  if w.length = rows * cols then some ((List.range rows).map (fun i => (w.drop (i * cols)).take cols)) else none

/-- `LinearApproximator.get_weights`. linear.py L85-93. -/
def Linear.getWeights (l : Linear) : List ℝ := l.w.flatten

/-- `LinearApproximator.weights_size`. linear.py L76-83. -/
def Linear.size (l : Linear) : ℕ := (l.w.map List.length).sum

/-- `LinearApproximator.set_weights`. linear.py L95-103. -/
def Linear.setWeights (l : Linear) (w : List ℝ) : Option Linear := (reshape l.rows l.cols w).map (fun w => { l with w })

/-- One row of `LinearApproximator.predict`, for the features of one input. linear.py L70-74. -/
def Linear.predict (l : Linear) (phi : List ℝ) : List ℝ := l.w.map (fun row => dot phi row)

/-- `LinearApproximator.diff` without action: the columns of the derivative, one for each output. With a single output the
code returns the features themselves. linear.py L124-137, L145. -/
def Linear.diff (l : Linear) (phi : List ℝ) : List (List ℝ) :=
  if l.rows = 1 then [phi]
  else (List.range l.rows).map (fun i =>
    List.replicate (i * l.cols) 0 ++ phi ++ List.replicate ((l.rows - i - 1) * l.cols) 0)

/-- `LinearApproximator.diff` with an action, for more than one output. linear.py L138-145. -/
def Linear.diffAction (l : Linear) (phi : List ℝ) (action : ℕ) : List ℝ :=
  List.replicate (action * l.cols) 0 ++ phi ++ List.replicate ((l.rows - action - 1) * l.cols) 0

/-- `LinearApproximator.fit`: the new weights from a pseudo-inverse of the feature matrix. linear.py L53-54. -/
def linearFit {n d o : ℕ} (pinv : Matrix (Fin d) (Fin n) ℝ) (y : Matrix (Fin n) (Fin o) ℝ) : Matrix (Fin o) (Fin d) ℝ :=
  (pinv * y).transpose

/-! ### _implementations/action_regressor.py, with linear models -/

/-- `ActionRegressor.get_weights`. action_regressor.py L106-111. -/
def actionGet (ms : List Linear) : List ℝ := (ms.map Linear.getWeights).flatten

/-- `ActionRegressor.weights_size`. action_regressor.py L102-104. -/
def actionSize (ms : List Linear) : ℕ := (ms.head?.map Linear.size).getD 0 * ms.length

/-- The loop of `ActionRegressor.set_weights` from model number `i` on. action_regressor.py L113-118. -/
def actionSetLoop (size : ℕ) (w : List ℝ) : ℕ → List Linear → Option (List Linear)
  | _, [] => some []
  | i, m :: ms => do
      let m' ← m.setWeights ((w.drop (i * size)).take size)
      let ms' ← actionSetLoop size w (i + 1) ms
      pure (m' :: ms')

/-- `ActionRegressor.set_weights`. action_regressor.py L113-118. -/
def actionSet (ms : List Linear) (w : List ℝ) : Option (List Linear) :=
  actionSetLoop ((ms.head?.map Linear.size).getD 0) w 0 ms

/-- `ActionRegressor.diff` for a given action. action_regressor.py L127-133. -/
def actionDiff (sizes : List ℕ) (diffs : List (List ℝ)) (a : ℕ) : List ℝ :=
  let s := sizes.getD a 0
  List.replicate (s * a) 0 ++ diffs.getD a [] ++ List.replicate (s * (sizes.length - a - 1)) 0

/-- `ActionRegressor.predict(state)` for one row: one value for every action. The models are functions of one row.
action_regressor.py L83-88. -/
def actionPredictAll {S : Type} (models : List (S → ℝ)) (state : S) : List ℝ := models.map (fun m => m state)

/-- `q[idxs] = values`, the loop over the rows: row `k` is written if its action is `i`. -/
def writeRows {S : Type} (model : S → ℝ) (i : ℕ) (batch : List (S × ℕ)) (q : List ℝ) : List ℝ :=
  List.zipWith (fun (sa : S × ℕ) v => if sa.2 = i then model sa.1 else v) batch q

/-- `ActionRegressor.predict(state, action)` for a batch. action_regressor.py L74-81. -/
def actionPredict {S : Type} (models : List (S → ℝ)) (batch : List (S × ℕ)) : List ℝ :=
  (models.zipIdx).foldl (fun q mi => writeRows mi.1 mi.2 batch q) (List.replicate batch.length 0)

/-- `ActionRegressor.fit`: every model is fitted with the rows of its action, if there are any. action_regressor.py L50-54. -/
def actionFit {M S : Type} (fit : M → List (S × ℝ) → M) (models : List M) (batch : List (S × ℕ × ℝ)) : List M :=
  models.mapIdx (fun i m =>
    let rows := (batch.filter (fun r => decide (r.2.1 = i))).map (fun r => (r.1, r.2.2))
    if rows.isEmpty then m else fit m rows)

/-! ### _implementations/q_regressor.py -/

/-- `QRegressor.predict(state, action)` for a batch of predictions of the model: `q[arange, action]`; IndexError (`none`) if
an action is out of range. q_regressor.py L60-68. -/
def qPredict {S : Type} (model : S → List ℝ) (batch : List (S × ℕ)) : Option (List ℝ) :=
  batch.mapM (fun sa => (model sa.1)[sa.2]?)

/-! ### parametric/cmac.py, one output -/

/-- `CMAC.predict` of one input: the sum of the weights of the active tiles. cmac.py L69-78. -/
def cmacPredict {X : Type} (ts : List (Tiling X)) (w : List ℝ) (x : X) : ℝ :=
  ((computeIndexes ts x).map (fun j => w.getD j 0)).sum

/-- Number of active features of an input, `n = np.sum(phi, axis=1)`. cmac.py L50. -/
def active {X : Type} (ts : List (Tiling X)) (x : X) : ℝ := (tilesFeatures ts x).sum

/-- `CMAC.fit`: the new weights; `none` if some input is covered by no tiling, in which case the division by zero makes every
weight NaN. cmac.py L43-55. -/
def cmacFit {X : Type} (ts : List (Tiling X)) (w : List ℝ) (data : List (X × ℝ)) (alpha : ℝ) : Option (List ℝ) :=
  open Classical in
  if ∃ d ∈ data, active ts d.1 = 0 then none else
  some (w.mapIdx (fun j wj =>
    let sumPhi := (data.map (fun d => (tilesFeatures ts d.1).getD j 0)).sum
    let sumPhi := if sumPhi = 0 then 1 else sumPhi
    wj + alpha * ((data.map (fun d =>
      (d.2 - cmacPredict ts w d.1) * ((tilesFeatures ts d.1).getD j 0 / active ts d.1))).sum / sumPhi)))

/-- `CMAC.diff`: the features of the input are passed to the method of the superclass, which computes the features again.
cmac.py L80-94. -/
def cmacDiff (ts : List (Tiling (List ℝ))) (x : List ℝ) : List ℝ :=
  let phi := tilesFeatures ts x
  tilesFeatures ts phi

/-! ### ensemble.py -/

inductive Prediction where
  | mean | sum | min | max

/-- The combination of the predictions of the models, not empty. ensemble.py L93-116. -/
def combinePredictions (p : Prediction) (v : ℝ) (vs : List ℝ) : ℝ :=
  match p with
  | .mean => (v :: vs).sum / (v :: vs).length
  | .sum => (v :: vs).sum
  | .min => vs.foldl min v
  | .max => vs.foldl max v

/-- `Ensemble.fit`. ensemble.py L49-53. -/
def ensembleFit {M : Type} (fit : M → M) (models : List M) (idx : Option ℕ) : List M :=
  match idx with
  | none => models.map fit
  | some i => models.mapIdx (fun j m => if j = i then fit m else m)

/-! ### utils/torch.py -/

/-- `TorchUtils.get_weights`. torch.py L46-67. -/
def torchGet (ps : List (List ℝ)) : List ℝ := ps.flatten

/-- `TorchUtils.set_weights`: the parameters after the call and whether it ended without error. The reshape of a slice that is
too short raises an error, and the parameters before it are already changed. torch.py L16-42. -/
def torchSet : List (List ℝ) → List ℝ → ℕ → List (List ℝ) × Bool
  | [], _, _ => ([], true)
  | p :: ps, w, idx =>
      let c := p.length
      let slice := (w.drop idx).take c
      if slice.length = c then
        let r := torchSet ps w (idx + c)
        (slice :: r.1, r.2)
      else (p :: ps, false)

/-! ### Arrays shared with the caller. `reshape` of a contiguous array is a view of it. -/

/-- The contents of all arrays, and the array that holds the weights of the approximator. -/
structure Shared where
  arrays : ℕ → List ℝ
  weights : ℕ

/-- `set_weights(w)` for an array of the right size: the approximator keeps a view of the array. linear.py L103. -/
def Shared.setWeights (s : Shared) (w : ℕ) : Shared := { s with weights := w }

/-- `get_weights()`: a copy. linear.py L93. -/
def Shared.getWeights (s : Shared) : List ℝ := s.arrays s.weights

/-- The caller writes into one of its arrays: `w[k] = v`. -/
def Shared.write (s : Shared) (a k : ℕ) (v : ℝ) : Shared :=
  { s with arrays := fun b => if b = a then (s.arrays a).set k v else s.arrays b }

end

end Verif.Approx
