/-
Model of the feature implementations, /repo/mushroom_rl/features/_implementations, of the factory in features.py, of the Gaussian radial basis functions
in basis/gaussian_rbf.py and of the torch features in tensors/.

Real numbers stand for floats, lists for vectors and lists of rows for matrices. Inputs are matrices, one row for each sample: a vector is a matrix with one
row (`np.atleast_2d`). `none` is an exception. Devices are not modelled.
-/
import Verif.Features.Model
import Mathlib.Analysis.SpecialFunctions.Trigonometric.Basic
import Mathlib.Analysis.SpecialFunctions.Exp

namespace Verif.Features.Tensor

open Verif.Features

noncomputable section

/-- Arrays with zero, one and two axes. -/
inductive Arr where
  | scalar (v : ℝ)
  | flat (l : List ℝ)
  | rows (l : List (List ℝ))

/-! ### Common parts -/

/-- `_concatenate` of several arguments with the same number of rows. features_implementation.py L20-27. -/
def concatenate : List (List (List ℝ)) → Option (List (List ℝ))
  | [] => none
  | [x] => some x
  | x :: y :: args => (concatenate (y :: args)).bind (fun z => if x.length = z.length then some (List.zipWith (· ++ ·) x z) else none)

/-- `x[dim]` and `torch.index_select(x, 1, dim)` of one sample. gaussian_rbf.py L31-32; basis_tensor.py L39-40. -/
def select (dims : Option (List ℕ)) (x : List ℝ) : Option (List ℝ) :=
  match dims with
  | none => some x
  | some ds => ds.mapM (fun d => x[d]?)

/-! ### Gaussian radial basis functions and BasisFeatures -/

/-- The sum of squares divided by the scales. -/
def scaled (delta scale : List ℝ) : ℝ := (List.zipWith (fun d s => d ^ 2 / s) delta scale).sum

/-- `GaussianRBF.__call__`; vectors of different sizes raise an exception (the broadcasting of vectors with one entry is not modelled).
gaussian_rbf.py L30-34. -/
def rbf (dims : Option (List ℕ)) (scale mean x : List ℝ) : Option ℝ :=
  (select dims x).bind (fun x =>
    if x.length = mean.length ∧ x.length = scale.length then some (Real.exp (-scaled (List.zipWith (· - ·) x mean) scale)) else none)

/-- The centres of a grid over a box given by the number of centres, the lowest and the highest value of every dimension. utils/features.py L24-67. -/
def grid (cyclic : Bool) (box : List (ℕ × ℝ × ℝ)) : List (List ℝ) := uniformGrid (box.map (fun b => centers cyclic b.1 b.2.1 b.2.2))

/-- The widths of a grid. utils/features.py L24-44. -/
def widths (eta : ℝ) (cyclic : Bool) (box : List (ℕ × ℝ × ℝ)) : List ℝ := box.map (fun b => width eta cyclic b.1 b.2.1 b.2.2)

/-- `GaussianRBF.generate`. gaussian_rbf.py L59-74. -/
def rbfGenerate (eta : ℝ) (dims : Option (List ℕ)) (box : List (ℕ × ℝ × ℝ)) : List (List ℝ → Option ℝ) :=
  let b := (widths eta false box).map (fun w => 2 * (w / 3) ^ 2)
  (grid false box).map (fun v => rbf dims b v)

/-- `BasisFeatures.__call__`. basis_features.py L10-29. -/
def basisFeatures (basis : List (List ℝ → Option ℝ)) (x : List (List ℝ)) : Option Arr :=
  (x.mapM (fun s => basis.mapM (fun (bf : List ℝ → Option ℝ) => bf s))).map (fun y =>
    match y with
    | [row] => Arr.flat row
    | y => Arr.rows y)

/-! ### Torch features -/

/-- A tensor of features: `forward` and `size`. -/
structure Feature where
  forward : List (List ℝ) → Option Arr
  size : ℕ

/-- `_normalize`, for matrices. The sums are positive, so that `nan_to_num` changes nothing. basis_tensor.py L69-74. -/
def normalize (phi : List (List ℝ)) : List (List ℝ) := phi.map (fun row => row.map (fun v => v / row.sum))

/-- `phi.squeeze(-1)` of a matrix with the given number of columns. basis_tensor.py L47-50. -/
def squeezeLast (columns : ℕ) (phi : List (List ℝ)) : Arr :=
  if columns = 1 then .flat (phi.map (fun row => row.headD 0)) else .rows phi

/-- One row of `phi`. basis_tensor.py L39-45. -/
def basisRow (basis : List ℝ → List ℝ → ℝ) (mu : List (List ℝ)) (scale : List ℝ) (dims : Option (List ℕ)) (x : List ℝ) : Option (List ℝ) :=
  (select dims x).bind (fun x => mu.mapM (fun m =>
    if x.length = m.length ∧ x.length = scale.length then some (basis (List.zipWith (· - ·) x m) scale) else none))

/-- `GenericBasisTensor`. basis_tensor.py L38-50, L117-119. -/
def basisTensor (basis : List ℝ → List ℝ → ℝ) (mu : List (List ℝ)) (scale : List ℝ) (dims : Option (List ℕ)) (normalized : Bool) : Feature where
  forward x := (x.mapM (basisRow basis mu scale dims)).map (fun phi => squeezeLast mu.length (if normalized then normalize phi else phi))
  size := mu.length

/-- `GaussianRBFTensor._basis_function`. basis_tensor.py L123-124. -/
def gaussian (delta scale : List ℝ) : ℝ := Real.exp (-scaled delta scale)

/-- `VonMisesBFTensor._basis_function`. basis_tensor.py L132-133. -/
def vonMises (delta scale : List ℝ) : ℝ :=
  Real.exp ((List.zipWith (fun d s => Real.cos (2 * Real.pi * d) / s) delta scale).sum - (scale.map (fun s => 1 / s)).sum)

/-- `GaussianRBFTensor.generate`. basis_tensor.py L86-115, L126-128. -/
def gaussianGenerate (eta : ℝ) (dims : Option (List ℕ)) (normalized : Bool) (box : List (ℕ × ℝ × ℝ)) : List Feature :=
  [basisTensor gaussian (grid false box) ((widths eta false box).map (fun w => 2 * (w / 3) ^ 2)) dims normalized]

/-- `VonMisesBFTensor.generate`. basis_tensor.py L86-115, L135-141. -/
def vonMisesGenerate (eta : ℝ) (dims : Option (List ℕ)) (normalized : Bool) (box : List (ℕ × ℝ × ℝ)) : List Feature :=
  [basisTensor vonMises (grid true box) (widths eta true box) dims normalized]

/-- `ConstantTensor`. constant_tensor.py L13-18. -/
def constantTensor : Feature := ⟨fun x => some (.rows (x.map (fun _ => [1]))), 1⟩

/-- One row of `RandomFourierBasis.forward`; the columns of `P` are lists. random_fourier_tensor.py L44-45. -/
def fourierRow (P : List (List ℝ)) (phi : List ℝ) (nu : ℝ) (x : List ℝ) : List ℝ :=
  List.zipWith (fun p b => Real.sin ((List.zipWith (· * ·) x p).sum / nu + b)) P phi

/-- `RandomFourierBasis`. random_fourier_tensor.py L44-45, L78-80. -/
def fourierTensor (P : List (List ℝ)) (phi : List ℝ) (nu : ℝ) : Feature where
  forward x := if x.all (fun x => P.all (fun p => x.length == p.length)) then some (.rows (x.map (fourierRow P phi nu))) else none
  size := phi.length

/-- `RandomFourierBasis.generate`; `draw n` is what numpy draws for `n` features. random_fourier_tensor.py L64-76. -/
def fourierGenerate (nu : ℝ) (nOutput : ℕ) (useBias : Bool) (draw : ℕ → List (List ℝ) × List ℝ) : Option (List Feature) :=
  if useBias then
    if nOutput = 0 then none else some [fourierTensor (draw (nOutput - 1)).1 (draw (nOutput - 1)).2 nu, constantTensor]
  else some [fourierTensor (draw nOutput).1 (draw nOutput).2 nu]

/-- What `torch.cat` accepts along the second axis. torch_features.py L18. -/
def asRows : Arr → Option (List (List ℝ))
  | .rows l => some l
  | _ => none

/-- `torch.cat(y_list, 1)` of matrices. torch_features.py L18. -/
def cat : List (List (List ℝ)) → Option (List (List ℝ))
  | [] => none
  | [y] => some y
  | y :: z :: ys => (cat (z :: ys)).bind (fun r => if y.length = r.length then some (List.zipWith (· ++ ·) y r) else none)

/-- `squeeze()` of a matrix. torch_features.py L18. -/
def squeezeAll : List (List ℝ) → Arr
  | [row] => if row.length = 1 then .scalar (row.headD 0) else .flat row
  | l => if (l.headD []).length = 1 then .flat (l.map (fun row => row.headD 0)) else .rows l

/-- The last lines of the call: `y.shape[0]` of an array without axes raises an exception. torch_features.py L20-25. -/
def finish : Arr → Option Arr
  | .scalar _ => none
  | .flat l => some (if l.length = 1 then .scalar (l.headD 0) else .flat l)
  | .rows l => some (if l.length = 1 then .flat (l.headD []) else .rows l)

/-- `TorchFeatures.__call__`. torch_features.py L12-25. -/
def torchFeatures (phi : List Feature) (x : List (List ℝ)) : Option Arr :=
  ((phi.mapM (fun (p : Feature) => (p.forward x).bind asRows)).bind cat).bind (fun y => finish (squeezeAll y))

/-- `TorchFeatures.size`. torch_features.py L27-29. -/
def torchSize (phi : List Feature) : ℕ := (phi.map Feature.size).sum

/-! ### The factory -/

/-- The kinds of features. -/
inductive Kind (B T P F : Type) where
  | basis (b : B)
  | tiles (t : T)
  | torch (p : P)
  | functional (n : ℕ) (f : Option F)

/-- `Features`. features.py L43-54. -/
def features {B T P F : Type} (basis : Option B) (tilings : Option T) (tensors : Option P) (nOutputs : Option ℕ) (function : Option F) :
    Option (Kind B T P F) :=
  match basis, tilings, tensors, nOutputs with
  | some b, none, none, none => some (.basis b)
  | none, some t, none, none => some (.tiles t)
  | none, none, some p, none => some (.torch p)
  | none, none, none, some n => some (.functional n function)
  | _, _, _, _ => none

/-- `FunctionalFeatures.__call__`, with the default of the constructor. functional_features.py L5-15. -/
def functionalCall {X : Type} (function : Option (X → X)) (x : X) : X := (function.getD id) x

end

end Verif.Features.Tensor
