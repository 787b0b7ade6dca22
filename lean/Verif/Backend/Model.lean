/-
Model of /repo/mushroom_rl/core/array_backend.py and of the methods of a dataset that depend on it. An array is its shape and its entries in row-major
order, or, for the functions that move entries around, its shape and a function from indices. The types of the entries and the devices of torch are left
out: numbers are real numbers, and a conversion copies nothing and changes nothing but the kind of the array.
-/
import Verif.Approx.ModelRegressor
import Verif.Dataset.Model
import Mathlib.Data.List.Sort
import Mathlib.Data.Real.Basic

namespace Verif.Backend

open Verif.Approx.Reg (Arr stack)
open Verif.Dataset (Row)

noncomputable section

/-- The exceptions that matter here. -/
inductive Err where
  | value | type | attribute | assertion | notImplemented
  deriving DecidableEq

/-- The three backends. -/
inductive Backend where
  | numpy | torch | list
  deriving DecidableEq

/-- `get_backend_name`. array_backend.py L173-175, L302-304, L437-439. -/
def Backend.name : Backend → String
  | .numpy => "numpy"
  | .torch => "torch"
  | .list => "list"

/-- `ArrayBackend.get_array_backend` for a string. array_backend.py L14-24. -/
def getArrayBackend (name : String) : Except Err Backend :=
  if name = "numpy" then .ok .numpy
  else if name = "torch" then .ok .torch
  else if name = "list" then .ok .list
  else .error .value

/-- The values that are converted: an array of numpy, a tensor, a list or deque of arrays or numbers (numbers are arrays without dimensions), `None`,
another object, and the class `NotImplementedError` itself. The elements of a list that is turned into a tensor are tensors or numbers; lists of arrays of
numpy, which torch would stack, are not turned into tensors here. -/
inductive Val where
  | np (a : Arr ℝ)
  | tensor (a : Arr ℝ)
  | items (xs : List (Arr ℝ))
  | none
  | other
  | errorClass

/-- `ArrayBackend.get_array_backend_from`. array_backend.py L26-35. -/
def backendOf : Val → Except Err Backend
  | .np _ => .ok .numpy
  | .tensor _ => .ok .torch
  | .items _ => .ok .list
  | _ => .error .value

/-- `np.array(list)`: the arrays are stacked; arrays of different shapes raise ValueError. -/
def npArray (xs : List (Arr ℝ)) : Except Err (Arr ℝ) :=
  match xs with
  | [] => .ok ⟨[0], []⟩
  | x :: rest => if ∀ y ∈ rest, y.shape = x.shape then .ok (stack x.shape ((x :: rest).map (·.data))) else .error .value

/-- `torch.tensor(list)`, `torch.as_tensor(list)`: every element, a tensor or a number, is turned into a number, which raises ValueError for a tensor with several
entries. -/
def torchTensor (xs : List (Arr ℝ)) : Except Err (Arr ℝ) :=
  if ∀ x ∈ xs, x.data.length = 1 then .ok ⟨[xs.length], (xs.map (·.data)).flatten⟩ else .error .value

/-- `to_numpy`. array_backend.py L177-179, L306-308, L441-443; `np.array(None)` is an array of objects. A method of the wrong kind of array is an
AttributeError. -/
def toNumpy (b : Backend) (v : Val) : Except Err Val :=
  match b, v with
  | .numpy, v => .ok v
  | .torch, .none => .ok .none
  | .torch, .tensor a => .ok (.np a)
  | .torch, _ => .error .attribute
  | .list, .items xs => (npArray xs).map .np
  | .list, .np a => .ok (.np a)
  | .list, .tensor a => .ok (.np a)
  | .list, _ => .ok .other

/-- `to_torch`. array_backend.py L181-183, L310-312, L445-447. -/
def toTorch (b : Backend) (v : Val) : Except Err Val :=
  match b, v with
  | .torch, v => .ok v
  | .numpy, .none => .ok .none
  | .numpy, .np a => .ok (.tensor a)
  | .numpy, _ => .error .type
  | .list, .none => .ok .none
  | .list, .items xs => (torchTensor xs).map .tensor
  | .list, .np a => .ok (.tensor a)
  | .list, .tensor a => .ok (.tensor a)
  | .list, _ => .error .type

/-- `arrays_to_numpy`, `arrays_to_torch`. array_backend.py L54-60. -/
def arraysToNumpy (b : Backend) (vs : List Val) : Except Err (List Val) := vs.mapM (toNumpy b)
def arraysToTorch (b : Backend) (vs : List Val) : Except Err (List Val) := vs.mapM (toTorch b)

/-- What `convert` returns: one value or a tuple. -/
inductive Res where
  | one (v : Val)
  | tuple (vs : List Val)

/-- The first of one value, or the tuple of several. array_backend.py L44, L46. -/
def pack (vs : List Val) : Except Err Res :=
  match vs with
  | [] => .error .value
  | [v] => .ok (.one v)
  | vs => .ok (.tuple vs)

/-- The backend of the arrays. array_backend.py L41-42; without arrays `arrays[0]` raises an IndexError, here an error of value. -/
def sourceOf (backend : Option Backend) (arrays : List Val) : Except Err Backend :=
  match backend, arrays with
  | some b, _ => .ok b
  | none, v :: _ => backendOf v
  | none, [] => .error .value

/-- `ArrayBackend.convert`, called on the class `cls`. array_backend.py L37-48. The last case returns the class of the exception. -/
def convert (cls : Backend) (arrays : List Val) (dest : Option String) (backend : Option Backend) : Except Err Res := do
  let dest := dest.getD cls.name
  let b ← sourceOf backend arrays
  if dest = "numpy" then pack (← arraysToNumpy b arrays)
  else if dest = "torch" then pack (← arraysToTorch b arrays)
  else return .one .errorClass

/-- `convert_to_backend(cls, array)`: called on the backend `target` with the backend `source` of the array. array_backend.py L185-187, L314-316,
L449-451. -/
def convertToBackend (target source : Backend) (v : Val) : Except Err Val :=
  match target with
  | .numpy => toNumpy source v
  | .torch => toTorch source v
  | .list => toNumpy source v

/-- `Agent._convert_to_env_backend`, `Agent._convert_to_agent_backend`. agent.py L183-187. -/
def toEnv (agent env : Backend) (v : Val) : Except Err Val := convertToBackend env agent v
def toAgent (agent env : Backend) (v : Val) : Except Err Val := convertToBackend agent env v

/-- `check_device` in `zeros`, `ones`, `zeros_like` and `ones_like`. array_backend.py L62-65, L189-207, L318-336, L453-471. -/
def checkDevice (b : Backend) (device : Option String) : Except Err Unit :=
  match b, device with
  | .torch, _ => .ok ()
  | _, none => .ok ()
  | _, some _ => .error .value

/-- `where(cond, x, y)`: the value is computed and not returned. array_backend.py L213-219, L342-348. The list backend has no such method. -/
def whereSel (b : Backend) (cond : List Bool) (x y : Option (List ℝ)) : Except Err (Option (List ℝ ⊕ List ℕ)) :=
  match b with
  | .list => .error .notImplemented
  | _ =>
    if x.isNone = y.isNone then
      match x with
      | none => .ok (some (.inr ((List.range cond.length).filter fun i => cond.getD i false)))
      | some _ => .ok none
    else .error .assertion

/-- `squeeze(array, dim)` without `dim`. array_backend.py L221-223, L350-355. -/
def squeezeAll (_ : Backend) (a : Arr ℝ) : Arr ℝ := a.squeeze

/-- `squeeze(array, dim)` with `dim`: numpy raises ValueError if the axis is not of size one. array_backend.py L221-223, L350-355. -/
def squeezeDim (b : Backend) (a : Arr ℝ) (dim : ℕ) : Except Err (Arr ℝ) :=
  if a.shape.length ≤ dim then .error .value
  else if a.shape.getD dim 0 = 1 then .ok ⟨a.shape.eraseIdx dim, a.data⟩
  else match b with
    | .numpy => .error .value
    | .torch => .ok a
    | .list => .error .notImplemented

/-- `clip(array, min, max)`. array_backend.py L246-248, L377-379: both compute the maximum with the lower limit first. -/
def clip (_ : Backend) (lo hi x : ℝ) : ℝ := min (max x lo) hi

/-- The entries in increasing order. -/
def sorted (xs : List ℝ) : List ℝ := xs.insertionSort (· ≤ ·)

/-- `median`. array_backend.py L258-260, L389-391, L477-479. `np.median` is the mean of the two middle entries, `Tensor.median` the lower of them;
without entries both are NaN. -/
def median (b : Backend) (xs : List ℝ) : Option ℝ :=
  let s := sorted xs
  let n := s.length
  if n = 0 then none
  else match b with
    | .torch => some (s.getD ((n - 1) / 2) 0)
    | _ => if n % 2 = 1 then some (s.getD (n / 2) 0) else some ((s.getD (n / 2 - 1) 0 + s.getD (n / 2) 0) / 2)

/-- `from_list`. array_backend.py L266-268, L397-402, L481-483. `torch.stack` raises RuntimeError for different shapes, here an error of value. -/
def fromList (b : Backend) (xs : List (Arr ℝ)) : Except Err Val :=
  match b with
  | .numpy => (npArray xs).map .np
  | .torch => if xs.length > 1 then (npArray xs).map .tensor else (torchTensor xs).map .tensor
  | .list => .ok (.items xs)

/-! ### Arrays as functions -/

/-- An array: its shape and its entries by index. -/
structure Tensor (α : Type) where
  shape : List ℕ
  entry : List ℕ → α

/-- The position of an index in row-major order ('C') and in column-major order ('F'). -/
def flatC : List ℕ → List ℕ → ℕ
  | _ :: sh, i :: is => i * sh.prod + flatC sh is
  | _, _ => 0
def flatF : List ℕ → List ℕ → ℕ
  | s :: sh, i :: is => i + s * flatF sh is
  | _, _ => 0

/-- The index at a position in row-major and in column-major order. -/
def unflatC : List ℕ → ℕ → List ℕ
  | [], _ => []
  | _ :: sh, k => k / sh.prod :: unflatC sh (k % sh.prod)
def unflatF : List ℕ → ℕ → List ℕ
  | [], _ => []
  | s :: sh, k => k % s :: unflatF sh (k / s)

/-- `a.reshape(shape)` and `a.reshape(shape, order='F')`. -/
def reshapeC {α : Type} (a : Tensor α) (shape : List ℕ) : Tensor α := ⟨shape, fun is => a.entry (unflatC a.shape (flatC shape is))⟩
def reshapeF {α : Type} (a : Tensor α) (shape : List ℕ) : Tensor α := ⟨shape, fun is => a.entry (unflatF a.shape (flatF shape is))⟩

/-- `a.transpose(0, 1)`. -/
def transpose01 {α : Type} (a : Tensor α) : Tensor α :=
  match a.shape with
  | s :: t :: sh => ⟨t :: s :: sh, fun is => match is with
    | i :: j :: r => a.entry (j :: i :: r)
    | r => a.entry r⟩
  | _ => a

/-- `new_shape`. array_backend.py L274, L280, L408, L415. -/
def newShape (shape : List ℕ) : List ℕ := (shape.getD 0 0 * shape.getD 1 0) :: shape.drop 2

/-- `flatten`. array_backend.py L277-281, L412-416, L489-491. -/
def flatten {α : Type} (b : Backend) (a : Tensor α) : Tensor α :=
  match b with
  | .torch => reshapeC (transpose01 a) (newShape a.shape)
  | _ => reshapeF a (newShape a.shape)

/-- The mask in the order of its columns: `mask.flatten(order='F')`, `mask.transpose(0, 1).flatten()`. -/
def flatMask (b : Backend) (mask : Tensor Bool) (k : ℕ) : Bool := (flatten b mask).entry [k]

/-- `pack_padded_sequence`: the rows at which the mask is true. array_backend.py L270-275, L404-410, L485-487. A row is its entries by the remaining
indices. -/
def packPadded {α : Type} (b : Backend) (a : Tensor α) (mask : Tensor Bool) : List (List ℕ → α) :=
  ((List.range ((flatten b a).shape.getD 0 0)).filter (flatMask b mask)).map fun k is => (flatten b a).entry (k :: is)

/-! ### Datasets and running statistics -/

/-- `Dataset._convert` and `Dataset.parse`. dataset.py L370-382, L513-519. -/
def parse (b : Backend) (arrays : List Val) (dest : Option String) : Except Err Res :=
  let dest := dest.getD b.name
  if dest = "numpy" then (arraysToNumpy b arrays).map .tuple
  else if dest = "torch" then (arraysToTorch b arrays).map .tuple
  else .ok (.one .errorClass)

/-- `Dataset.get_init_states`: the arrays of the list. dataset.py L437-451. -/
def initStates (b : Backend) {A R P : Type} (rows : List (Row (Arr ℝ) A R P)) : Except Err Val := fromList b (Verif.Dataset.getInitStates rows)

/-- `Dataset.compute_metrics`. dataset.py L481-511: minimum, maximum, mean, median and number of episodes. The list made by the list backend has no
method `min`. -/
def metrics (b : Backend) {X A P : Type} (gamma : ℝ) (rows : List (Row X A ℝ P)) : Except Err (ℝ × ℝ × ℝ × Option ℝ × ℕ) :=
  let dataset := Verif.Dataset.pySlice rows none (some (Verif.Dataset.metricsCut (rows.map (·.last)) rows.length))
  let m := Verif.Dataset.computeMetrics gamma rows
  if dataset.length > 0 then
    match b with
    | .list => .error .attribute
    | b => .ok (m.1, m.2.1, m.2.2.1, median b (Verif.Dataset.computeJ gamma dataset), m.2.2.2)
  else .ok (0, 0, 0, some 0, 0)

/-- `convert(self._avg_buffer)` in `RunningAveragedWindow.mean`. running_stats.py L215. -/
def windowArray (b : Backend) (buffer : List (Arr ℝ)) : Except Err Res := convert b [.items buffer] none none

end

end Verif.Backend
