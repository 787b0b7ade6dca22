/-
Small specifications for the array backends.
-/
import Verif.Backend.Model

namespace Verif.Backend

open Verif.Approx.Reg (Arr)

/-- The array in a value, whatever its kind. -/
def content : Val → Option (Arr ℝ)
  | .np a => some a
  | .tensor a => some a
  | _ => none

/-- The values that belong to a backend of arrays. -/
def Native : Backend → Val → Prop
  | .numpy, .np _ => True
  | .torch, .tensor _ => True
  | _, _ => False

/-- At most half of the entries are smaller than `m` and at most half are larger. -/
noncomputable def IsMedian (m : ℝ) (xs : List ℝ) : Prop :=
  2 * xs.countP (fun x => decide (x < m)) ≤ xs.length ∧ 2 * xs.countP (fun x => decide (m < x)) ≤ xs.length

/-- The index is in the range of the shape. -/
def Valid : List ℕ → List ℕ → Prop
  | [], [] => True
  | s :: sh, i :: is => i < s ∧ Valid sh is
  | _, _ => False

end Verif.Backend
