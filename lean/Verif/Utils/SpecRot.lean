/-
Specification for C174: rotations of the space, without reference to scipy.
-/
import Mathlib.LinearAlgebra.Matrix.Determinant.Basic
import Mathlib.LinearAlgebra.CrossProduct
import Mathlib.Data.Real.Basic

namespace Verif.Utils.Rot.Spec

open Matrix

/-- Rotation matrices. -/
def IsRotation (m : Matrix (Fin 3) (Fin 3) ℝ) : Prop := m * mᵀ = 1 ∧ m.det = 1

/-- The quaternion `[w, x, y, z]` has norm one. -/
def IsUnit4 (q : Fin 4 → ℝ) : Prop := q 0 ^ 2 + q 1 ^ 2 + q 2 ^ 2 + q 3 ^ 2 = 1

/-- The quaternion `[w, x, y, z]` of norm one turns `v` into `v + 2 u × (u × v + w v)`, `u` being `(x, y, z)`: Rodrigues' formula. -/
def Turns (q : Fin 4 → ℝ) (m : Matrix (Fin 3) (Fin 3) ℝ) : Prop :=
  ∀ v : Fin 3 → ℝ, m *ᵥ v = v + (2 : ℝ) • (crossProduct ![q 1, q 2, q 3] (crossProduct ![q 1, q 2, q 3] v + q 0 • v))

end Verif.Utils.Rot.Spec
