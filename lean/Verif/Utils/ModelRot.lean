/-
Model of the conversions of rotations in /repo/mushroom_rl/utils/angles.py. Floating point numbers are real numbers. `scipy.spatial.transform.Rotation` is modelled from its
documentation: a rotation is its matrix, `from_euler('xyz', e)` turns around the fixed axes x, y and z in this order, and `as_euler('xyz')` gives the second angle in [-π/2, π/2] and, in a gimbal lock,
the third angle 0; the tolerance for a gimbal lock is zero.
-/
import Mathlib.LinearAlgebra.Matrix.Notation
import Mathlib.Analysis.SpecialFunctions.Complex.Arg
import Mathlib.Analysis.SpecialFunctions.Trigonometric.Inverse
import Mathlib.Analysis.SpecialFunctions.Sqrt

namespace Verif.Utils.Rot

noncomputable section

open Real

/-- A vector of three angles. -/
abbrev Euler := Fin 3 → ℝ
/-- Four numbers; the order of the components is that of the function that uses them. -/
abbrev Quat := Fin 4 → ℝ
abbrev Mat := Matrix (Fin 3) (Fin 3) ℝ

/-- Rotation around the first axis. -/
def rotX (t : ℝ) : Mat := !![1, 0, 0; 0, cos t, -sin t; 0, sin t, cos t]
/-- Rotation around the second axis. -/
def rotY (t : ℝ) : Mat := !![cos t, 0, sin t; 0, 1, 0; -sin t, 0, cos t]
/-- Rotation around the third axis. -/
def rotZ (t : ℝ) : Mat := !![cos t, -sin t, 0; sin t, cos t, 0; 0, 0, 1]

/-- `np.arctan2` -/
def arctan2 (y x : ℝ) : ℝ := Complex.arg ⟨x, y⟩

/-! ### scipy -/

/-- `Rotation.from_euler('xyz', e)` -/
def fromEuler (e : Euler) : Mat := rotZ (e 2) * rotY (e 1) * rotX (e 0)

/-- The product of two quaternions `[x, y, z, w]`. -/
def quatMul (p q : Quat) : Quat :=
  ![p 3 * q 0 + p 0 * q 3 + p 1 * q 2 - p 2 * q 1, p 3 * q 1 - p 0 * q 2 + p 1 * q 3 + p 2 * q 0,
    p 3 * q 2 + p 0 * q 1 - p 1 * q 0 + p 2 * q 3, p 3 * q 3 - p 0 * q 0 - p 1 * q 1 - p 2 * q 2]

/-- `Rotation.from_euler('xyz', e).as_quat()`: the product of the quaternions of the three turns, `[x, y, z, w]`. -/
def eulerAsQuat (e : Euler) : Quat :=
  quatMul (quatMul ![0, 0, sin (e 2 / 2), cos (e 2 / 2)] ![0, sin (e 1 / 2), 0, cos (e 1 / 2)]) ![sin (e 0 / 2), 0, 0, cos (e 0 / 2)]

/-- The matrix of a quaternion `[x, y, z, w]` of norm one. -/
def quatAsMatrix (q : Quat) : Mat :=
  !![q 3 ^ 2 + q 0 ^ 2 - q 1 ^ 2 - q 2 ^ 2, 2 * (q 0 * q 1 - q 3 * q 2), 2 * (q 0 * q 2 + q 3 * q 1);
     2 * (q 0 * q 1 + q 3 * q 2), q 3 ^ 2 - q 0 ^ 2 + q 1 ^ 2 - q 2 ^ 2, 2 * (q 1 * q 2 - q 3 * q 0);
     2 * (q 0 * q 2 - q 3 * q 1), 2 * (q 1 * q 2 + q 3 * q 0), q 3 ^ 2 - q 0 ^ 2 - q 1 ^ 2 + q 2 ^ 2]

/-- `Rotation.from_quat(q)` normalises; `none` is the ValueError for a quaternion of norm zero. -/
def fromQuat (q : Quat) : Option Mat :=
  let n := sqrt (∑ i, q i ^ 2)
  if n = 0 then none else some (quatAsMatrix fun i => q i / n)

/-- `as_euler('xyz')` -/
def asEuler (m : Mat) : Euler :=
  let y := arcsin (-m 2 0)
  if cos y = 0 then ![arctan2 (-m 1 2) (m 1 1), y, 0] else ![arctan2 (m 2 1) (m 2 2), y, arctan2 (m 1 0) (m 0 0)]

/-! ### angles.py -/

/-- `quat_to_euler` of one quaternion: `quat[[1, 2, 3, 0]]` goes to scipy. angles.py L100-101. -/
def quatToEuler (quat : Quat) : Option Euler := (fromQuat ![quat 1, quat 2, quat 3, quat 0]).map asEuler

/-- `quat_to_euler` of an array with one quaternion per column; scipy fails if one of them is zero. angles.py L102-103. -/
def quatToEulerBatch {n : ℕ} (quat : Fin 4 → Fin n → ℝ) : Option (Fin 3 → Fin n → ℝ) :=
  let rows : Fin n → Quat := fun j => ![quat 1 j, quat 2 j, quat 3 j, quat 0 j]
  if ∀ j, (fromQuat (rows j)).isSome then some fun i j => asEuler ((fromQuat (rows j)).getD 1) i else none

/-- `euler_to_quat` of one vector: `as_quat()[[3, 0, 1, 2]]`. angles.py L117-118. -/
def eulerToQuat (euler : Euler) : Quat :=
  let q := eulerAsQuat euler
  ![q 3, q 0, q 1, q 2]

/-- `euler_to_quat` of an array with one vector per column. angles.py L119-120. -/
def eulerToQuatBatch {n : ℕ} (euler : Fin 3 → Fin n → ℝ) : Fin 4 → Fin n → ℝ :=
  fun i j =>
    let q := eulerAsQuat fun k => euler k j
    (![q 3, q 0, q 1, q 2] : Quat) i

/-- `mat_to_euler`; `from_matrix` of a rotation matrix is the rotation. angles.py L123-134. -/
def matToEuler (mat : Mat) : Euler := asEuler mat

/-- `euler_to_mat`. angles.py L137-148. -/
def eulerToMat (euler : Euler) : Mat := fromEuler euler

/-- `euler_to_mat` of a two-dimensional array: scipy takes one vector per row. angles.py L148. -/
def eulerToMatBatch {n : ℕ} (euler : Fin n → Fin 3 → ℝ) : Fin n → Mat := fun j => fromEuler (euler j)

end

end Verif.Utils.Rot
