/-
Property C174: conversions of rotations.
-/
import Verif.Utils.ModelRot
import Verif.Utils.SpecRot
import Mathlib.LinearAlgebra.Matrix.Adjugate
import Mathlib.LinearAlgebra.Matrix.NonsingularInverse
import Mathlib.Tactic.LinearCombination
import Mathlib.Tactic.FinCases
import Mathlib.Analysis.Real.Pi.Bounds

namespace Verif.Utils.Rot

open Real Spec

noncomputable section

theorem quatAsMatrix_mul (p q : Quat) : quatAsMatrix (quatMul p q) = quatAsMatrix p * quatAsMatrix q := by
  ext i j
  fin_cases i <;> fin_cases j <;> simp [quatAsMatrix, quatMul, Matrix.mul_apply, Fin.sum_univ_succ] <;> ring

theorem half_cos (t : ℝ) : cos t = cos (t / 2) ^ 2 - sin (t / 2) ^ 2 := by
  have := cos_sq_add_sin_sq (t / 2)
  rw [show t = 2 * (t / 2) by ring, cos_two_mul, show 2 * (t / 2) / 2 = t / 2 by ring]
  linarith

theorem half_sin (t : ℝ) : sin t = 2 * (cos (t / 2) * sin (t / 2)) := by
  rw [show t = 2 * (t / 2) by ring, sin_two_mul, show 2 * (t / 2) / 2 = t / 2 by ring]
  ring

theorem quat_x (t : ℝ) : quatAsMatrix ![sin (t / 2), 0, 0, cos (t / 2)] = rotX t := by
  have := cos_sq_add_sin_sq (t / 2)
  ext i j
  fin_cases i <;> fin_cases j <;> simp [quatAsMatrix, rotX, half_cos t, half_sin t] <;> linarith

theorem quat_y (t : ℝ) : quatAsMatrix ![0, sin (t / 2), 0, cos (t / 2)] = rotY t := by
  have := cos_sq_add_sin_sq (t / 2)
  ext i j
  fin_cases i <;> fin_cases j <;> simp [quatAsMatrix, rotY, half_cos t, half_sin t] <;> linarith

theorem quat_z (t : ℝ) : quatAsMatrix ![0, 0, sin (t / 2), cos (t / 2)] = rotZ t := by
  have := cos_sq_add_sin_sq (t / 2)
  ext i j
  fin_cases i <;> fin_cases j <;> simp [quatAsMatrix, rotZ, half_cos t, half_sin t] <;> linarith

theorem eulerAsQuat_matrix (e : Euler) : quatAsMatrix (eulerAsQuat e) = fromEuler e := by
  rw [eulerAsQuat, quatAsMatrix_mul, quatAsMatrix_mul, quat_x, quat_y, quat_z, fromEuler]

/-- The square of the norm. -/
def norm4 (q : Quat) : ℝ := q 0 ^ 2 + q 1 ^ 2 + q 2 ^ 2 + q 3 ^ 2

theorem norm4_mul (p q : Quat) : norm4 (quatMul p q) = norm4 p * norm4 q := by
  simp [norm4, quatMul]
  ring

theorem norm4_euler (e : Euler) : norm4 (eulerAsQuat e) = 1 := by
  have h : ∀ t : ℝ, sin t ^ 2 + cos t ^ 2 = 1 := sin_sq_add_cos_sq
  rw [eulerAsQuat, norm4_mul, norm4_mul]
  simp [norm4, h]

/-- The matrix of a unit quaternion turns vectors as Rodrigues' formula says. -/
theorem turns (q : Quat) (h : IsUnit4 q) : Turns q (quatAsMatrix ![q 1, q 2, q 3, q 0]) := by
  intro v
  unfold IsUnit4 at h
  ext i
  fin_cases i <;> simp [quatAsMatrix, Matrix.mulVec, dotProduct, Fin.sum_univ_succ, crossProduct, Matrix.vecHead, Matrix.vecTail]
  · linear_combination (v 0) * h
  · linear_combination (v 1) * h
  · linear_combination (v 2) * h

theorem turns_unique {q : Quat} {m m' : Mat} (h : Turns q m) (h' : Turns q m') : m = m' := by
  ext i j
  have := congrFun ((h (Pi.single j 1)).trans (h' (Pi.single j 1)).symm) i
  simpa using this

/-- C174. `euler_to_quat` gives a unit quaternion `[w, x, y, z]` that turns every vector as the matrix of `euler_to_mat` does. -/
theorem C174_euler_to_quat (e : Euler) : IsUnit4 (eulerToQuat e) ∧ Turns (eulerToQuat e) (eulerToMat e) := by
  have hu : IsUnit4 (eulerToQuat e) := by
    have := norm4_euler e
    unfold norm4 at this
    simp only [IsUnit4, eulerToQuat]
    simp
    linarith
  refine ⟨hu, ?_⟩
  have := turns _ hu
  rw [show (![eulerToQuat e 1, eulerToQuat e 2, eulerToQuat e 3, eulerToQuat e 0] : Quat) = eulerAsQuat e from ?_, eulerAsQuat_matrix] at this
  · exact this
  · ext i
    fin_cases i <;> rfl

theorem rotX_rotation (t : ℝ) : IsRotation (rotX t) := by
  have h := cos_sq_add_sin_sq t
  constructor
  · ext i j
    fin_cases i <;> fin_cases j <;> simp [rotX, Matrix.mul_apply, Fin.sum_univ_succ] <;> linarith
  · simp [rotX, Matrix.det_fin_three]
    linarith

theorem rotY_rotation (t : ℝ) : IsRotation (rotY t) := by
  have h := cos_sq_add_sin_sq t
  constructor
  · ext i j
    fin_cases i <;> fin_cases j <;> simp [rotY, Matrix.mul_apply, Fin.sum_univ_succ] <;> linarith
  · simp [rotY, Matrix.det_fin_three]
    linarith

theorem rotZ_rotation (t : ℝ) : IsRotation (rotZ t) := by
  have h := cos_sq_add_sin_sq t
  constructor
  · ext i j
    fin_cases i <;> fin_cases j <;> simp [rotZ, Matrix.mul_apply, Fin.sum_univ_succ] <;> linarith
  · simp [rotZ, Matrix.det_fin_three]
    linarith

theorem rotation_mul {a b : Mat} (ha : IsRotation a) (hb : IsRotation b) : IsRotation (a * b) := by
  refine ⟨?_, by rw [Matrix.det_mul, ha.2, hb.2, one_mul]⟩
  rw [Matrix.transpose_mul, Matrix.mul_assoc, ← Matrix.mul_assoc b, hb.1, Matrix.one_mul, ha.1]

theorem fromEuler_rotation (e : Euler) : IsRotation (fromEuler e) := rotation_mul (rotation_mul (rotZ_rotation _) (rotY_rotation _)) (rotX_rotation _)

theorem quat_rotation (q : Quat) (h : norm4 q = 1) : IsRotation (quatAsMatrix q) := by
  unfold norm4 at h
  have hw : q 3 ^ 2 = 1 - q 0 ^ 2 - q 1 ^ 2 - q 2 ^ 2 := by linarith
  constructor
  · have key : ∀ i j, (quatAsMatrix q * (quatAsMatrix q).transpose) i j = (norm4 q) ^ 2 * (1 : Mat) i j := by
      intro i j
      fin_cases i <;> fin_cases j <;> simp [quatAsMatrix, Matrix.mul_apply, Fin.sum_univ_succ, norm4] <;> ring
    ext i j
    rw [key, norm4, h]
    ring
  · have : (quatAsMatrix q).det = (norm4 q) ^ 3 := by
      simp [quatAsMatrix, Matrix.det_fin_three, norm4]
      ring
    rw [this, norm4, h]
    norm_num

/-- What orthogonality says about the entries. -/
theorem entries {m : Mat} (h : IsRotation m) :
    (m 2 0 ^ 2 + m 2 1 ^ 2 + m 2 2 ^ 2 = 1 ∧ m 0 0 ^ 2 + m 1 0 ^ 2 + m 2 0 ^ 2 = 1 ∧ m 1 0 ^ 2 + m 1 1 ^ 2 + m 1 2 ^ 2 = 1) ∧
    (m 0 0 * m 0 1 + m 1 0 * m 1 1 + m 2 0 * m 2 1 = 0 ∧ m 0 0 * m 0 2 + m 1 0 * m 1 2 + m 2 0 * m 2 2 = 0) ∧
    (m 2 2 = m 0 0 * m 1 1 - m 0 1 * m 1 0 ∧ m 2 1 = m 0 2 * m 1 0 - m 0 0 * m 1 2 ∧ m 0 1 = m 1 2 * m 2 0 - m 1 0 * m 2 2 ∧ m 0 2 = m 1 0 * m 2 1 - m 1 1 * m 2 0) := by
  obtain ⟨h1, h2⟩ := h
  have hT : m.transpose * m = 1 := mul_eq_one_comm.1 h1
  have hadj : m.transpose = m.adjugate := by
    have : m.adjugate * m = 1 := by rw [Matrix.adjugate_mul, h2, one_smul]
    calc m.transpose = (m.adjugate * m) * m.transpose := by rw [this, Matrix.one_mul]
      _ = m.adjugate := by rw [Matrix.mul_assoc, h1, Matrix.mul_one]
  have r := fun i j => congrFun (congrFun h1 i) j
  have c := fun i j => congrFun (congrFun hT i) j
  have a := fun i j => congrFun (congrFun hadj i) j
  simp only [Matrix.mul_apply, Fin.sum_univ_succ, Matrix.transpose_apply, Finset.univ_unique, Finset.sum_singleton, Fin.default_eq_zero] at r c
  simp only [Matrix.adjugate_fin_three, Matrix.transpose_apply] at a
  have r22 := r 2 2
  have r11 := r 1 1
  have c00 := c 0 0
  have c01 := c 0 1
  have c02 := c 0 2
  have a22 := a 2 2
  have a12 := a 1 2
  have a10 := a 1 0
  have a20 := a 2 0
  simp at r22 r11 c00 c01 c02 a22 a12 a10 a20
  refine ⟨⟨by linarith, by linarith, by linarith⟩, ⟨by linarith, by linarith⟩, by linarith, by linarith, by linarith, by linarith⟩

theorem arctan2_polar {x y r : ℝ} (hr : 0 < r) (h : x ^ 2 + y ^ 2 = r ^ 2) : r * cos (arctan2 y x) = x ∧ r * sin (arctan2 y x) = y := by
  have hn : ‖(⟨x, y⟩ : ℂ)‖ = r := by
    rw [Complex.norm_def, Complex.normSq_mk, show x * x + y * y = r ^ 2 by linarith, sqrt_sq hr.le]
  have hz : (⟨x, y⟩ : ℂ) ≠ 0 := by
    intro h0
    rw [h0, norm_zero] at hn
    linarith
  constructor
  · rw [arctan2, Complex.cos_arg hz, hn]
    field_simp
  · rw [arctan2, Complex.sin_arg, hn]
    field_simp

theorem fromEuler_apply (e : Euler) : fromEuler e =
    !![cos (e 2) * cos (e 1), cos (e 2) * sin (e 1) * sin (e 0) - sin (e 2) * cos (e 0), cos (e 2) * sin (e 1) * cos (e 0) + sin (e 2) * sin (e 0);
       sin (e 2) * cos (e 1), sin (e 2) * sin (e 1) * sin (e 0) + cos (e 2) * cos (e 0), sin (e 2) * sin (e 1) * cos (e 0) - cos (e 2) * sin (e 0);
       -sin (e 1), cos (e 1) * sin (e 0), cos (e 1) * cos (e 0)] := by
  ext i j
  fin_cases i <;> fin_cases j <;> simp [fromEuler, rotX, rotY, rotZ, Matrix.mul_apply, Fin.sum_univ_succ] <;> ring

/-- The angles that `as_euler` gives describe the rotation. -/
theorem fromEuler_asEuler {m : Mat} (h : IsRotation m) : fromEuler (asEuler m) = m := by
  obtain ⟨⟨n2, n0, n1⟩, ⟨o1, o2⟩, k22, k21, k01, k02⟩ := entries h
  have hb : -1 ≤ -m 2 0 ∧ -m 2 0 ≤ 1 := by
    have : m 2 0 ^ 2 ≤ 1 := by linarith [sq_nonneg (m 2 1), sq_nonneg (m 2 2)]
    have := abs_le.1 ((sq_le_one_iff_abs_le_one _).1 this)
    constructor <;> linarith [this.1, this.2]
  have hs : sin (arcsin (-m 2 0)) = -m 2 0 := sin_arcsin hb.1 hb.2
  have hc0 : 0 ≤ cos (arcsin (-m 2 0)) := cos_arcsin_nonneg _
  have hc2 : cos (arcsin (-m 2 0)) ^ 2 = 1 - m 2 0 ^ 2 := by
    have := cos_sq_add_sin_sq (arcsin (-m 2 0))
    rw [hs] at this
    linarith
  rw [fromEuler_apply]
  unfold asEuler
  generalize hC : cos (arcsin (-m 2 0)) = C at hc0 hc2
  generalize hY : arcsin (-m 2 0) = Y at hs hC
  split
  · rename_i hz
    have hC0 : C = 0 := hz
    subst hC0
    have z : m 2 0 ^ 2 = 1 := by linarith
    have two : ∀ a b : ℝ, a ^ 2 + b ^ 2 = 0 → a = 0 ∧ b = 0 := by
      intro a b hab
      have ha : a ^ 2 = 0 := le_antisymm (by linarith [sq_nonneg b]) (sq_nonneg a)
      have hb : b ^ 2 = 0 := le_antisymm (by linarith [sq_nonneg a]) (sq_nonneg b)
      exact ⟨pow_eq_zero_iff two_ne_zero |>.1 ha, pow_eq_zero_iff two_ne_zero |>.1 hb⟩
    obtain ⟨z21, z22⟩ := two (m 2 1) (m 2 2) (by linarith)
    obtain ⟨z00, z10⟩ := two (m 0 0) (m 1 0) (by linarith)
    obtain ⟨p1, p2⟩ := arctan2_polar (x := m 1 1) (y := -m 1 2) (r := 1) one_pos (by rw [z10] at n1; linarith)
    rw [one_mul] at p1 p2
    rw [z10, z22] at k01
    rw [z10, z21] at k02
    ext i j
    fin_cases i <;> fin_cases j <;> simp [hs, hC, p1, p2, z00, z10, z21, z22]
    · rw [k01]; ring
    · rw [k02]; ring
  · rename_i hz
    have hCp : 0 < C := lt_of_le_of_ne hc0 fun h0 => hz h0.symm
    obtain ⟨x1, x2⟩ := arctan2_polar (x := m 2 2) (y := m 2 1) hCp (by linarith)
    obtain ⟨z1, z2⟩ := arctan2_polar (x := m 0 0) (y := m 1 0) hCp (by linarith)
    generalize arctan2 (m 2 1) (m 2 2) = X at x1 x2
    generalize arctan2 (m 1 0) (m 0 0) = Z at z1 z2
    have hC2 : C ^ 2 ≠ 0 := by positivity
    ext i j
    fin_cases i <;> fin_cases j <;> simp [hs, hC]
    · linarith
    · apply mul_left_cancel₀ hC2
      linear_combination (-m 2 0 * C * sin X) * z1 + (-m 2 0 * m 0 0) * x2 - (C * cos X) * z2 - (m 1 0) * x1 - m 0 0 * o1 - m 1 0 * k22 + (-m 0 1) * hc2 + (m 0 1) * n0
    · apply mul_left_cancel₀ hC2
      linear_combination (-m 2 0 * C * cos X) * z1 + (-m 2 0 * m 0 0) * x1 + (C * sin X) * z2 + (m 1 0) * x2 - m 0 0 * o2 + m 1 0 * k21 + (-m 0 2) * hc2 + (m 0 2) * n0
    · linarith
    · apply mul_left_cancel₀ hC2
      linear_combination (-m 2 0 * C * sin X) * z2 + (-m 2 0 * m 1 0) * x2 + (C * cos X) * z1 + (m 0 0) * x1 - m 1 0 * o1 + m 0 0 * k22 + (-m 1 1) * hc2 + (m 1 1) * n0
    · apply mul_left_cancel₀ hC2
      linear_combination (-m 2 0 * C * cos X) * z2 + (-m 2 0 * m 1 0) * x1 - (C * sin X) * z1 - (m 0 0) * x2 - m 1 0 * o2 - m 0 0 * k21 + (-m 1 2) * hc2 + (m 1 2) * n0
    · linarith
    · linarith

/-- C174. `euler_to_mat` gives rotation matrices, and `mat_to_euler` gives, for every rotation matrix, angles from which `euler_to_mat` makes it again. -/
theorem C174_mat : (∀ e, IsRotation (eulerToMat e)) ∧ ∀ m, IsRotation m → eulerToMat (matToEuler m) = m :=
  ⟨fromEuler_rotation, fun _ => fromEuler_asEuler⟩

example : IsRotation (rotZ 1) := rotZ_rotation 1

/-- C174. The angles are given back if the first and the third are in (-π, π] and the second is in (-π/2, π/2). -/
theorem C174_angles (e : Euler) (h0 : -π < e 0 ∧ e 0 ≤ π) (h1 : -(π / 2) < e 1 ∧ e 1 < π / 2) (h2 : -π < e 2 ∧ e 2 ≤ π) : matToEuler (eulerToMat e) = e := by
  have hc : 0 < cos (e 1) := cos_pos_of_mem_Ioo ⟨h1.1, h1.2⟩
  have hy : arcsin (-(fromEuler e) 2 0) = e 1 := by
    rw [fromEuler_apply]
    simp
    exact arcsin_sin h1.1.le h1.2.le
  have harg : ∀ t, -π < t → t ≤ π → arctan2 (cos (e 1) * sin t) (cos (e 1) * cos t) = t := by
    intro t ht ht'
    have : (⟨cos (e 1) * cos t, cos (e 1) * sin t⟩ : ℂ) = (cos (e 1) : ℂ) * (Complex.cos t + Complex.sin t * Complex.I) := by
      apply Complex.ext <;> simp [Complex.cos_ofReal_re, Complex.sin_ofReal_re]
    rw [arctan2, this]
    exact_mod_cast Complex.arg_mul_cos_add_sin_mul_I hc ⟨ht, ht'⟩
  unfold matToEuler eulerToMat asEuler
  simp only [hy, if_neg hc.ne']
  rw [fromEuler_apply]
  ext i
  fin_cases i
  · simp
    exact harg _ h0.1 h0.2
  · rfl
  · simp
    rw [mul_comm, mul_comm (cos (e 2))]
    exact harg _ h2.1 h2.2

example : ∃ e : Euler, (-π < e 0 ∧ e 0 ≤ π) ∧ (-(π / 2) < e 1 ∧ e 1 < π / 2) ∧ (-π < e 2 ∧ e 2 ≤ π) ∧ e ≠ 0 := by
  have := pi_gt_three
  exact ⟨![1, -1, 2], by constructor <;> simp <;> linarith, by constructor <;> simp <;> linarith, by constructor <;> simp <;> linarith, fun h => by simpa using congrFun h 0⟩

/-- C174. `quat_to_euler` fails only for the zero quaternion. Otherwise the angles describe the rotation of the normalised quaternion `[w, x, y, z]`. -/
theorem C174_quat_to_euler (q : Quat) :
    (quatToEuler q = none ↔ q = 0) ∧ ∀ e, quatToEuler q = some e → ∃ n, 0 < n ∧ n ^ 2 = ∑ i, q i ^ 2 ∧ Turns (fun i => q i / n) (eulerToMat e) := by
  have hsum : ∑ i, (![q 1, q 2, q 3, q 0] : Quat) i ^ 2 = ∑ i, q i ^ 2 := by
    simp [Fin.sum_univ_succ]
    ring
  have h0 : 0 ≤ ∑ i, q i ^ 2 := Finset.sum_nonneg fun _ _ => sq_nonneg _
  unfold quatToEuler fromQuat
  simp only [hsum]
  constructor
  · constructor
    · intro h
      split at h
      · rename_i hn
        rw [sqrt_eq_zero h0, Finset.sum_eq_zero_iff_of_nonneg fun _ _ => sq_nonneg _] at hn
        ext i
        simpa using hn i (Finset.mem_univ i)
      · simp at h
    · rintro rfl
      simp
  · intro e h
    split at h
    · simp at h
    · rename_i hn
      simp only [Option.map_some, Option.some.injEq] at h
      subst h
      have hp : 0 < sqrt (∑ i, q i ^ 2) := lt_of_le_of_ne (sqrt_nonneg _) (Ne.symm hn)
      refine ⟨_, hp, sq_sqrt h0, ?_⟩
      generalize hN : sqrt (∑ i, q i ^ 2) = n at *
      have hn2 : n ^ 2 = q 0 ^ 2 + q 1 ^ 2 + q 2 ^ 2 + q 3 ^ 2 := by
        rw [← hN, sq_sqrt h0]
        simp [Fin.sum_univ_succ]
        ring
      have hu : IsUnit4 fun i => q i / n := by
        unfold IsUnit4
        have : n ^ 2 ≠ 0 := by positivity
        simp only [div_pow]
        rw [← add_div, ← add_div, ← add_div, ← hn2, div_self this]
      have e1 : (fun i => (![q 1, q 2, q 3, q 0] : Quat) i / n) = ![q 1 / n, q 2 / n, q 3 / n, q 0 / n] := by
        ext i
        fin_cases i <;> rfl
      rw [e1, eulerToMat, fromEuler_asEuler (quat_rotation _ ?_)]
      · exact turns _ hu
      · unfold IsUnit4 at hu
        simp [norm4]
        linarith

/-- Unit quaternions of the same rotation differ at most by their sign. -/
theorem sign {p q : Quat} (hp : IsUnit4 p) (hq : IsUnit4 q) {m : Mat} (h : Turns p m) (h' : Turns q m) : p = q ∨ p = -q := by
  have e : quatAsMatrix ![p 1, p 2, p 3, p 0] = quatAsMatrix ![q 1, q 2, q 3, q 0] := by
    rw [turns_unique (turns p hp) h, turns_unique (turns q hq) h']
  have a := fun i j => congrFun (congrFun e i) j
  have a00 := a 0 0
  have a01 := a 0 1
  have a02 := a 0 2
  have a10 := a 1 0
  have a11 := a 1 1
  have a12 := a 1 2
  have a20 := a 2 0
  have a21 := a 2 1
  have a22 := a 2 2
  simp [quatAsMatrix] at a00 a01 a02 a10 a11 a12 a20 a21 a22
  unfold IsUnit4 at hp hq
  have prod : ∀ i j, p i * p j = q i * q j := by
    intro i j
    fin_cases i <;> fin_cases j <;> simp <;> linarith
  have key : (∑ i, p i * q i) ^ 2 = 1 := by
    have : (∑ i, p i * q i) ^ 2 = ∑ i, ∑ j, (p i * p j) * (q i * q j) := by
      rw [sq, Finset.sum_mul_sum]
      exact Finset.sum_congr rfl fun i _ => Finset.sum_congr rfl fun j _ => by ring
    rw [this]
    simp only [prod]
    have : ∑ i, ∑ j, q i * q j * (q i * q j) = (∑ i, q i ^ 2) ^ 2 := by
      rw [sq, Finset.sum_mul_sum]
      exact Finset.sum_congr rfl fun i _ => Finset.sum_congr rfl fun j _ => by ring
    rw [this]
    have : ∑ i, q i ^ 2 = 1 := by
      simp [Fin.sum_univ_succ]
      linarith
    rw [this, one_pow]
  have hps : ∑ i, p i ^ 2 = 1 := by
    simp [Fin.sum_univ_succ]
    linarith
  have hqs : ∑ i, q i ^ 2 = 1 := by
    simp [Fin.sum_univ_succ]
    linarith
  rcases mul_self_eq_one_iff.1 ((sq _).symm.trans key) with hk | hk
  · left
    have : ∑ i, (p i - q i) ^ 2 = 0 := by
      simp only [sub_sq, Finset.sum_add_distrib, Finset.sum_sub_distrib, mul_assoc, ← Finset.mul_sum, hps, hqs, hk]
      ring
    rw [Finset.sum_eq_zero_iff_of_nonneg fun _ _ => sq_nonneg _] at this
    ext i
    have := this i (Finset.mem_univ i)
    simp at this
    linarith
  · right
    have : ∑ i, (p i + q i) ^ 2 = 0 := by
      simp only [add_sq, Finset.sum_add_distrib, mul_assoc, ← Finset.mul_sum, hps, hqs, hk]
      ring
    rw [Finset.sum_eq_zero_iff_of_nonneg fun _ _ => sq_nonneg _] at this
    ext i
    have := this i (Finset.mem_univ i)
    simp at this
    simp
    linarith

/-- C174. A unit quaternion converted to angles and back is the same up to its sign. -/
theorem C174_round_trip (q : Quat) (hq : IsUnit4 q) : ∃ e, quatToEuler q = some e ∧ (eulerToQuat e = q ∨ eulerToQuat e = -q) := by
  obtain ⟨h1, h2⟩ := C174_quat_to_euler q
  cases h : quatToEuler q with
  | none =>
    rw [h1.1 h] at hq
    simp [IsUnit4] at hq
  | some e =>
    refine ⟨e, rfl, ?_⟩
    obtain ⟨n, hn, hn2, ht⟩ := h2 e h
    have : n = 1 := by
      have : n ^ 2 = 1 := by
        rw [hn2]
        unfold IsUnit4 at hq
        simp [Fin.sum_univ_succ]
        linarith
      nlinarith
    subst this
    simp only [div_one] at ht
    obtain ⟨k1, k2⟩ := C174_euler_to_quat e
    exact sign k1 hq k2 ht

example : IsUnit4 ![1 / 2, 1 / 2, -1 / 2, 1 / 2] := by
  simp [IsUnit4]
  norm_num

/-- C174. Arrays with one quaternion or one vector of angles per column are converted column by column. -/
theorem C174_columns {n : ℕ} :
    (∀ (e : Fin 3 → Fin n → ℝ) (j : Fin n), (fun i => eulerToQuatBatch e i j) = eulerToQuat fun k => e k j) ∧
    (∀ (q : Fin 4 → Fin n → ℝ) r, quatToEulerBatch q = some r → ∀ j, quatToEuler (fun i => q i j) = some fun i => r i j) ∧
    ∀ q : Fin 4 → Fin n → ℝ, quatToEulerBatch q = none ↔ ∃ j, ∀ i, q i j = 0 := by
  refine ⟨fun e j => rfl, fun q r h j => ?_, fun q => ?_⟩
  · unfold quatToEulerBatch at h
    simp only at h
    split at h
    · rename_i hs
      have := hs j
      rw [Option.isSome_iff_exists] at this
      obtain ⟨m, hm⟩ := this
      rw [← Option.some.inj h]
      simp only [quatToEuler, hm, Option.map_some, Option.getD_some]
    · simp at h
  · have key : ∀ j, (fromQuat ![q 1 j, q 2 j, q 3 j, q 0 j]).isSome = false ↔ ∀ i, q i j = 0 := by
      intro j
      have := (C174_quat_to_euler fun i => q i j).1
      unfold quatToEuler at this
      rw [Option.map_eq_none_iff] at this
      rw [Option.isSome_eq_false_iff, Option.isNone_iff_eq_none, this, funext_iff]
      rfl
    unfold quatToEulerBatch
    simp only
    constructor
    · intro h
      split at h
      · simp at h
      · rename_i hs
        push Not at hs
        obtain ⟨j, hj⟩ := hs
        exact ⟨j, (key j).1 (by simpa using hj)⟩
    · rintro ⟨j, hj⟩
      rw [if_neg]
      intro hs
      have := hs j
      rw [(key j).2 hj] at this
      simp at this

example : ∃ (q : Fin 4 → Fin 2 → ℝ) (r : Fin 3 → Fin 2 → ℝ), quatToEulerBatch q = some r := by
  cases h : quatToEulerBatch (n := 2) (fun i j => if i = 0 then 1 else 0) with
  | some r => exact ⟨_, r, h⟩
  | none =>
    obtain ⟨j, hj⟩ := (C174_columns.2.2 _).1 h
    simpa using hj 0

/-- C174 fails for batches of matrices: `euler_to_mat` takes one vector per row, not per column, so that for three vectors at once `euler_to_quat` and `euler_to_mat` silently describe different rotations. -/
theorem C174_rows_refuted : ∃ (e : Fin 3 → Fin 3 → ℝ) (j : Fin 3), ¬ Turns (fun i => eulerToQuatBatch e i j) (eulerToMatBatch e j) := by
  refine ⟨fun i j => if i = 0 ∧ j = 2 then π else 0, 0, fun h => ?_⟩
  have h2 := (C174_euler_to_quat fun _ => 0).2
  have e1 : (fun i => eulerToQuatBatch (n := 3) (fun i j => if i = 0 ∧ j = 2 then π else 0) i 0) = eulerToQuat fun _ => 0 := by
    rw [C174_columns.1]
    simp
  rw [e1] at h
  have := congrFun (congrFun (turns_unique h h2) 0) 0
  simp [eulerToMatBatch, eulerToMat, fromEuler_apply] at this
  norm_num at this

end

end Verif.Utils.Rot
