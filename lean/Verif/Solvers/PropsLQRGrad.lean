/-
Property C86: the gradients of the LQR solver.
-/
import Verif.Solvers.PropsLQR
import Mathlib.Analysis.Calculus.Deriv.Slope
import Mathlib.Analysis.Calculus.Deriv.Add
import Mathlib.Analysis.Calculus.Deriv.Mul
import Mathlib.Topology.Instances.Matrix

namespace Verif.Solvers

noncomputable section

open Matrix Kronecker Filter Topology

variable {n m : ℕ}

theorem lqrP_spec (l : LQR n m) (K : Matrix (Fin m) (Fin n) ℝ) (h : (lqrM l K).det ≠ 0) : IsLqrP l K (lqrP l K) := by
  unfold IsLqrP
  have : vec (lqrP l K) = (lqrM l K)⁻¹.mulVec (vec (lqrL l K)) := by funext ij; rfl
  rw [this, mulVec_mulVec, mul_nonsing_inv _ (isUnit_iff_ne_zero.mpr h), one_mulVec]

theorem kron_add_left (C C' D : Matrix (Fin n) (Fin n) ℝ) : (C + C') ⊗ₖ D = C ⊗ₖ D + C' ⊗ₖ D := add_kronecker _ _ _
theorem kron_add_right (C D D' : Matrix (Fin n) (Fin n) ℝ) : C ⊗ₖ (D + D') = C ⊗ₖ D + C ⊗ₖ D' := kronecker_add _ _ _

/-- The matrix of the system along a line of gains. -/
theorem lqrM_line (l : LQR n m) (K D : Matrix (Fin m) (Fin n) ℝ) (t : ℝ) :
    lqrM l (K + t • D) = lqrM l K + t • lqrDM l K D - (l.gamma * t ^ 2) • ((Dᵀ * l.Bᵀ) ⊗ₖ (Dᵀ * l.Bᵀ)) := by
  unfold lqrM lqrDM
  simp only [transpose_add, transpose_smul, Matrix.add_mul, Matrix.smul_mul, kron_add_left, kron_add_right, smul_kronecker,
    kronecker_smul, smul_add, smul_sub, smul_smul]
  ext i j
  simp only [Matrix.sub_apply, Matrix.add_apply, Matrix.smul_apply, smul_eq_mul]
  ring

theorem lqrL_line (l : LQR n m) (K D : Matrix (Fin m) (Fin n) ℝ) (t : ℝ) :
    lqrL l (K + t • D) = lqrL l K + t • lqrDL l K D + (t ^ 2) • (Dᵀ * l.R * D) := by
  unfold lqrL lqrDL
  simp only [transpose_add, transpose_smul, Matrix.add_mul, Matrix.smul_mul, Matrix.mul_add, Matrix.mul_smul, smul_add,
    smul_smul]
  ext i j
  simp only [Matrix.add_apply, Matrix.smul_apply, smul_eq_mul]
  ring

theorem vec_add (P N : Matrix (Fin n) (Fin n) ℝ) : vec (P + N) = vec P + vec N := rfl
theorem vec_smul (c : ℝ) (P : Matrix (Fin n) (Fin n) ℝ) : vec (c • P) = c • vec P := rfl

/-- Every entry of `P` has the computed derivative along a line of gains. -/
theorem lqrP_deriv (l : LQR n m) (K D : Matrix (Fin m) (Fin n) ℝ) (h : (lqrM l K).det ≠ 0) (i j : Fin n) :
    HasDerivAt (fun t : ℝ => lqrP l (K + t • D) i j) (lqrDP l K D i j) 0 := by
  rw [hasDerivAt_iff_tendsto_slope]
  set p0 := (lqrM l K)⁻¹.mulVec (vec (lqrL l K)) with hp0
  set N := (Dᵀ * l.Bᵀ) ⊗ₖ (Dᵀ * l.Bᵀ) with hN
  set w : ℝ → (Fin n × Fin n → ℝ) := fun t => (vec (lqrDL l K D) - (lqrDM l K D).mulVec p0) +
    t • (vec (Dᵀ * l.R * D) + l.gamma • N.mulVec p0) with hw
  have hM0 : (lqrM l K).mulVec p0 = vec (lqrL l K) := by
    rw [hp0, mulVec_mulVec, mul_nonsing_inv _ (isUnit_iff_ne_zero.mpr h), one_mulVec]
  have hMc : Continuous (fun t : ℝ => lqrM l (K + t • D)) := by
    simp only [lqrM_line]
    fun_prop
  have hM00 : lqrM l (K + (0 : ℝ) • D) = lqrM l K := by rw [zero_smul, add_zero]
  have hdet : ∀ᶠ t : ℝ in 𝓝 0, (lqrM l (K + t • D)).det ≠ 0 := by
    have hc : Continuous (fun t : ℝ => (lqrM l (K + t • D)).det) := hMc.matrix_det
    apply hc.continuousAt.eventually_ne
    rw [hM00]; exact h
  have hinv : Tendsto (fun t : ℝ => (lqrM l (K + t • D))⁻¹) (𝓝 0) (𝓝 (lqrM l K)⁻¹) := by
    have h1 : ContinuousAt (fun X : Matrix (Fin n × Fin n) (Fin n × Fin n) ℝ => X⁻¹) (lqrM l K) := by
      apply continuousAt_matrix_inv
      have : Ring.inverse = (fun x : ℝ => x⁻¹) := by funext x; exact Ring.inverse_eq_inv x
      rw [this]
      exact continuousAt_inv₀ h
    have h2 : Tendsto (fun t : ℝ => lqrM l (K + t • D)) (𝓝 0) (𝓝 (lqrM l K)) := by
      have := hMc.tendsto 0
      rwa [hM00] at this
    exact h1.tendsto.comp h2
  have hwt : Tendsto w (𝓝 0) (𝓝 (w 0)) := by
    have : Continuous w := by rw [hw]; fun_prop
    exact this.tendsto 0
  have hprod : Tendsto (fun t : ℝ => (lqrM l (K + t • D))⁻¹.mulVec (w t) (i, j)) (𝓝 0) (𝓝 ((lqrM l K)⁻¹.mulVec (w 0) (i, j))) := by
    simp only [mulVec, dotProduct]
    apply tendsto_finset_sum
    intro ab _
    apply Tendsto.mul
    · exact ((continuous_apply_apply (i, j) ab).tendsto _).comp hinv
    · exact ((continuous_apply ab).tendsto _).comp hwt
  have hlim : (lqrM l K)⁻¹.mulVec (w 0) (i, j) = lqrDP l K D i j := by
    simp only [hw, zero_smul, add_zero, lqrDP]
    rw [mulVec_sub, ← mulVec_mulVec, ← mulVec_mulVec, ← hp0, Pi.sub_apply, Pi.add_apply, Pi.neg_apply]
    ring
  rw [← hlim]
  apply (hprod.mono_left nhdsWithin_le_nhds).congr'
  filter_upwards [hdet.filter_mono nhdsWithin_le_nhds, self_mem_nhdsWithin] with t ht htne
  have htne' : t ≠ 0 := htne
  rw [slope_def_field, sub_zero, zero_smul, add_zero]
  have hkey : (lqrM l (K + t • D))⁻¹.mulVec (vec (lqrL l (K + t • D))) - p0 = t • (lqrM l (K + t • D))⁻¹.mulVec (w t) := by
    have e1 : p0 = (lqrM l (K + t • D))⁻¹.mulVec ((lqrM l (K + t • D)).mulVec p0) := by
      rw [mulVec_mulVec, nonsing_inv_mul _ (isUnit_iff_ne_zero.mpr ht), one_mulVec]
    conv_lhs => rw [e1]
    rw [← mulVec_sub, ← mulVec_smul]
    congr 1
    rw [lqrL_line, lqrM_line, sub_mulVec, add_mulVec, hM0, smul_mulVec, smul_mulVec, vec_add, vec_add, vec_smul, vec_smul]
    simp only [hw]
    funext ab
    simp only [Pi.sub_apply, Pi.add_apply, Pi.smul_apply, smul_eq_mul, hN]
    ring
  have hk := congrFun hkey (i, j)
  simp only [Pi.sub_apply, Pi.smul_apply, smul_eq_mul] at hk
  have : lqrP l (K + t • D) i j - lqrP l K i j = t * (lqrM l (K + t • D))⁻¹.mulVec (w t) (i, j) := hk
  rw [this]
  field_simp

theorem quad_entries (P : Matrix (Fin n) (Fin n) ℝ) (s : Fin n → ℝ) : quad P s = ∑ i, ∑ j, (s i * s j) * P i j := by
  simp only [quad, dotProduct, mulVec, Finset.mul_sum]
  apply Finset.sum_congr rfl
  intro i _
  apply Finset.sum_congr rfl
  intro j _
  ring

theorem trace_entries (X : Matrix (Fin m) (Fin n) ℝ) (P : Matrix (Fin n) (Fin n) ℝ) (Y : Matrix (Fin n) (Fin m) ℝ) :
    (X * P * Y).trace = ∑ k, ∑ j, ∑ i, (X k i * Y j k) * P i j := by
  simp only [trace, diag_apply, mul_apply, Finset.sum_mul]
  apply Finset.sum_congr rfl
  intro k _
  apply Finset.sum_congr rfl
  intro j _
  apply Finset.sum_congr rfl
  intro i _
  ring

/-- The value changes at the rate computed by the solver when the gain moves in the direction `D`. -/
theorem value_deriv (l : LQR n m) (K D : Matrix (Fin m) (Fin n) ℝ) (Sigma : Matrix (Fin m) (Fin m) ℝ)
    (h : (lqrM l K).det ≠ 0) (s : Fin n → ℝ) :
    HasDerivAt (fun t : ℝ => lqrVGauss l (lqrP l (K + t • D)) Sigma s) (lqrGradEntry l K Sigma s D) 0 := by
  have hq : HasDerivAt (fun t : ℝ => quad (lqrP l (K + t • D)) s) (quad (lqrDP l K D) s) 0 := by
    simp only [quad_entries]
    apply HasDerivAt.fun_sum
    intro i _
    apply HasDerivAt.fun_sum
    intro j _
    exact (lqrP_deriv l K D h i j).const_mul _
  have ht : HasDerivAt (fun t : ℝ => (Sigma * l.Bᵀ * lqrP l (K + t • D) * l.B).trace)
      ((Sigma * l.Bᵀ * lqrDP l K D * l.B).trace) 0 := by
    simp only [trace_entries]
    apply HasDerivAt.fun_sum
    intro k _
    apply HasDerivAt.fun_sum
    intro j _
    apply HasDerivAt.fun_sum
    intro i _
    exact (lqrP_deriv l K D h i j).const_mul _
  have e : (fun t : ℝ => lqrVGauss l (lqrP l (K + t • D)) Sigma s) = fun t =>
      -(quad (lqrP l (K + t • D)) s + (l.gamma * (Sigma * l.Bᵀ * lqrP l (K + t • D) * l.B).trace / (1 - l.gamma) +
        (Sigma * l.R).trace / (1 - l.gamma))) := by
    funext t
    rw [lqrVGauss, lqrV, Matrix.mul_add, trace_add, Matrix.mul_smul, trace_smul, smul_eq_mul, ← Matrix.mul_assoc,
      ← Matrix.mul_assoc]
    ring
  rw [e]
  exact (hq.add (((ht.const_mul l.gamma).div_const (1 - l.gamma)).add_const _)).neg

theorem unitK_single (i : Fin m) (j : Fin n) : unitK i j = Matrix.single i j (1 : ℝ) := by
  ext a b
  simp only [unitK, Matrix.single, Matrix.of_apply, eq_comm]

/-- C86. For one state, and a gain whose value is defined, the solver returns the partial derivatives of the value of the
gaussian policy with respect to every entry of the gain. Missing: for more than one state it raises (`C86_refuted`). -/
theorem C86_gradient_V_partial (l : LQR n m) (K : Matrix (Fin m) (Fin n) ℝ) (Sigma : Matrix (Fin m) (Fin m) ℝ)
    (h : (lqrM l K).det ≠ 0) (s : Fin n → ℝ) :
    ∃ g, lqrGradV l K Sigma [s] = some [g] ∧
      ∀ i j, HasDerivAt (fun t : ℝ => lqrVGauss l (lqrP l (K + t • Matrix.single i j 1)) Sigma s) (g i j) 0 :=
  ⟨_, rfl, fun i j => by rw [← unitK_single]; exact value_deriv l K (unitK i j) Sigma h s⟩

/-- C86. The same for the action value. -/
theorem C86_gradient_Q_partial (l : LQR n m) (K : Matrix (Fin m) (Fin n) ℝ) (Sigma : Matrix (Fin m) (Fin m) ℝ)
    (h : (lqrM l K).det ≠ 0) (hg : l.gamma < 1) (s : Fin n → ℝ) (a : Fin m → ℝ) :
    ∃ g, lqrGradQ l K Sigma [(s, a)] = some [g] ∧
      ∀ i j, HasDerivAt (fun t : ℝ => lqrQGauss l (lqrP l (K + t • Matrix.single i j 1)) Sigma s a) (g i j) 0 := by
  refine ⟨_, rfl, fun i j => ?_⟩
  rw [← unitK_single]
  have e : (fun t : ℝ => lqrQGauss l (lqrP l (K + t • unitK i j)) Sigma s a) = fun t =>
      lqrReward l s a + l.gamma * lqrVGauss l (lqrP l (K + t • unitK i j)) Sigma (lqrNext l s a) := by
    funext t
    have h1 : 1 - l.gamma ≠ 0 := by linarith
    rw [lqrQGauss, (C43_action_value l K _ s).1, lqrVGauss]
    field_simp
    ring
  rw [e]
  exact ((value_deriv l K (unitK i j) Sigma h (lqrNext l s a)).const_mul l.gamma).const_add _

/-- C86. No gradient is returned for two states. -/
theorem C86_refuted (l : LQR n m) (K : Matrix (Fin m) (Fin n) ℝ) (Sigma : Matrix (Fin m) (Fin m) ℝ) (s s' : Fin n → ℝ) :
    lqrGradV l K Sigma [s, s'] = none := by
  simp [lqrGradV]

/-- For the scalar example with gain 1 the closed loop matrix is 0 and `M` is the identity. -/
example : (lqrM exampleLQR (1 : Matrix (Fin 1) (Fin 1) ℝ)).det ≠ 0 ∧ exampleLQR.gamma < 1 := by
  constructor
  · have : lqrM exampleLQR (1 : Matrix (Fin 1) (Fin 1) ℝ) = 1 := by
      simp [lqrM, exampleLQR]
    rw [this]; simp
  · norm_num [exampleLQR]

end

end Verif.Solvers
