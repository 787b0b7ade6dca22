/-
Lemmas for C178 with a full covariance.
-/
import Verif.Search.PropsRwr
import Verif.Search.PropsCon
import Mathlib.Topology.Instances.Matrix

namespace Verif.Search.Pgpe

open Matrix MeasureTheory ProbabilityTheory Filter Topology

variable {n : ℕ}

/-- Matrices that converge to a positive definite one are positive definite from some point on. -/
theorem eventually_posDef (M : ℕ → Matrix (Fin n) (Fin n) ℝ) (S : Matrix (Fin n) (Fin n) ℝ) (hS : S.PosDef)
    (hM : ∀ k, (M k).IsHermitian) (h : ∀ a b, Tendsto (fun k => M k a b) atTop (𝓝 (S a b))) : ∀ᶠ k in atTop, (M k).PosDef := by
  have ht : Tendsto M atTop (𝓝 S) := tendsto_pi_nhds.2 fun a => tendsto_pi_nhds.2 fun b => h a b
  have hc : Continuous (fun z : Matrix (Fin n) (Fin n) ℝ × Vec n => z.2 ⬝ᵥ (z.1 *ᵥ z.2)) := by
    refine Continuous.dotProduct continuous_snd ?_
    exact Continuous.matrix_mulVec continuous_fst continuous_snd
  have hK : ∀ᶠ A in 𝓝 S, ∀ x ∈ Metric.sphere (0 : Vec n) 1, 0 < x ⬝ᵥ (A *ᵥ x) := by
    refine (isCompact_sphere (0 : Vec n) 1).eventually_forall_of_forall_eventually (P := fun A x => 0 < x ⬝ᵥ (A *ᵥ x)) fun x hx => ?_
    have hx0 : x ≠ 0 := by
      rintro rfl
      simp at hx
    have : 0 < x ⬝ᵥ (S *ᵥ x) := by simpa using hS.dotProduct_mulVec_pos hx0
    exact (hc.tendsto (S, x)).eventually (lt_mem_nhds this)
  filter_upwards [ht.eventually hK] with k hk
  refine Matrix.PosDef.of_dotProduct_mulVec_pos (hM k) fun y hy => ?_
  have hy0 : ‖y‖ ≠ 0 := norm_ne_zero_iff.2 hy
  have := hk (‖y‖⁻¹ • y) (by simp [norm_smul, hy0])
  rw [mulVec_smul, dotProduct_smul, smul_dotProduct, smul_eq_mul, smul_eq_mul, ← mul_assoc] at this
  simpa using (pos_iff_pos_of_mul_pos this).1 (by positivity)

/-- The logarithm of the determinant touches its tangent at one point only. -/
theorem log_det_lt (A S : Matrix (Fin n) (Fin n) ℝ) (hA : A.PosDef) (hS : S.PosDef) (hne : A ≠ S) :
    Real.log A.det - Real.log S.det < (S⁻¹ * A).trace - n := by
  obtain ⟨B, hB, hu⟩ := exists_root S⁻¹ hS.inv
  set X := B * A * Bᵀ with hX
  have hXp : X.PosDef := by
    have := hA.mul_mul_conjTranspose_same (B := B) (by
      rw [Matrix.vecMul_injective_iff_isUnit, isUnit_iff_isUnit_det]
      exact hu)
    rwa [conjTranspose_eq_transpose_of_trivial] at this
  have htr : (S⁻¹ * A).trace = X.trace := by
    rw [hB, hX, Matrix.mul_assoc, trace_mul_comm, Matrix.mul_assoc]
  have hdet : X.det = S⁻¹.det * A.det := by
    rw [hX, hB, det_mul, det_mul, det_mul, det_transpose]; ring
  have hlog : Real.log X.det = Real.log A.det - Real.log S.det := by
    rw [hdet, Real.log_mul hS.inv.det_pos.ne' hA.det_pos.ne', det_nonsing_inv, Ring.inverse_eq_inv', Real.log_inv]
    ring
  have h1 : X.det = ∏ i, hXp.1.eigenvalues i := hXp.1.det_eq_prod_eigenvalues
  have h2 : X.trace = ∑ i, hXp.1.eigenvalues i := hXp.1.trace_eq_sum_eigenvalues
  have hX1 : X ≠ 1 := by
    intro h
    apply hne
    have hBt : IsUnit Bᵀ.det := by rwa [det_transpose]
    have e1 : A = B⁻¹ * (B * A * Bᵀ) * Bᵀ⁻¹ := by
      rw [Matrix.mul_assoc B A, ← Matrix.mul_assoc B⁻¹, nonsing_inv_mul B hu, Matrix.one_mul, Matrix.mul_assoc,
        mul_nonsing_inv _ hBt, Matrix.mul_one]
    have e2 : S = B⁻¹ * Bᵀ⁻¹ := by
      rw [← Matrix.mul_inv_rev, ← hB, nonsing_inv_nonsing_inv _ (isUnit_iff_ne_zero.2 hS.det_pos.ne')]
    rw [e1, ← hX, h, Matrix.mul_one, e2]
  have hex : ∃ i, hXp.1.eigenvalues i ≠ 1 := by
    by_contra hall
    push Not at hall
    apply hX1
    have hs := hXp.1.spectral_theorem
    have : (RCLike.ofReal ∘ hXp.1.eigenvalues : Fin n → ℝ) = fun _ => 1 := by
      funext i
      simp [hall i]
    rw [this, diagonal_one, map_one] at hs
    exact hs
  rw [← hlog, htr, h1, h2, Real.log_prod (fun i _ => (hXp.eigenvalues_pos i).ne')]
  have : ∑ i, Real.log (hXp.1.eigenvalues i) < ∑ i, (hXp.1.eigenvalues i - 1) := by
    obtain ⟨i, hi⟩ := hex
    exact Finset.sum_lt_sum (fun i _ => Real.log_le_sub_one_of_pos (hXp.eigenvalues_pos i))
      ⟨i, Finset.mem_univ _, Real.log_lt_sub_one_of_pos (hXp.eigenvalues_pos i) hi⟩
  refine this.trans_le (le_of_eq ?_)
  rw [Finset.sum_sub_distrib]
  simp

/-- The divergence is not negative, and zero for equal distributions only. -/
theorem gaussKL_pos (mu m : Vec n) (sigma s : Matrix (Fin n) (Fin n) ℝ) (h1 : sigma.PosDef) (h2 : s.PosDef) :
    0 ≤ gaussKL mu sigma m s ∧ (¬ (mu = m ∧ sigma = s) → 0 < gaussKL mu sigma m s) := by
  have hq : 0 ≤ (m - mu) ⬝ᵥ (s⁻¹ *ᵥ (m - mu)) := by simpa using h2.inv.posSemidef.dotProduct_mulVec_nonneg (m - mu)
  have hl := log_det_le sigma s h1 h2
  unfold gaussKL
  refine ⟨by linarith, fun hne => ?_⟩
  by_cases hm : mu = m
  · have := log_det_lt sigma s h1 h2 (fun h => hne ⟨hm, h⟩)
    linarith
  · have : 0 < (m - mu) ⬝ᵥ (s⁻¹ *ᵥ (m - mu)) := by
      simpa using h2.inv.dotProduct_mulVec_pos (sub_ne_zero.2 (Ne.symm hm))
    linarith

end Verif.Search.Pgpe
