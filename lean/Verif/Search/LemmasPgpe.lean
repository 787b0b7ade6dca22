/-
Lemmas for C177: derivatives of expectations for the normal distribution with respect to its parameters.
-/
import Verif.Search.PropsNormal
import Mathlib.Probability.Moments.MGFAnalytic

namespace Verif.Search.Pgpe

open Matrix MeasureTheory ProbabilityTheory Filter Topology

/-! ### Exponential families -/

section Tilt

variable {E : Type} [MeasurableSpace E] {μ : Measure E}

theorem tilt_pos (w X : E → ℝ) (hw : Measurable w) (hw0 : ∀ x, 0 ≤ w x) (U : Set ℝ) (hU : IsOpen U)
    (hint : ∀ a ∈ U, Integrable (fun x => w x * Real.exp (a * X x)) μ) (a : ℝ) (ha : a ∈ U) :
    HasDerivAt (fun a => ∫ x, w x * Real.exp (a * X x) ∂μ) (∫ x, w x * (X x * Real.exp (a * X x)) ∂μ) a ∧
      Integrable (fun x => w x * (X x * Real.exp (a * X x))) μ := by
  have hm : Measurable (fun x => (w x).toNNReal) := hw.real_toNNReal
  have hsub : U ⊆ integrableExpSet X (μ.withDensity (fun x => ((w x).toNNReal : ENNReal))) := by
    intro b hb
    change Integrable _ _
    rw [integrable_withDensity_iff_integrable_smul hm]
    simpa [NNReal.smul_def, Real.coe_toNNReal _ (hw0 _)] using hint b hb
  have hin : a ∈ interior (integrableExpSet X (μ.withDensity (fun x => ((w x).toNNReal : ENNReal)))) :=
    interior_mono hsub (by rwa [hU.interior_eq])
  have h1 := hasDerivAt_integral_pow_mul_exp_real hin 0
  have h2 := integrable_pow_mul_exp_of_mem_interior_integrableExpSet hin 1
  rw [integrable_withDensity_iff_integrable_smul hm] at h2
  simp only [integral_withDensity_eq_integral_smul hm, NNReal.smul_def, Real.coe_toNNReal _ (hw0 _), smul_eq_mul, pow_zero, one_mul,
    zero_add, pow_one] at h1 h2
  exact ⟨h1, h2⟩

/-- The derivative of the expectation of a bounded function for an exponential family. -/
theorem tilt (w X g : E → ℝ) (hw : Measurable w) (hw0 : ∀ x, 0 ≤ w x) (hg : Measurable g) (C : ℝ) (hC : ∀ x, |g x| ≤ C)
    (U : Set ℝ) (hU : IsOpen U) (hint : ∀ a ∈ U, Integrable (fun x => w x * Real.exp (a * X x)) μ) (a : ℝ) (ha : a ∈ U) :
    HasDerivAt (fun a => ∫ x, w x * (Real.exp (a * X x) * g x) ∂μ) (∫ x, w x * (X x * Real.exp (a * X x) * g x) ∂μ) a := by
  have hb : ∀ f : E → ℝ, Integrable f μ → Integrable (fun x => (g x + C) * f x) μ := by
    intro f hf
    refine hf.bdd_mul (c := C + C) (by fun_prop) (ae_of_all _ fun x => ?_)
    have := abs_le.1 (hC x)
    rw [Real.norm_eq_abs, abs_le]
    constructor <;> linarith
  have hg0 : ∀ x, 0 ≤ g x + C := fun x => by have := abs_le.1 (hC x); linarith
  have e1 : ∀ a x, w x * (g x + C) * Real.exp (a * X x) = (g x + C) * (w x * Real.exp (a * X x)) := fun a x => by ring
  have e2 : ∀ a x, w x * (g x + C) * (X x * Real.exp (a * X x)) = (g x + C) * (w x * (X x * Real.exp (a * X x))) :=
    fun a x => by ring
  have h1 := tilt_pos w X hw hw0 U hU hint a ha
  have h2 := tilt_pos (μ := μ) (fun x => w x * (g x + C)) X (by fun_prop) (fun x => mul_nonneg (hw0 x) (hg0 x)) U hU
    (fun b hb' => by simp only [e1]; exact hb _ (hint b hb')) a ha
  have h3 := h2.1.sub (h1.1.const_mul C)
  have hv : ∫ x, w x * (g x + C) * (X x * Real.exp (a * X x)) ∂μ - C * ∫ x, w x * (X x * Real.exp (a * X x)) ∂μ =
      ∫ x, w x * (X x * Real.exp (a * X x) * g x) ∂μ := by
    rw [← integral_const_mul, ← integral_sub h2.2 (h1.2.const_mul C)]
    exact integral_congr_ae (ae_of_all _ fun x => by ring)
  rw [hv] at h3
  refine h3.congr_of_eventuallyEq ?_
  filter_upwards [hU.mem_nhds ha] with b hb'
  simp only [Pi.sub_apply]
  rw [← integral_const_mul, ← integral_sub (by simp only [e1]; exact hb _ (hint b hb')) ((hint b hb').const_mul C)]
  exact integral_congr_ae (ae_of_all _ fun x => by ring)

/-- The derivative for a change of scale. -/
theorem scale_grad (P D f : E → ℝ) (hP : Measurable P) (hP0 : ∀ x, 0 ≤ P x) (hf : Measurable f) (C : ℝ) (hC : ∀ x, |f x| ≤ C)
    (σ : ℝ) (hσ : 0 < σ) (hint : ∀ a < 1 / (2 * σ ^ 2), Integrable (fun x => P x * Real.exp (a * D x)) μ) :
    HasDerivAt (fun y => σ / y * ∫ x, P x * (Real.exp ((1 / (2 * σ ^ 2) - 1 / (2 * y ^ 2)) * D x) * f x) ∂μ)
      (∫ x, P x * ((D x / σ ^ 3 - 1 / σ) * f x) ∂μ) σ := by
  have h0' : (0 : ℝ) < 1 / (2 * σ ^ 2) := by positivity
  have h1 := tilt P D f hP hP0 hf C hC (Set.Iio (1 / (2 * σ ^ 2))) isOpen_Iio hint 0 h0'
  have h1' := tilt_pos P D hP hP0 (Set.Iio (1 / (2 * σ ^ 2))) isOpen_Iio hint 0 h0'
  have h2 : HasDerivAt (fun y : ℝ => 1 / (2 * σ ^ 2) - 1 / (2 * y ^ 2)) (1 / σ ^ 3) σ := by
    have := ((((hasDerivAt_id σ).fun_pow 2).const_mul 2).fun_inv (by simp [hσ.ne'])).const_sub (1 / (2 * σ ^ 2))
    simp only [one_div] at this ⊢
    refine this.congr_deriv ?_
    simp
    field_simp
  have h3 : HasDerivAt (fun y : ℝ => σ / y) (-(1 / σ)) σ := by
    have := (hasDerivAt_inv hσ.ne').const_mul σ
    simp only [div_eq_mul_inv]
    refine this.congr_deriv ?_
    field_simp
  have h0 : (0 : ℝ) = 1 / (2 * σ ^ 2) - 1 / (2 * σ ^ 2) := by ring
  have h4 := h3.fun_mul (HasDerivAt.comp σ (h₂ := fun a => ∫ x, P x * (Real.exp (a * D x) * f x) ∂μ)
    (h := fun y : ℝ => 1 / (2 * σ ^ 2) - 1 / (2 * y ^ 2)) (by rw [← h0]; exact h1) h2)
  have hfi : ∀ g : E → ℝ, Integrable g μ → Integrable (fun x => f x * g x) μ := fun g hg =>
    hg.bdd_mul (c := C) (by fun_prop) (ae_of_all _ fun x => by simpa using hC x)
  have i1 := hfi _ (hint 0 h0')
  have i2 := hfi _ h1'.2
  refine h4.congr_deriv ?_
  have e1 : ∫ x, P x * ((D x / σ ^ 3 - 1 / σ) * f x) ∂μ =
      (1 / σ ^ 3) * (∫ x, P x * (D x * Real.exp (0 * D x) * f x) ∂μ) - (1 / σ) * ∫ x, P x * (Real.exp (0 * D x) * f x) ∂μ := by
    rw [← integral_const_mul, ← integral_const_mul, ← integral_sub]
    · refine integral_congr_ae (ae_of_all _ fun x => ?_)
      simp only [zero_mul, Real.exp_zero]
      ring
    · exact (i2.const_mul (1 / σ ^ 3)).congr (ae_of_all _ fun x => by simp only; ring)
    · exact (i1.const_mul (1 / σ)).congr (ae_of_all _ fun x => by simp only; ring)
  rw [e1]
  simp only [Function.comp_apply, sub_self, div_self hσ.ne']
  ring

end Tilt

variable {n : ℕ}

theorem measurable_logPdf (m : Vec n) (s : Matrix (Fin n) (Fin n) ℝ) : Measurable (fun x => Real.exp (logPdf x m s)) := by
  unfold logPdf
  simp only [dotProduct, mulVec, Pi.sub_apply]
  fun_prop

theorem posDef_symm (s : Matrix (Fin n) (Fin n) ℝ) (hs : s.PosDef) : (s⁻¹)ᵀ = s⁻¹ := by
  have h := hs.isHermitian.inv
  rw [IsHermitian, conjTranspose_eq_transpose_of_trivial] at h
  exact h

/-- The density for another mean. -/
theorem logPdf_shift (m : Vec n) (s : Matrix (Fin n) (Fin n) ℝ) (hs : s.PosDef) (j : Fin n) (y : ℝ) (x : Vec n) :
    logPdf x (Function.update m j y) s =
      logPdf x m s + ((y - m j) * (s⁻¹ *ᵥ (x - m)) j - (y - m j) ^ 2 * s⁻¹ j j / 2) := by
  have hv : x - Function.update m j y = (x - m) - (y - m j) • Pi.single j 1 := by
    funext k
    by_cases hk : k = j
    · subst hk; simp
    · simp [hk]
  have hsym : (x - m) ⬝ᵥ (s⁻¹ *ᵥ Pi.single j 1) = (s⁻¹ *ᵥ (x - m)) j := by
    rw [dotProduct_mulVec, ← mulVec_transpose, posDef_symm s hs]
    simp
  have hq : (x - Function.update m j y) ⬝ᵥ (s⁻¹ *ᵥ (x - Function.update m j y)) =
      (x - m) ⬝ᵥ (s⁻¹ *ᵥ (x - m)) - 2 * ((y - m j) * (s⁻¹ *ᵥ (x - m)) j) + (y - m j) ^ 2 * s⁻¹ j j := by
    rw [hv, mulVec_sub, sub_dotProduct, dotProduct_sub, dotProduct_sub, mulVec_smul, dotProduct_smul, hsym, smul_dotProduct,
      smul_dotProduct, dotProduct_smul]
    simp
    ring
  unfold logPdf
  rw [hq]
  ring

/-- The derivative of an expectation with respect to a component of the mean. -/
theorem mean_grad (m : Vec n) (s : Matrix (Fin n) (Fin n) ℝ) (hs : s.PosDef) (f : Vec n → ℝ) (hf : Measurable f) (C : ℝ)
    (hC : ∀ x, |f x| ≤ C) (j : Fin n) :
    HasDerivAt (fun y => mean (Function.update m j y) s f) (mean m s (fun x => (s⁻¹ *ᵥ (x - m)) j * f x)) (m j) := by
  have hshift : ∀ t x, Real.exp (logPdf x (Function.update m j (m j + t)) s) =
      Real.exp (-(t ^ 2 * s⁻¹ j j / 2)) * (Real.exp (logPdf x m s) * Real.exp (t * (s⁻¹ *ᵥ (x - m)) j)) := by
    intro t x
    rw [logPdf_shift m s hs, ← Real.exp_add, ← Real.exp_add]
    congr 1
    rw [add_sub_cancel_left]
    ring
  have hint : ∀ t ∈ (Set.univ : Set ℝ), Integrable (fun x => Real.exp (logPdf x m s) * Real.exp (t * (s⁻¹ *ᵥ (x - m)) j)) := by
    intro t _
    have h := ((normal_one (Function.update m j (m j + t)) s hs 1).1).const_mul (Real.exp (t ^ 2 * s⁻¹ j j / 2))
    refine h.congr (ae_of_all _ fun x => ?_)
    simp only [mul_one, hshift]
    rw [← mul_assoc, ← Real.exp_add, add_neg_cancel, Real.exp_zero, one_mul]
  have h1 := tilt (μ := volume) (fun x => Real.exp (logPdf x m s)) (fun x => (s⁻¹ *ᵥ (x - m)) j) f (measurable_logPdf m s)
    (fun x => (Real.exp_pos _).le) hf C hC Set.univ isOpen_univ hint 0 (Set.mem_univ _)
  have h2 : HasDerivAt (fun t : ℝ => Real.exp (-(t ^ 2 * s⁻¹ j j / 2))) 0 0 := by
    have := (((((hasDerivAt_id (0 : ℝ)).pow 2).mul_const (s⁻¹ j j)).div_const 2).neg).exp
    simpa using this
  have h3 := h2.mul h1
  have h4 : HasDerivAt (fun t => mean (Function.update m j (m j + t)) s f)
      (mean m s (fun x => (s⁻¹ *ᵥ (x - m)) j * f x)) 0 := by
    have e1 : (mean m s fun x => (s⁻¹ *ᵥ (x - m)) j * f x) =
        (0 * ∫ x, Real.exp (logPdf x m s) * (Real.exp (0 * (s⁻¹ *ᵥ (x - m)) j) * f x)) +
          Real.exp (-(0 ^ 2 * s⁻¹ j j / 2)) *
            ∫ x, Real.exp (logPdf x m s) * ((s⁻¹ *ᵥ (x - m)) j * Real.exp (0 * (s⁻¹ *ᵥ (x - m)) j) * f x) := by
      simp [mean]
    rw [e1]
    refine h3.congr_of_eventuallyEq (Eventually.of_forall fun t => ?_)
    simp only [Pi.mul_apply, mean, hshift]
    rw [← integral_const_mul]
    exact integral_congr_ae (ae_of_all _ fun x => by ring)
  have h5 := HasDerivAt.comp_sub_const (m j) (m j) (f := fun t => mean (Function.update m j (m j + t)) s f) (by simpa using h4)
  simpa using h5

/-- The density for another standard deviation. -/
theorem logPdf_scale (m v : Vec n) (hv : ∀ k, 0 < v k) (j : Fin n) (y : ℝ) (hy : 0 < y) (x : Vec n) :
    logPdf x m (Matrix.diagonal (fun k => Function.update v j y k ^ 2)) =
      logPdf x m (Matrix.diagonal (fun k => v k ^ 2)) +
        (Real.log (v j / y) + (1 / (2 * v j ^ 2) - 1 / (2 * y ^ 2)) * (x j - m j) ^ 2) := by
  have hu : ∀ k, 0 < Function.update v j y k := by
    intro k
    by_cases hk : k = j
    · subst hk; simpa
    · simpa [hk] using hv k
  rw [logPdf_diagonal x m _ (fun k => (pow_pos (hu k) 2).ne'), logPdf_diagonal x m _ (fun k => (pow_pos (hv k) 2).ne')]
  have h1 : ∑ k, Real.log (Function.update v j y k ^ 2) = ∑ k, Real.log (v k ^ 2) - 2 * Real.log (v j / y) := by
    rw [← Finset.add_sum_erase _ _ (Finset.mem_univ j), ← Finset.add_sum_erase (a := j) _ (fun k => Real.log (v k ^ 2)) (Finset.mem_univ j)]
    rw [Finset.sum_congr rfl (g := fun k => Real.log (v k ^ 2)) (fun k hk => by simp [Finset.ne_of_mem_erase hk])]
    rw [Real.log_div (hv j).ne' hy.ne']
    simp
    ring
  have h2 : ∑ k, (x k - m k) ^ 2 / Function.update v j y k ^ 2 =
      ∑ k, (x k - m k) ^ 2 / v k ^ 2 - 2 * ((1 / (2 * v j ^ 2) - 1 / (2 * y ^ 2)) * (x j - m j) ^ 2) := by
    rw [← Finset.add_sum_erase _ _ (Finset.mem_univ j),
      ← Finset.add_sum_erase (a := j) _ (fun k => (x k - m k) ^ 2 / v k ^ 2) (Finset.mem_univ j)]
    rw [Finset.sum_congr rfl (g := fun k => (x k - m k) ^ 2 / v k ^ 2) (fun k hk => by simp [Finset.ne_of_mem_erase hk])]
    simp only [Function.update_self]
    ring
  rw [h1, h2]
  ring

theorem posDef_diagonal (v : Vec n) (hv : ∀ k, 0 < v k) : (Matrix.diagonal (fun k => v k ^ 2)).PosDef :=
  PosDef.diagonal (fun k => pow_pos (hv k) 2)

theorem exp_scale (m v : Vec n) (hv : ∀ k, 0 < v k) (j : Fin n) (y : ℝ) (hy : 0 < y) (x : Vec n) :
    Real.exp (logPdf x m (Matrix.diagonal (fun k => Function.update v j y k ^ 2))) =
      v j / y * (Real.exp (logPdf x m (Matrix.diagonal (fun k => v k ^ 2))) *
        Real.exp ((1 / (2 * v j ^ 2) - 1 / (2 * y ^ 2)) * (x j - m j) ^ 2)) := by
  rw [logPdf_scale m v hv j y hy, Real.exp_add, Real.exp_add, Real.exp_log (div_pos (hv j) hy)]
  ring

/-- The derivative of an expectation with respect to a standard deviation. -/
theorem std_grad (m v : Vec n) (hv : ∀ k, 0 < v k) (f : Vec n → ℝ) (hf : Measurable f) (C : ℝ) (hC : ∀ x, |f x| ≤ C) (j : Fin n) :
    HasDerivAt (fun y => mean m (Matrix.diagonal (fun k => Function.update v j y k ^ 2)) f)
      (mean m (Matrix.diagonal (fun k => v k ^ 2)) (fun x => ((x j - m j) ^ 2 / v j ^ 3 - 1 / v j) * f x)) (v j) := by
  have hj := hv j
  have hint : ∀ a < 1 / (2 * v j ^ 2), Integrable (fun x =>
      Real.exp (logPdf x m (Matrix.diagonal (fun k => v k ^ 2))) * Real.exp (a * (x j - m j) ^ 2)) := by
    intro a ha
    have hb : 0 < 1 / (2 * v j ^ 2) - a := sub_pos.2 ha
    obtain ⟨y, hy, hya⟩ : ∃ y : ℝ, 0 < y ∧ 1 / (2 * v j ^ 2) - 1 / (2 * y ^ 2) = a := by
      refine ⟨(Real.sqrt (2 * (1 / (2 * v j ^ 2) - a)))⁻¹, by positivity, ?_⟩
      rw [inv_pow, Real.sq_sqrt (by positivity)]
      have h : ∀ b : ℝ, 1 / (2 * (2 * b)⁻¹) = b := by
        intro b
        rw [mul_inv, ← mul_assoc, mul_inv_cancel₀ two_ne_zero, one_mul, one_div, inv_inv]
      rw [h, sub_sub_cancel]
    have hu : ∀ k, 0 < Function.update v j y k := by
      intro k
      by_cases hk : k = j
      · subst hk; simpa
      · simpa [hk] using hv k
    have h := ((normal_one m _ (posDef_diagonal _ hu) 1).1).const_mul (y / v j)
    refine h.congr (ae_of_all _ fun x => ?_)
    simp only [mul_one]
    rw [exp_scale m v hv j y hy, hya, ← mul_assoc]
    have : y / v j * (v j / y) = 1 := by field_simp
    rw [this, one_mul]
  have h5 := (scale_grad (μ := volume) _ (fun x => (x j - m j) ^ 2) f (measurable_logPdf m _) (fun x => (Real.exp_pos _).le) hf C hC
    (v j) hj hint).congr_of_eventuallyEq
      (f₁ := fun y => mean m (Matrix.diagonal (fun k => Function.update v j y k ^ 2)) f) (by
    filter_upwards [lt_mem_nhds hj] with y hy
    unfold mean
    rw [← integral_const_mul]
    refine integral_congr_ae (ae_of_all _ fun x => ?_)
    simp only [exp_scale m v hv j y hy]
    ring)
  exact h5

end Verif.Search.Pgpe
