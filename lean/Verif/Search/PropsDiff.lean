/-
Property C95: `diff_log` of the search distributions and of the Gaussian policies is the gradient of the log-density.
-/
import Verif.Search.PropsDist
import Mathlib.Analysis.SpecialFunctions.Log.Deriv
import Mathlib.Analysis.SpecialFunctions.ExpDeriv
import Mathlib.Analysis.Calculus.Deriv.Pow
import Mathlib.Analysis.Calculus.Deriv.Inv

namespace Verif.Search

open Matrix

variable {n : ℕ}

/-! ### Derivatives along a curve -/

theorem quad_deriv (M : Matrix (Fin n) (Fin n) ℝ) (v : ℝ → Vec n) (v' : Vec n) (t : ℝ)
    (hv : ∀ j, HasDerivAt (fun s => v s j) (v' j) t) :
    HasDerivAt (fun s => v s ⬝ᵥ (M *ᵥ v s)) (v' ⬝ᵥ ((M + Mᵀ) *ᵥ v t)) t := by
  have h : HasDerivAt (fun s => ∑ i, v s i * ∑ j, M i j * v s j)
      (∑ i, (v' i * (∑ j, M i j * v t j) + v t i * ∑ j, M i j * v' j)) t :=
    HasDerivAt.fun_sum (fun i _ => (hv i).mul (HasDerivAt.fun_sum (fun j _ => (hv j).const_mul (M i j))))
  refine h.congr_deriv ?_
  have h2 : ∑ i, v t i * ∑ j, M i j * v' j = ∑ i, v' i * ∑ j, M j i * v t j := by
    simp only [Finset.mul_sum]
    rw [Finset.sum_comm]
    exact Finset.sum_congr rfl (fun i _ => Finset.sum_congr rfl (fun j _ => by ring))
  rw [Finset.sum_add_distrib, h2, ← Finset.sum_add_distrib]
  simp only [dotProduct, mulVec, Matrix.add_apply, transpose_apply, add_mul, Finset.sum_add_distrib, mul_add]

theorem logPdf_mean_deriv (a : Vec n) (sigma : Matrix (Fin n) (Fin n) ℝ) (m : ℝ → Vec n) (m' : Vec n) (t : ℝ)
    (hm : ∀ j, HasDerivAt (fun s => m s j) (m' j) t) :
    HasDerivAt (fun s => logPdf a (m s) sigma) ((1 / 2) * (m' ⬝ᵥ ((sigma⁻¹ + (sigma⁻¹)ᵀ) *ᵥ (a - m t)))) t := by
  have hv : ∀ j, HasDerivAt (fun s => (a - m s) j) ((-m') j) t := fun j => (hm j).const_sub (a j)
  have h := ((quad_deriv sigma⁻¹ (fun s => a - m s) (-m') t hv).const_add
    (n * Real.log (2 * Real.pi) + Real.log sigma.det)).const_mul (-(1 / 2))
  refine h.congr_deriv ?_
  rw [neg_dotProduct]
  ring

theorem logPdf_diagonal (a m v : Vec n) (hv : ∀ j, v j ≠ 0) :
    logPdf a m (Matrix.diagonal v) =
      -(1 / 2) * (n * Real.log (2 * Real.pi) + ∑ j, Real.log (v j) + ∑ j, (a j - m j) ^ 2 / v j) := by
  have hi : (Matrix.diagonal v)⁻¹ = Matrix.diagonal (fun j => 1 / v j) := by
    apply Matrix.inv_eq_right_inv
    rw [Matrix.diagonal_mul_diagonal]
    rw [← Matrix.diagonal_one]
    congr 1
    funext j
    simp [hv j]
  unfold logPdf
  rw [hi, det_diagonal, Real.log_prod (fun j _ => hv j)]
  congr 2
  simp only [dotProduct, mulVec_diagonal, Pi.sub_apply]
  exact Finset.sum_congr rfl (fun j _ => by ring)

theorem logPdf_curve_deriv (a : Vec n) (m v : ℝ → Vec n) (m' v' : Vec n) (t : ℝ) (hm : ∀ j, HasDerivAt (fun s => m s j) (m' j) t)
    (hv : ∀ j, HasDerivAt (fun s => v s j) (v' j) t) (h0 : ∀ j, v t j ≠ 0) :
    HasDerivAt (fun s => logPdf a (m s) (Matrix.diagonal (v s)))
      (∑ j, ((a j - m t j) / v t j * m' j + (1 / 2) * ((a j - m t j) ^ 2 / v t j ^ 2 - 1 / v t j) * v' j)) t := by
  have he : ∀ᶠ s in nhds t, ∀ j, v s j ≠ 0 := by
    rw [Filter.eventually_all]
    exact fun j => (hv j).continuousAt.eventually_ne (h0 j)
  have h1 : HasDerivAt (fun s => -(1 / 2) * (n * Real.log (2 * Real.pi) + ∑ j, Real.log (v s j) +
      ∑ j, (a j - m s j) ^ 2 / v s j))
      (-(1 / 2) * ((∑ j, v' j / v t j) + ∑ j, ((((2 : ℕ) : ℝ) * (a j - m t j) ^ (2 - 1) * (-m' j)) * v t j -
        (a j - m t j) ^ 2 * v' j) / v t j ^ 2)) t := by
    refine HasDerivAt.const_mul _ (HasDerivAt.fun_add (HasDerivAt.const_add _ (HasDerivAt.fun_sum (fun j _ => ?_)))
      (HasDerivAt.fun_sum (fun j _ => ?_)))
    · exact (hv j).log (h0 j)
    · exact (((hm j).const_sub (a j)).fun_pow 2).fun_div (hv j) (h0 j)
  refine (h1.congr_of_eventuallyEq (he.mono (fun s hs => logPdf_diagonal _ _ _ hs))).congr_deriv ?_
  rw [← Finset.sum_add_distrib, Finset.mul_sum]
  refine Finset.sum_congr rfl (fun j _ => ?_)
  have := h0 j
  field_simp
  push_cast
  ring

theorem update_deriv {ι : Type} [DecidableEq ι] (x : ι → ℝ) (i j : ι) :
    HasDerivAt (fun s => Function.update x i s j) (if j = i then 1 else 0) (x i) := by
  by_cases h : j = i
  · subst h
    simpa using hasDerivAt_id' (x j)
  · simp only [Function.update_of_ne h, if_neg h]
    exact hasDerivAt_const _ _

/-! ### Policies -/

/-- C95. `diff_log` of the Gaussian policy is the gradient of the log-density of the action with respect to the weights of the
mean, for any differentiable regressor and any covariance. -/
theorem C95_gaussian_policy {p : ℕ} (mu : Vec p → Vec n) (w : Vec p) (jMu : Matrix (Fin p) (Fin n) ℝ) (hj : IsJacobian mu w jMu)
    (sigma : Matrix (Fin n) (Fin n) ℝ) (action : Vec n) :
    IsGradient (fun w => logPdf action (mu w) sigma) w (gaussDiffLog (mu w) jMu sigma⁻¹ action) := by
  intro i
  have h := logPdf_mean_deriv action sigma (fun s => mu (Function.update w i s)) (jMu i) (w i) (fun j => hj i j)
  simp only [Function.update_eq_self] at h
  refine h.congr_deriv ?_
  unfold gaussDiffLog
  rw [Pi.smul_apply, smul_eq_mul, ← mulVec_mulVec]
  rfl

/-- C95. The same for the policy with a diagonal covariance: the weights are those of the mean and the standard deviations. -/
theorem C95_diagonal_policy {p : ℕ} (mu : Vec p → Vec n) (w : Vec p) (std : Vec n) (jMu : Matrix (Fin p) (Fin n) ℝ)
    (hj : IsJacobian mu w jMu) (hs : ∀ j, std j ≠ 0) (action : Vec n) :
    IsGradient (fun x : Fin p ⊕ Fin n → ℝ => logPdf action (mu (fun i => x (Sum.inl i)))
      (Matrix.diagonal (fun j => x (Sum.inr j) ^ 2))) (Sum.elim w std) (diagDiffLog (mu w) jMu std action) := by
  rintro (i | i)
  · have h := logPdf_curve_deriv action (fun s => mu (Function.update w i s)) (fun _ j => std j ^ 2) (jMu i) (fun _ => 0) (w i)
      (fun j => hj i j) (fun j => hasDerivAt_const _ _) (fun j => pow_ne_zero 2 (hs j))
    simp only [Function.update_eq_self, mul_zero, add_zero] at h
    have e : (fun s => logPdf action (mu (fun k => Function.update (Sum.elim w std) (Sum.inl i) s (Sum.inl k)))
        (Matrix.diagonal (fun j => Function.update (Sum.elim w std) (Sum.inl i) s (Sum.inr j) ^ 2))) =
        fun s => logPdf action (mu (Function.update w i s)) (Matrix.diagonal (fun j => std j ^ 2)) := by
      funext s
      rw [← Sum.elim_update_left]
      rfl
    show HasDerivAt _ _ (w i)
    rw [e]
    refine h.congr_deriv ?_
    show _ = ((1 / 2 : ℝ) • ((jMu * (Matrix.diagonal (fun j => 1 / std j ^ 2) +
      (Matrix.diagonal (fun j => 1 / std j ^ 2))ᵀ)) *ᵥ (action - mu w)) : Vec p) i
    rw [Pi.smul_apply, smul_eq_mul, diagonal_transpose, diagonal_add, ← mulVec_mulVec]
    rw [mulVec, dotProduct, Finset.mul_sum]
    refine Finset.sum_congr rfl (fun j _ => ?_)
    rw [mulVec_diagonal, Pi.sub_apply]
    ring
  · have h := logPdf_curve_deriv action (fun _ => mu w) (fun s j => Function.update std i s j ^ 2) (fun _ => 0)
      (fun j => if j = i then 2 * std i else 0) (std i)
      (fun j => hasDerivAt_const _ _) (fun j => by
        refine ((update_deriv std i j).fun_pow 2).congr_deriv ?_
        by_cases hji : j = i
        · subst hji; simp
        · simp [hji]) (fun j => by simpa using pow_ne_zero 2 (hs j))
    have e : (fun s => logPdf action (mu (fun k => Function.update (Sum.elim w std) (Sum.inr i) s (Sum.inl k)))
        (Matrix.diagonal (fun j => Function.update (Sum.elim w std) (Sum.inr i) s (Sum.inr j) ^ 2))) =
        fun s => logPdf action (mu w) (Matrix.diagonal (fun j => Function.update std i s j ^ 2)) := by
      funext s
      rw [← Sum.elim_update_right]
      rfl
    show HasDerivAt _ _ (std i)
    rw [e]
    refine h.congr_deriv ?_
    simp only [Function.update_eq_self, mul_zero, zero_add, mul_ite, Finset.sum_ite_eq', Finset.mem_univ, if_true]
    have := hs i
    simp only [diagDiffLog, Sum.elim_inr]
    field_simp
    ring

/-- C95. The same for the policy whose standard deviation is a function of the state, with its own weights; `eps` is added to the
variance. -/
theorem C95_state_std_policy {p q : ℕ} (mu : Vec p → Vec n) (std : Vec q → Vec n) (w : Vec p) (u : Vec q)
    (jMu : Matrix (Fin p) (Fin n) ℝ) (jStd : Matrix (Fin q) (Fin n) ℝ) (hj : IsJacobian mu w jMu) (hk : IsJacobian std u jStd)
    (eps : ℝ) (hs : ∀ j, std u j ^ 2 + eps ≠ 0) (action : Vec n) :
    IsGradient (fun x : Fin p ⊕ Fin q → ℝ => logPdf action (mu (fun i => x (Sum.inl i)))
      (Matrix.diagonal (fun j => std (fun i => x (Sum.inr i)) j ^ 2 + eps))) (Sum.elim w u)
      (stateStdDiffLog (mu w) jMu (std u) jStd eps action) := by
  rintro (i | i)
  · have h := logPdf_curve_deriv action (fun s => mu (Function.update w i s)) (fun _ j => std u j ^ 2 + eps) (jMu i) (fun _ => 0)
      (w i) (fun j => hj i j) (fun j => hasDerivAt_const _ _) hs
    simp only [Function.update_eq_self, mul_zero, add_zero] at h
    have e : (fun s => logPdf action (mu (fun k => Function.update (Sum.elim w u) (Sum.inl i) s (Sum.inl k)))
        (Matrix.diagonal (fun j => std (fun k => Function.update (Sum.elim w u) (Sum.inl i) s (Sum.inr k)) j ^ 2 + eps))) =
        fun s => logPdf action (mu (Function.update w i s)) (Matrix.diagonal (fun j => std u j ^ 2 + eps)) := by
      funext s
      rw [← Sum.elim_update_left]
      rfl
    show HasDerivAt _ _ (w i)
    rw [e]
    refine h.congr_deriv ?_
    show _ = ((jMu * Matrix.diagonal (fun j => 1 / (std u j ^ 2 + eps))) *ᵥ (action - mu w)) i
    rw [← mulVec_mulVec]
    rw [mulVec, dotProduct]
    refine Finset.sum_congr rfl (fun j _ => ?_)
    rw [mulVec_diagonal, Pi.sub_apply]
    ring
  · have h := logPdf_curve_deriv action (fun _ => mu w) (fun s j => std (Function.update u i s) j ^ 2 + eps) (fun _ => 0)
      (fun j => 2 * std u j * jStd i j) (u i)
      (fun j => hasDerivAt_const _ _) (fun j => by
        refine (((hk i j).fun_pow 2).add_const eps).congr_deriv ?_
        simp) (fun j => by simpa using hs j)
    have e : (fun s => logPdf action (mu (fun k => Function.update (Sum.elim w u) (Sum.inr i) s (Sum.inl k)))
        (Matrix.diagonal (fun j => std (fun k => Function.update (Sum.elim w u) (Sum.inr i) s (Sum.inr k)) j ^ 2 + eps))) =
        fun s => logPdf action (mu w) (Matrix.diagonal (fun j => std (Function.update u i s) j ^ 2 + eps)) := by
      funext s
      rw [← Sum.elim_update_right]
      rfl
    show HasDerivAt _ _ (u i)
    rw [e]
    refine h.congr_deriv ?_
    simp only [Function.update_eq_self, mul_zero, zero_add]
    show _ = ((fun j => ((action j - mu w j) ^ 2 - (std u j ^ 2 + eps)) * std u j / (std u j ^ 2 + eps) ^ 2) ᵥ* jStdᵀ) i
    rw [vecMul, dotProduct]
    refine Finset.sum_congr rfl (fun j _ => ?_)
    have := hs j
    rw [transpose_apply]
    field_simp

/-- C95. The same for the policy whose logarithm of the standard deviation is a function of the state. -/
theorem C95_state_log_std_policy {p q : ℕ} (mu : Vec p → Vec n) (logStd : Vec q → Vec n) (w : Vec p) (u : Vec q)
    (jMu : Matrix (Fin p) (Fin n) ℝ) (jLog : Matrix (Fin q) (Fin n) ℝ) (hj : IsJacobian mu w jMu) (hk : IsJacobian logStd u jLog)
    (action : Vec n) :
    IsGradient (fun x : Fin p ⊕ Fin q → ℝ => logPdf action (mu (fun i => x (Sum.inl i)))
      (Matrix.diagonal (fun j => Real.exp (logStd (fun i => x (Sum.inr i)) j) ^ 2))) (Sum.elim w u)
      (stateLogStdDiffLog (mu w) jMu (logStd u) jLog action) := by
  have hs : ∀ j, Real.exp (logStd u j) ^ 2 ≠ 0 := fun j => pow_ne_zero 2 (Real.exp_ne_zero _)
  rintro (i | i)
  · have h := logPdf_curve_deriv action (fun s => mu (Function.update w i s)) (fun _ j => Real.exp (logStd u j) ^ 2) (jMu i)
      (fun _ => 0) (w i) (fun j => hj i j) (fun j => hasDerivAt_const _ _) hs
    simp only [Function.update_eq_self, mul_zero, add_zero] at h
    have e : (fun s => logPdf action (mu (fun k => Function.update (Sum.elim w u) (Sum.inl i) s (Sum.inl k)))
        (Matrix.diagonal (fun j => Real.exp (logStd (fun k => Function.update (Sum.elim w u) (Sum.inl i) s (Sum.inr k)) j) ^ 2))) =
        fun s => logPdf action (mu (Function.update w i s)) (Matrix.diagonal (fun j => Real.exp (logStd u j) ^ 2)) := by
      funext s
      rw [← Sum.elim_update_left]
      rfl
    show HasDerivAt _ _ (w i)
    rw [e]
    refine h.congr_deriv ?_
    show _ = ((jMu * Matrix.diagonal (fun j => 1 / Real.exp (logStd u j) ^ 2)) *ᵥ (action - mu w)) i
    rw [← mulVec_mulVec]
    rw [mulVec, dotProduct]
    refine Finset.sum_congr rfl (fun j _ => ?_)
    rw [mulVec_diagonal, Pi.sub_apply]
    ring
  · have h := logPdf_curve_deriv action (fun _ => mu w) (fun s j => Real.exp (logStd (Function.update u i s) j) ^ 2) (fun _ => 0)
      (fun j => 2 * Real.exp (logStd u j) ^ 2 * jLog i j) (u i)
      (fun j => hasDerivAt_const _ _) (fun j => by
        refine (((hk i j).exp).fun_pow 2).congr_deriv ?_
        simp
        ring) (fun j => by simpa using hs j)
    have e : (fun s => logPdf action (mu (fun k => Function.update (Sum.elim w u) (Sum.inr i) s (Sum.inl k)))
        (Matrix.diagonal (fun j => Real.exp (logStd (fun k => Function.update (Sum.elim w u) (Sum.inr i) s (Sum.inr k)) j) ^ 2))) =
        fun s => logPdf action (mu w) (Matrix.diagonal (fun j => Real.exp (logStd (Function.update u i s) j) ^ 2)) := by
      funext s
      rw [← Sum.elim_update_right]
      rfl
    show HasDerivAt _ _ (u i)
    rw [e]
    refine h.congr_deriv ?_
    simp only [Function.update_eq_self, mul_zero, zero_add]
    show _ = ((fun j => (action j - mu w j) ^ 2 / Real.exp (logStd u j) ^ 2) ᵥ* jLogᵀ) i - ∑ j, jLogᵀ j i
    rw [vecMul, dotProduct, ← Finset.sum_sub_distrib]
    refine Finset.sum_congr rfl (fun j _ => ?_)
    have := hs j
    rw [transpose_apply]
    field_simp

/-- C95. The weights written to the policies with two parts are the concatenation that is read back. -/
theorem C95_weights (a b weights : List ℝ) : splitWeights a.length (joinWeights a b) = (a, b) ∧
    joinWeights (splitWeights a.length weights).1 (splitWeights a.length weights).2 = weights := by
  simp [splitWeights, joinWeights]

/-! ### Distributions -/

/-- The log-density of a sample, as a function of the vector of parameters given to `set_parameters`. -/
noncomputable def gaussLik (g : Gauss n) (theta : Vec n) (rho : List ℝ) : ℝ :=
  match g.set rho with
  | some g' => logPdf theta g'.mu g'.sigma
  | none => 0

/-- The same for the diagonal distribution. -/
noncomputable def diagLik (g : Diag n) (theta : Vec n) (rho : List ℝ) : ℝ :=
  match g.set rho with
  | some g' => logPdf theta g'.mu g'.sigma
  | none => 0

/-- The same for the Cholesky distribution. -/
noncomputable def cholLik (g : Chol n) (theta : Vec n) (rho : List ℝ) : ℝ :=
  match g.set rho with
  | some g' => logPdf theta g'.mu g'.sigma
  | none => 0

theorem ofFn_set (v : Vec n) (i : Fin n) (y : ℝ) : (List.ofFn v).set i y = List.ofFn (Function.update v i y) := by
  apply List.ext_getElem
  · simp
  · intro k h1 h2
    have hk : k < n := by simpa using h2
    simp only [List.getElem_set, List.getElem_ofFn, Function.update_apply, Fin.ext_iff]
    by_cases h : (i : ℕ) = k
    · rw [if_pos h, if_pos h.symm]
    · rw [if_neg h, if_neg (Ne.symm h)]

/-- C95. `diff_log` of the Gaussian distribution is the gradient of the log-density of the sample with respect to the parameters,
for a symmetric covariance. -/
theorem C95_gauss (g : Gauss n) (mu : Vec n) (sigma : Matrix (Fin n) (Fin n) ℝ) (hg : Gauss.new mu sigma = some g)
    (hs : sigma.IsSymm) (theta : Vec n) :
    IsGradientList (gaussLik g theta) g.get (List.ofFn (g.diffLog theta)) := by
  unfold Gauss.new at hg
  split at hg
  · simp at hg
  · simp only [Option.some.injEq] at hg
    subst hg
    refine ⟨by simp [Gauss.get], fun k hk => ?_⟩
    have hk' : k < n := by simpa [Gauss.get] using hk
    have e : (fun y => gaussLik ⟨mu, sigma, sigma⁻¹⟩ theta ((Gauss.get ⟨mu, sigma, sigma⁻¹⟩).set k y)) =
        fun y => logPdf theta (Function.update mu ⟨k, hk'⟩ y) sigma := by
      funext y
      have : (Gauss.get ⟨mu, sigma, sigma⁻¹⟩).set k y = List.ofFn (Function.update mu ⟨k, hk'⟩ y) := ofFn_set mu ⟨k, hk'⟩ y
      unfold gaussLik Gauss.set
      rw [this, if_pos (by simp)]
      simp
    rw [e]
    have h := logPdf_mean_deriv theta sigma (fun y => Function.update mu ⟨k, hk'⟩ y) _ (mu ⟨k, hk'⟩)
      (fun j => update_deriv mu ⟨k, hk'⟩ j)
    have hx : (Gauss.get ⟨mu, sigma, sigma⁻¹⟩).getD k 0 = mu ⟨k, hk'⟩ := getD_ofFn mu ⟨k, hk'⟩
    have hy : (List.ofFn (Gauss.diffLog ⟨mu, sigma, sigma⁻¹⟩ theta)).getD k 0 = _ := getD_ofFn _ ⟨k, hk'⟩
    rw [hx, hy]
    refine h.congr_deriv ?_
    have hsi : (sigma⁻¹)ᵀ = sigma⁻¹ := by rw [transpose_nonsing_inv, hs.eq]
    rw [hsi, Function.update_eq_self, dotProduct]
    simp only [ite_mul, one_mul, zero_mul, Finset.sum_ite_eq', Finset.mem_univ, if_true]
    rw [add_mulVec, Pi.add_apply]
    unfold Gauss.diffLog
    ring

/-- C95. The same for the diagonal distribution, with standard deviations different from zero. -/
theorem C95_diag (g : Diag n) (hs : ∀ j, g.std j ≠ 0) (theta : Vec n) :
    IsGradientList (diagLik g theta) g.get
      (List.ofFn (fun j => g.diffLog theta (Sum.inl j)) ++ List.ofFn (fun j => g.diffLog theta (Sum.inr j))) := by
  have lik : ∀ m s : Vec n, diagLik g theta (List.ofFn m ++ List.ofFn s) = logPdf theta m (Matrix.diagonal (fun j => s j ^ 2)) := by
    intro m s
    unfold diagLik Diag.set
    rw [if_pos (by simp; omega), List.take_left' (by simp), List.drop_left' (by simp)]
    simp [Diag.sigma]
  refine ⟨by simp [Diag.get], fun k hk => ?_⟩
  have hk2 : k < n + n := by simpa [Diag.get] using hk
  by_cases hkn : k < n
  · have e : (fun y => diagLik g theta (g.get.set k y)) =
        fun y => logPdf theta (Function.update g.mu ⟨k, hkn⟩ y) (Matrix.diagonal (fun j => g.std j ^ 2)) := by
      funext y
      rw [← lik, ← ofFn_set, Diag.get, List.set_append_left _ _ (by simpa using hkn)]
    have hx : g.get.getD k 0 = g.mu ⟨k, hkn⟩ := by
      rw [Diag.get, List.getD_append _ _ _ _ (by simpa using hkn)]
      exact getD_ofFn g.mu ⟨k, hkn⟩
    rw [e, hx, List.getD_append _ _ _ _ (by simpa using hkn)]
    rw [getD_ofFn (fun j => g.diffLog theta (Sum.inl j)) ⟨k, hkn⟩]
    have h := logPdf_curve_deriv theta (fun y => Function.update g.mu ⟨k, hkn⟩ y) (fun _ j => g.std j ^ 2) _ (fun _ => 0)
      (g.mu ⟨k, hkn⟩) (fun j => update_deriv g.mu ⟨k, hkn⟩ j) (fun j => hasDerivAt_const _ _) (fun j => pow_ne_zero 2 (hs j))
    refine h.congr_deriv ?_
    simp [Diag.diffLog]
  · have hk' : k - n < n := by omega
    have e : (fun y => diagLik g theta (g.get.set k y)) =
        fun y => logPdf theta g.mu (Matrix.diagonal (fun j => Function.update g.std ⟨k - n, hk'⟩ y j ^ 2)) := by
      funext y
      rw [← lik, ← ofFn_set, Diag.get, List.set_append_right _ _ (by simp; omega)]
      simp
    have hx : g.get.getD k 0 = g.std ⟨k - n, hk'⟩ := by
      rw [Diag.get, List.getD_append_right _ _ _ _ (by simp; omega)]
      simpa using getD_ofFn g.std ⟨k - n, hk'⟩
    rw [e, hx, List.getD_append_right _ _ _ _ (by simp; omega), List.length_ofFn]
    rw [getD_ofFn (fun j => g.diffLog theta (Sum.inr j)) ⟨k - n, hk'⟩]
    set i : Fin n := ⟨k - n, hk'⟩
    have h := logPdf_curve_deriv theta (fun _ => g.mu) (fun s j => Function.update g.std i s j ^ 2) (fun _ => 0)
      (fun j => if j = i then 2 * g.std i else 0) (g.std i)
      (fun j => hasDerivAt_const _ _) (fun j => by
        refine ((update_deriv g.std i j).fun_pow 2).congr_deriv ?_
        by_cases hji : j = i
        · subst hji; simp
        · simp [hji]) (fun j => by simpa using pow_ne_zero 2 (hs j))
    refine h.congr_deriv ?_
    simp only [Function.update_eq_self, mul_zero, zero_add, mul_ite, Finset.sum_ite_eq', Finset.mem_univ, if_true]
    have := hs i
    simp only [Diag.diffLog, Sum.elim_inr]
    field_simp

theorem chol_inv (L : Matrix (Fin n) (Fin n) ℝ) : (L * Lᵀ)⁻¹ = (L⁻¹)ᵀ * L⁻¹ := by
  rw [Matrix.mul_inv_rev, transpose_nonsing_inv]

theorem quad_chol (L : Matrix (Fin n) (Fin n) ℝ) (x : Vec n) : x ⬝ᵥ ((L * Lᵀ)⁻¹ *ᵥ x) = ∑ k, (L⁻¹ *ᵥ x) k ^ 2 := by
  rw [chol_inv, ← mulVec_mulVec, dotProduct_mulVec, ← mulVec_transpose, transpose_transpose]
  simp only [dotProduct, sq]

theorem det_lower (L : Matrix (Fin n) (Fin n) ℝ) (hl : ∀ i j, i < j → L i j = 0) : L.det = ∏ i, L i i :=
  det_of_lowerTriangular _ (fun i j h => hl i j h)

theorem log_det_chol (L : Matrix (Fin n) (Fin n) ℝ) (hl : ∀ i j, i < j → L i j = 0) (hd : ∀ i, L i i ≠ 0) :
    Real.log (L * Lᵀ).det = ∑ i, 2 * Real.log (L i i) := by
  rw [det_mul, det_transpose, det_lower L hl, ← sq, Real.log_pow, Real.log_prod (fun i _ => hd i), Finset.mul_sum]
  norm_num

/-- The inverse of a lower triangular matrix has the inverse diagonal. -/
theorem inv_diag (L : Matrix (Fin n) (Fin n) ℝ) (hl : ∀ i j, i < j → L i j = 0) (hd : ∀ i, L i i ≠ 0) (i : Fin n) :
    L⁻¹ i i = 1 / L i i := by
  have hu : IsUnit L.det := by
    rw [det_lower L hl]
    exact isUnit_iff_ne_zero.2 (Finset.prod_ne_zero_iff.2 (fun i _ => hd i))
  have hbt : BlockTriangular L (OrderDual.toDual) := fun a b h => hl a b h
  haveI : Invertible L := invertibleOfIsUnitDet L hu
  have hbi : BlockTriangular L⁻¹ (OrderDual.toDual) := blockTriangular_inv_of_blockTriangular hbt
  have h1 : (L⁻¹ * L) i i = 1 := by rw [nonsing_inv_mul L hu]; simp
  rw [Matrix.mul_apply, Finset.sum_eq_single i] at h1
  · exact eq_one_div_of_mul_eq_one_left h1
  · intro k _ hki
    rcases lt_or_gt_of_ne hki with h | h
    · rw [hl k i h, mul_zero]
    · rw [hbi (show OrderDual.toDual k < OrderDual.toDual i from h), zero_mul]
  · simp

theorem writeEntry_apply (L : Matrix (Fin n) (Fin n) ℝ) (i j a b : Fin n) (y : ℝ) :
    writeEntry L ((i, j), y) a b = if (a, b) = (i, j) then y else L a b := rfl

/-- The solution of the system with one entry changed. -/
theorem solve_writeEntry (L : Matrix (Fin n) (Fin n) ℝ) (hu : IsUnit L.det) (i j : Fin n) (y : ℝ) (x : Vec n)
    (hm : 1 + (y - L i j) * L⁻¹ j i ≠ 0) (hu' : IsUnit (writeEntry L ((i, j), y)).det) :
    (writeEntry L ((i, j), y))⁻¹ *ᵥ x =
      fun k => (L⁻¹ *ᵥ x) k - ((y - L i j) * (L⁻¹ *ᵥ x) j / (1 + (y - L i j) * L⁻¹ j i)) * L⁻¹ k i := by
  set s := y - L i j with hs
  set z := L⁻¹ *ᵥ x with hz
  set c := s * z j / (1 + s * L⁻¹ j i) with hc
  have hsplit : ∀ v : Vec n, writeEntry L ((i, j), y) *ᵥ v = fun a => (L *ᵥ v) a + if a = i then s * v j else 0 := by
    intro v
    funext a
    simp only [mulVec, dotProduct, writeEntry_apply]
    have : ∀ b, (if (a, b) = (i, j) then y else L a b) * v b = L a b * v b + if b = j then (if a = i then s * v j else 0) else 0 := by
      intro b
      by_cases hb : b = j
      · subst hb
        by_cases ha : a = i
        · subst ha; simp [hs]; ring
        · simp [ha]
      · simp [hb]
    simp only [this, Finset.sum_add_distrib, Finset.sum_ite_eq', Finset.mem_univ, if_true]
  have key : writeEntry L ((i, j), y) *ᵥ (fun k => z k - c * L⁻¹ k i) = x := by
    rw [hsplit]
    funext a
    have h1 : L *ᵥ (fun k => z k - c * L⁻¹ k i) = fun a => x a - c * (1 : Matrix (Fin n) (Fin n) ℝ) a i := by
      have e1 : L *ᵥ z = x := by rw [hz, mulVec_mulVec, mul_nonsing_inv L hu, one_mulVec]
      have e2 : L *ᵥ (fun k => L⁻¹ k i) = fun a => (1 : Matrix (Fin n) (Fin n) ℝ) a i := by
        rw [← mul_nonsing_inv L hu]
        funext a
        rw [Matrix.mul_apply]
        rfl
      have : (fun k => z k - c * L⁻¹ k i) = z - c • (fun k => L⁻¹ k i) := by funext k; simp
      rw [this, mulVec_sub, mulVec_smul, e1, e2]
      funext a
      simp
    rw [h1]
    by_cases ha : a = i
    · subst ha
      simp only [one_apply_eq, if_true, mul_one]
      rw [hc]
      field_simp
      ring
    · simp [ha]
  calc (writeEntry L ((i, j), y))⁻¹ *ᵥ x
      = (writeEntry L ((i, j), y))⁻¹ *ᵥ (writeEntry L ((i, j), y) *ᵥ (fun k => z k - c * L⁻¹ k i)) := by rw [key]
    _ = _ := by rw [mulVec_mulVec, nonsing_inv_mul _ hu', one_mulVec]

theorem logPdf_chol_deriv (L : Matrix (Fin n) (Fin n) ℝ) (hl : ∀ i j, i < j → L i j = 0) (hd : ∀ i, L i i ≠ 0) (theta mu : Vec n)
    (i j : Fin n) (hij : j ≤ i) :
    HasDerivAt (fun y => logPdf theta mu (writeEntry L ((i, j), y) * (writeEntry L ((i, j), y))ᵀ))
      ((L⁻¹ *ᵥ (theta - mu)) j * (∑ k, (L⁻¹ *ᵥ (theta - mu)) k * L⁻¹ k i) - if j = i then 1 / L i i else 0) (L i j) := by
  have hu : IsUnit L.det := by
    rw [det_lower L hl]
    exact isUnit_iff_ne_zero.2 (Finset.prod_ne_zero_iff.2 (fun i _ => hd i))
  set z := L⁻¹ *ᵥ (theta - mu) with hz
  have hlow : ∀ y a b, a < b → writeEntry L ((i, j), y) a b = 0 := by
    intro y a b hab
    rw [writeEntry_apply, if_neg (by
      intro h
      have h1 := congrArg Prod.fst h
      have h2 := congrArg Prod.snd h
      simp only at h1 h2
      subst h1 h2
      exact absurd hij (not_le.2 hab))]
    exact hl a b hab
  have hdiagd : ∀ k, HasDerivAt (fun y => writeEntry L ((i, j), y) k k) (if k = i ∧ j = i then 1 else 0) (L i j) := by
    intro k
    simp only [writeEntry_apply]
    by_cases h : (k, k) = (i, j)
    · have h1 := congrArg Prod.fst h
      have h2 := congrArg Prod.snd h
      simp only at h1 h2
      simp only [h, if_true]
      rw [if_pos ⟨h1, by rw [← h2, h1]⟩]
      exact hasDerivAt_id' _
    · simp only [h, if_false]
      rw [if_neg (by rintro ⟨h1, h2⟩; exact h (by rw [h1, h2]))]
      exact hasDerivAt_const _ _
  have hself : writeEntry L ((i, j), L i j) = L := by
    ext a b
    rw [writeEntry_apply]
    by_cases h : (a, b) = (i, j)
    · rw [if_pos h]
      have h1 := congrArg Prod.fst h
      have h2 := congrArg Prod.snd h
      simp only at h1 h2
      rw [h1, h2]
    · rw [if_neg h]
  have hev1 : ∀ᶠ y in nhds (L i j), ∀ k, writeEntry L ((i, j), y) k k ≠ 0 := by
    rw [Filter.eventually_all]
    exact fun k => (hdiagd k).continuousAt.eventually_ne (by rw [hself]; exact hd k)
  have hmd : HasDerivAt (fun y => 1 + (y - L i j) * L⁻¹ j i) (L⁻¹ j i) (L i j) := by
    simpa using (((hasDerivAt_id' (L i j)).sub_const (L i j)).mul_const (L⁻¹ j i)).const_add 1
  have hev2 : ∀ᶠ y in nhds (L i j), 1 + (y - L i j) * L⁻¹ j i ≠ 0 := hmd.continuousAt.eventually_ne (by simp)
  have hform : ∀ᶠ y in nhds (L i j), logPdf theta mu (writeEntry L ((i, j), y) * (writeEntry L ((i, j), y))ᵀ) =
      -(1 / 2) * (n * Real.log (2 * Real.pi) + ∑ k, 2 * Real.log (writeEntry L ((i, j), y) k k) +
        ∑ k, (z k - ((y - L i j) * z j / (1 + (y - L i j) * L⁻¹ j i)) * L⁻¹ k i) ^ 2) := by
    filter_upwards [hev1, hev2] with y h1 h2
    have hu' : IsUnit (writeEntry L ((i, j), y)).det := by
      rw [det_lower _ (hlow y)]
      exact isUnit_iff_ne_zero.2 (Finset.prod_ne_zero_iff.2 (fun i _ => h1 i))
    unfold logPdf
    rw [quad_chol, log_det_chol _ (hlow y) h1, solve_writeEntry L hu i j y _ h2 hu']
  have hc : HasDerivAt (fun y => (y - L i j) * z j / (1 + (y - L i j) * L⁻¹ j i)) (z j) (L i j) := by
    have := (((hasDerivAt_id' (L i j)).sub_const (L i j)).mul_const (z j)).fun_div hmd (by simp)
    refine this.congr_deriv ?_
    simp
  have hD : HasDerivAt (fun y => -(1 / 2) * (n * Real.log (2 * Real.pi) + ∑ k, 2 * Real.log (writeEntry L ((i, j), y) k k) +
        ∑ k, (z k - ((y - L i j) * z j / (1 + (y - L i j) * L⁻¹ j i)) * L⁻¹ k i) ^ 2))
      (-(1 / 2) * ((∑ k, 2 * ((if k = i ∧ j = i then 1 else 0) / writeEntry L ((i, j), L i j) k k)) +
        ∑ k, ((2 : ℕ) : ℝ) * (z k - ((L i j - L i j) * z j / (1 + (L i j - L i j) * L⁻¹ j i)) * L⁻¹ k i) ^ (2 - 1) *
          (-(z j * L⁻¹ k i)))) (L i j) := by
    refine HasDerivAt.const_mul _ (HasDerivAt.fun_add (HasDerivAt.const_add _ (HasDerivAt.fun_sum (fun k _ => ?_)))
      (HasDerivAt.fun_sum (fun k _ => ?_)))
    · exact ((hdiagd k).log (by rw [hself]; exact hd k)).const_mul 2
    · exact ((hc.mul_const (L⁻¹ k i)).const_sub (z k)).fun_pow 2
  refine (hD.congr_of_eventuallyEq hform).congr_deriv ?_
  rw [hself]
  simp only [sub_self, zero_mul, zero_div, sub_zero, Nat.add_one_sub_one, pow_one]
  have e1 : ∑ k, 2 * ((if k = i ∧ j = i then (1 : ℝ) else 0) / L k k) = 2 * if j = i then 1 / L i i else 0 := by
    rw [Finset.sum_eq_single i]
    · by_cases h : j = i <;> simp [h]
    · intro k _ hk
      simp [hk]
    · simp
  have e2 : ∑ k, ((2 : ℕ) : ℝ) * z k * -(z j * L⁻¹ k i) = -2 * (z j * ∑ k, z k * L⁻¹ k i) := by
    rw [Finset.mul_sum, Finset.mul_sum]
    exact Finset.sum_congr rfl (fun k _ => by push_cast; ring)
  rw [e1, e2]
  ring

theorem writeTril_set (L : Matrix (Fin n) (Fin n) ℝ) (idx : List (Fin n × Fin n)) (hn : idx.Nodup) (k : ℕ) (hk : k < idx.length)
    (y : ℝ) : writeTril L idx ((idx.map (fun p => L p.1 p.2)).set k y) = writeEntry L (idx[k], y) := by
  ext a b
  by_cases hmem : (a, b) ∈ idx
  · obtain ⟨m, hm, he⟩ := List.mem_iff_getElem.1 hmem
    have hr := read_writeTril L idx hn ((idx.map (fun p => L p.1 p.2)).set k y) (by simp)
    have h2 := congrArg (fun l => l[m]?) hr
    simp only [List.getElem?_map, List.getElem?_eq_getElem hm, Option.map_some, he] at h2
    rw [List.getElem?_set, List.length_map, List.getElem?_map, List.getElem?_eq_getElem hm] at h2
    show _ = if (a, b) = idx[k] then y else L a b
    by_cases hkm : k = m
    · subst hkm
      simp only [if_true, if_pos hk, Option.some.injEq] at h2
      rw [h2, if_pos he.symm]
    · simp only [if_neg hkm, Option.map_some, he, Option.some.injEq] at h2
      rw [h2, if_neg (fun h => hkm ((hn.getElem_inj_iff).1 (he.trans h).symm))]
  · rw [writeTril_of_not_mem _ _ _ _ _ hmem]
    show _ = if (a, b) = idx[k] then y else L a b
    rw [if_neg (fun h : (a, b) = idx[k] => hmem (h ▸ List.getElem_mem hk))]

/-- C95. The same for the Cholesky distribution, with a lower triangular factor without zeros on the diagonal. -/
theorem C95_chol (g : Chol n) (hl : ∀ i j, i < j → g.chol i j = 0) (hd : ∀ i, g.chol i i ≠ 0) (theta : Vec n) :
    IsGradientList (cholLik g theta) g.get (g.diffLog theta) := by
  have lik : ∀ (m : Vec n) (v : List ℝ), v.length = (tril n).length → cholLik g theta (List.ofFn m ++ v) =
      logPdf theta m (writeTril g.chol (tril n) v * (writeTril g.chol (tril n) v)ᵀ) := by
    intro m v hv
    unfold cholLik Chol.set
    rw [if_pos (by rw [List.length_append, List.length_ofFn, hv, length_tril]), List.take_left' (by simp),
      List.drop_left' (by simp)]
    simp [Chol.sigma]
  refine ⟨by simp [Chol.get, Chol.diffLog], fun k hk => ?_⟩
  have hk2 : k < n + (tril n).length := by simpa [Chol.get] using hk
  by_cases hkn : k < n
  · have e : (fun y => cholLik g theta (g.get.set k y)) =
        fun y => logPdf theta (Function.update g.mu ⟨k, hkn⟩ y) (g.chol * g.cholᵀ) := by
      funext y
      rw [Chol.get, List.set_append_left _ _ (by simpa using hkn), ofFn_set g.mu ⟨k, hkn⟩ y, lik _ _ (by simp), writeTril_read]
    have hx : g.get.getD k 0 = g.mu ⟨k, hkn⟩ := by
      rw [Chol.get, List.getD_append _ _ _ _ (by simpa using hkn)]
      exact getD_ofFn g.mu ⟨k, hkn⟩
    rw [e, hx, Chol.diffLog, List.getD_append _ _ _ _ (by simpa using hkn)]
    rw [getD_ofFn (g.diffLogMean theta) ⟨k, hkn⟩]
    have h := logPdf_mean_deriv theta (g.chol * g.cholᵀ) (fun y => Function.update g.mu ⟨k, hkn⟩ y) _ (g.mu ⟨k, hkn⟩)
      (fun j => update_deriv g.mu ⟨k, hkn⟩ j)
    refine h.congr_deriv ?_
    have hsi : ((g.chol * g.cholᵀ)⁻¹)ᵀ = (g.chol * g.cholᵀ)⁻¹ := by
      rw [chol_inv, transpose_mul, transpose_transpose]
    rw [hsi, Function.update_eq_self, dotProduct]
    simp only [ite_mul, one_mul, zero_mul, Finset.sum_ite_eq', Finset.mem_univ, if_true]
    rw [add_mulVec, Pi.add_apply, chol_inv]
    unfold Chol.diffLogMean
    ring
  · have hk' : k - n < (tril n).length := by omega
    have e : (fun y => cholLik g theta (g.get.set k y)) =
        fun y => logPdf theta g.mu (writeEntry g.chol ((tril n)[k - n], y) * (writeEntry g.chol ((tril n)[k - n], y))ᵀ) := by
      funext y
      rw [Chol.get, List.set_append_right _ _ (by simp; omega), lik _ _ (by simp), List.length_ofFn,
        writeTril_set _ _ nodup_tril _ hk']
    have hx : g.get.getD k 0 = g.chol ((tril n)[k - n]).1 ((tril n)[k - n]).2 := by
      rw [Chol.get, List.getD_append_right _ _ _ _ (by simp; omega), List.length_ofFn, List.getD_eq_getElem _ _ (by simpa using hk')]
      simp
    have hg : (g.diffLog theta).getD k 0 = (g.gCov theta)ᵀ ((tril n)[k - n]).1 ((tril n)[k - n]).2 := by
      rw [Chol.diffLog, List.getD_append_right _ _ _ _ (by simp; omega), List.length_ofFn,
        List.getD_eq_getElem _ _ (by simpa using hk')]
      simp
    rw [e, hx, hg]
    have hmem : (tril n)[k - n] ∈ tril n := List.getElem_mem hk'
    generalize (tril n)[k - n] = p at hmem
    obtain ⟨i, j⟩ := p
    have hij : j ≤ i := mem_tril.1 hmem
    refine (logPdf_chol_deriv g.chol hl hd theta g.mu i j hij).congr_deriv ?_
    show _ = (g.chol⁻¹ *ᵥ (theta - g.mu)) j * ((theta - g.mu) ᵥ* ((g.chol⁻¹)ᵀ * g.chol⁻¹)) i -
      if j = i then g.chol⁻¹ j j else 0
    congr 1
    · congr 1
      rw [← vecMul_vecMul, ← mulVec_transpose ((g.chol⁻¹)ᵀ), transpose_transpose]
      rfl
    · by_cases h : j = i
      · subst h
        simp only [if_true]
        rw [inv_diag g.chol hl hd]
      · simp [h]

/-! ### The hypotheses are met -/

example : Gauss.new (fun _ => 0) !![2, 1; 1, 2] = some ⟨fun _ => 0, !![2, 1; 1, 2], !![2, 1; 1, 2]⁻¹⟩ ∧
    (!![2, 1; 1, 2] : Matrix (Fin 2) (Fin 2) ℝ).IsSymm := by
  refine ⟨if_neg (by norm_num [det_fin_two]), ?_⟩
  ext i j
  fin_cases i <;> fin_cases j <;> rfl

example : (∀ i j : Fin 2, i < j → (!![2, 0; 1, 3] : Matrix (Fin 2) (Fin 2) ℝ) i j = 0) ∧
    ∀ i, (!![2, 0; 1, 3] : Matrix (Fin 2) (Fin 2) ℝ) i i ≠ 0 := by
  constructor
  · intro i j h; fin_cases i <;> fin_cases j <;> simp_all
  · intro i; fin_cases i <;> norm_num

/-- A linear regressor has its features as Jacobian. -/
example (phi : Matrix (Fin 3) (Fin 2) ℝ) (w : Vec 3) : IsJacobian (fun w => w ᵥ* phi) w phi := by
  intro i k
  have : HasDerivAt (fun y => ∑ a, Function.update w i y a * phi a k) (∑ a, (if a = i then 1 else 0) * phi a k) (w i) :=
    HasDerivAt.fun_sum (fun a _ => (update_deriv w i a).mul_const _)
  exact this.congr_deriv (by simp)

end Verif.Search
