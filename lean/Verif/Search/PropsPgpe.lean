/-
Property C177: what PGPE follows.
-/
import Verif.Search.SpecPgpe
import Verif.Search.LemmasPgpe
import Verif.Search.LemmasChol
import Verif.Search.PropsBB
import Verif.Search.PropsConsistent
import Mathlib.MeasureTheory.Function.ConditionalExpectation.PullOut
import Mathlib.Probability.StrongLaw

namespace Verif.Search.Pgpe

open Matrix MeasureTheory ProbabilityTheory Filter Topology

variable {n : ℕ}

/-! ### Expectations -/

theorem integral_normalLaw (m : Vec n) (s : Matrix (Fin n) (Fin n) ℝ) (f : Vec n → ℝ) :
    ∫ x, f x ∂normalLaw m s = mean m s f := by
  unfold normalLaw mean
  have h := integral_withDensity_eq_integral_smul (μ := (volume : Measure (Vec n))) (measurable_logPdf m s).real_toNNReal f
  simp only [NNReal.smul_def, Real.coe_toNNReal _ (Real.exp_pos _).le, smul_eq_mul] at h
  exact h

theorem integrable_normalLaw (m : Vec n) (s : Matrix (Fin n) (Fin n) ℝ) (f : Vec n → ℝ) (h : HasExpect m s f) :
    Integrable f (normalLaw m s) := by
  have h2 := integrable_withDensity_iff_integrable_smul (μ := (volume : Measure (Vec n))) (measurable_logPdf m s).real_toNNReal (g := f)
  simp only [NNReal.smul_def, Real.coe_toNNReal _ (Real.exp_pos _).le, smul_eq_mul] at h2
  exact h2.2 h

theorem performance_eq (m : Vec n) (s : Matrix (Fin n) (Fin n) ℝ) (f : Vec n → ℝ) : performance m s f = mean m s f :=
  integral_normalLaw m s f

/-- The derivatives of the log-density have mean zero: for the mean. -/
theorem mean_score (m : Vec n) (s M : Matrix (Fin n) (Fin n) ℝ) (hs : s.PosDef) (j : Fin n) :
    HasExpect m s (fun x => (M *ᵥ (x - m)) j) ∧ mean m s (fun x => (M *ᵥ (x - m)) j) = 0 := by
  have h := mean_sum (Finset.univ : Finset (Fin n)) m s (fun k x => M j k * (x k - m k))
    (fun k _ => (mean_mul m s (M j k) _ (normal_mean m s hs k).1).1)
  simp only [(mean_mul m s _ _ (normal_mean m s hs _).1).2, (normal_mean m s hs _).2, mul_zero, Finset.sum_const_zero] at h
  exact h

/-- The derivatives of the log-density have mean zero: for the standard deviations. -/
theorem std_score (m v : Vec n) (hv : ∀ k, 0 < v k) (j : Fin n) :
    HasExpect m (Matrix.diagonal (fun k => v k ^ 2)) (fun x => (x j - m j) ^ 2 / v j ^ 3 - 1 / v j) ∧
      mean m (Matrix.diagonal (fun k => v k ^ 2)) (fun x => (x j - m j) ^ 2 / v j ^ 3 - 1 / v j) = 0 := by
  have hs := posDef_diagonal v hv
  have h1 := normal_cov m _ hs j j
  have h2 := mean_mul m _ (1 / v j ^ 3) _ h1.1
  have h3 := normal_one m _ hs (-(1 / v j))
  have h4 := mean_add m _ _ _ h2.1 h3.1
  have he : (fun x : Vec n => 1 / v j ^ 3 * ((x j - m j) * (x j - m j)) + -(1 / v j)) =
      fun x => (x j - m j) ^ 2 / v j ^ 3 - 1 / v j := by
    funext x; ring
  rw [he] at h4
  refine ⟨h4.1, ?_⟩
  rw [h4.2, h2.2, h3.2, h1.2]
  have := (hv j).ne'
  simp only [Matrix.diagonal_apply_eq]
  field_simp
  ring

/-- The components of the gradient for the Cholesky distribution. -/
theorem chol_component (g : Chol n) (hl : ∀ i j, i < j → g.chol i j = 0) (hd : ∀ i, g.chol i i ≠ 0) (k : ℕ) (hk : k < g.get.length) :
    Measurable (fun x => (g.diffLog x).getD k 0) ∧ HasExpect g.mu g.sigma (fun x => (g.diffLog x).getD k 0) ∧
      mean g.mu g.sigma (fun x => (g.diffLog x).getD k 0) = 0 ∧
      ∀ f : Vec n → ℝ, Measurable f → ∀ C, (∀ x, |f x| ≤ C) →
        HasDerivAt (fun y => cholPerformance g f (g.get.set k y)) (mean g.mu g.sigma (fun x => (g.diffLog x).getD k 0 * f x))
          (g.get.getD k 0) := by
  have perf : ∀ (f : Vec n → ℝ) (m : Vec n) (v : List ℝ), v.length = (tril n).length → cholPerformance g f (List.ofFn m ++ v) =
      mean m (writeTril g.chol (tril n) v * (writeTril g.chol (tril n) v)ᵀ) f := by
    intro f m v hv
    unfold cholPerformance Chol.set
    rw [if_pos (by rw [List.length_append, List.length_ofFn, hv, length_tril]), List.take_left' (by simp),
      List.drop_left' (by simp)]
    simp [Chol.sigma, performance_eq]
  have hdet : g.chol.det ≠ 0 := by
    rw [det_lower _ hl]
    exact Finset.prod_ne_zero_iff.2 (fun i _ => hd i)
  have hp : g.sigma.PosDef := posDef_chol g.chol hdet
  have hk2 : k < n + (tril n).length := by simpa [Chol.get] using hk
  by_cases hkn : k < n
  · have hx : g.get.getD k 0 = g.mu ⟨k, hkn⟩ := by
      rw [Chol.get, List.getD_append _ _ _ _ (by simpa using hkn)]
      exact getD_ofFn g.mu ⟨k, hkn⟩
    have hg : ∀ x, (g.diffLog x).getD k 0 = (g.sigma⁻¹ *ᵥ (x - g.mu)) ⟨k, hkn⟩ := by
      intro x
      rw [Chol.diffLog, List.getD_append _ _ _ _ (by simpa using hkn), getD_ofFn (g.diffLogMean x) ⟨k, hkn⟩, Chol.sigma, chol_inv]
      rfl
    simp only [hg, hx]
    refine ⟨?_, (mean_score g.mu g.sigma _ hp _).1, (mean_score g.mu g.sigma _ hp _).2, fun f hf C hC => ?_⟩
    · simp only [mulVec, dotProduct, Pi.sub_apply]
      fun_prop
    · have e : (fun y => cholPerformance g f (g.get.set k y)) = fun y => mean (Function.update g.mu ⟨k, hkn⟩ y) g.sigma f := by
        funext y
        rw [Chol.get, List.set_append_left _ _ (by simpa using hkn), ofFn_set g.mu ⟨k, hkn⟩ y, perf _ _ _ (by simp), writeTril_read]
        rfl
      rw [e]
      exact mean_grad g.mu g.sigma hp f hf C hC _
  · have hk' : k - n < (tril n).length := by omega
    have hx : g.get.getD k 0 = g.chol ((tril n)[k - n]).1 ((tril n)[k - n]).2 := by
      rw [Chol.get, List.getD_append_right _ _ _ _ (by simp; omega), List.length_ofFn, List.getD_eq_getElem _ _ (by simpa using hk')]
      simp
    have hg : ∀ x, (g.diffLog x).getD k 0 = (g.gCov x)ᵀ ((tril n)[k - n]).1 ((tril n)[k - n]).2 := by
      intro x
      rw [Chol.diffLog, List.getD_append_right _ _ _ _ (by simp; omega), List.length_ofFn,
        List.getD_eq_getElem _ _ (by simpa using hk')]
      simp
    have e : ∀ f : Vec n → ℝ, (fun y => cholPerformance g f (g.get.set k y)) =
        fun y => mean g.mu (writeEntry g.chol ((tril n)[k - n], y) * (writeEntry g.chol ((tril n)[k - n], y))ᵀ) f := by
      intro f
      funext y
      rw [Chol.get, List.set_append_right _ _ (by simp; omega), perf _ _ _ (by simp), List.length_ofFn,
        writeTril_set _ _ nodup_tril _ hk']
    have hmem : (tril n)[k - n] ∈ tril n := List.getElem_mem hk'
    simp only [e, hx, hg]
    generalize (tril n)[k - n] = p at hmem
    obtain ⟨i, j⟩ := p
    have hij : j ≤ i := mem_tril.1 hmem
    have hsc : ∀ x, (g.gCov x)ᵀ i j = cholScore g.mu g.chol i j x := by
      intro x
      show (g.chol⁻¹ *ᵥ (x - g.mu)) j * ((x - g.mu) ᵥ* ((g.chol⁻¹)ᵀ * g.chol⁻¹)) i - (if j = i then g.chol⁻¹ j j else 0) = _
      unfold cholScore
      congr 1
      · congr 1
        rw [← vecMul_vecMul, ← mulVec_transpose ((g.chol⁻¹)ᵀ), transpose_transpose]
        rfl
      · by_cases h : j = i
        · subst h
          simp only [if_true]
          rw [inv_diag g.chol hl hd]
        · simp [h]
    simp only [hsc]
    obtain ⟨h1, h2⟩ := chol_score g.mu g.chol hl hd i j hij
    refine ⟨?_, h1, h2, fun f hf C hC => chol_grad g.mu g.chol hl hd i j hij f hf C hC⟩
    unfold cholScore
    simp only [mulVec, dotProduct, Pi.sub_apply]
    fun_prop

/-! ### The limit of the gradient -/

theorem pgpeGrad_eq {α : Type} {d : ℕ} (l : List α) (s : α → Vec d) (J : α → ℝ) (j : Fin d) :
    pgpeGrad (l.map s) (l.map J) j = average l (fun a => s a j * (J a - bestBaseline (l.map (fun a => (s a j, J a))))) := by
  unfold pgpeGrad
  simp only [zipWith_map_map, List.map_map, vmean_map, Function.comp_def]
  rw [baselineOf_map l s J (fun a => fun j => J a * s a j ^ 2) (fun a _ j => mul_comm _ _) j]

section Limit

variable {Ω : Type} [MeasurableSpace Ω] {Pr : Measure Ω} [IsProbabilityMeasure Pr] {m : Vec n} {s : Matrix (Fin n) (Fin n) ℝ}
  {f : Vec n → ℝ} {C : ℝ} {θ : ℕ → Ω → Vec n} {J : ℕ → Ω → ℝ}

theorem Rounds.strongLaw (h : Rounds Pr m s f C θ J) (g : Vec n × ℝ → ℝ) (hg : Measurable g)
    (hi : Integrable (fun ω => g (θ 0 ω, J 0 ω)) Pr) :
    ∀ᵐ ω ∂Pr, Tendsto (fun k => average (List.range k) (fun i => g (θ i ω, J i ω))) atTop (𝓝 (∫ ω, g (θ 0 ω, J 0 ω) ∂Pr)) := by
  have := strong_law_ae_real (μ := Pr) (fun i ω => g (θ i ω, J i ω)) hi (fun i j hij => (h.indep hij).comp hg hg)
    (fun i => (h.same i).comp hg)
  filter_upwards [this] with ω hω
  refine hω.congr (fun k => ?_)
  simp only [average, List.length_range]
  rw [← List.sum_toFinset _ List.nodup_range, List.toFinset_range]

/-- The expected return. -/
theorem Rounds.integral_mul (h : Rounds Pr m s f C θ J) (g : Vec n → ℝ) (hg : Measurable g) (hi : HasExpect m s g) :
    Integrable (fun ω => g (θ 0 ω)) Pr ∧ Integrable (fun ω => g (θ 0 ω) * J 0 ω) Pr ∧
      ∫ ω, g (θ 0 ω) ∂Pr = mean m s g ∧ ∫ ω, g (θ 0 ω) * J 0 ω ∂Pr = mean m s (fun x => g x * f x) := by
  have hmap : ∀ g : Vec n → ℝ, Measurable g → ∫ ω, g (θ 0 ω) ∂Pr = mean m s g := by
    intro g hg
    rw [← integral_normalLaw, ← h.law_eq 0, integral_map (h.measurable_params 0).aemeasurable hg.aestronglyMeasurable]
  have i1 : Integrable (fun ω => g (θ 0 ω)) Pr := by
    have := integrable_normalLaw m s g hi
    rw [← h.law_eq 0] at this
    exact this.comp_measurable (h.measurable_params 0)
  have i2 : Integrable (fun ω => g (θ 0 ω) * J 0 ω) Pr :=
    i1.mul_bdd (c := C) (h.measurable_return 0).aestronglyMeasurable (ae_of_all _ fun ω => by simpa using h.bounded 0 ω)
  refine ⟨i1, i2, hmap g hg, ?_⟩
  have i3 : Integrable (J 0) Pr := by
    refine Integrable.of_bound (h.measurable_return 0).aestronglyMeasurable C (ae_of_all _ fun ω => by simpa using h.bounded 0 ω)
  have hle : MeasurableSpace.comap (θ 0) inferInstance ≤ (inferInstance : MeasurableSpace Ω) := (h.measurable_params 0).comap_le
  have hsm : StronglyMeasurable[MeasurableSpace.comap (θ 0) inferInstance] (fun ω => g (θ 0 ω)) :=
    (hg.comp (comap_measurable (θ 0))).stronglyMeasurable
  have hp := condExp_mul_of_stronglyMeasurable_left (μ := Pr) hsm i2 i3
  rw [← hmap (fun x => g x * f x) (hg.mul h.measurable_expected)]
  calc ∫ ω, g (θ 0 ω) * J 0 ω ∂Pr = ∫ ω, (Pr[(fun ω => g (θ 0 ω)) * J 0 | MeasurableSpace.comap (θ 0) inferInstance]) ω ∂Pr :=
        (integral_condExp hle).symm
    _ = _ := by
        refine integral_congr_ae ?_
        filter_upwards [hp, h.expected] with ω h1 h2
        rw [h1, Pi.mul_apply, h2]

/-- The gradient converges to the expectation of the score times the expected return. -/
theorem Rounds.limit (h : Rounds Pr m s f C θ J) {d : ℕ} (score : Vec n → Vec d) (hm : ∀ j, Measurable fun x => score x j)
    (hi : ∀ j, HasExpect m s (fun x => score x j)) (hz : ∀ j, mean m s (fun x => score x j) = 0) :
    ∀ᵐ ω ∂Pr, ∀ j, Tendsto (fun k => pgpeGrad ((List.range k).map fun i => score (θ i ω)) ((List.range k).map fun i => J i ω) j) atTop
      (𝓝 (mean m s (fun x => score x j * f x))) := by
  have hC : 0 ≤ C := (abs_nonneg _).trans (h.bounded_expected 0)
  refine ae_all_iff.2 (fun j => ?_)
  obtain ⟨i1, i2, e1, e2⟩ := h.integral_mul (fun x => score x j) (hm j) (hi j)
  have l1 := h.strongLaw (fun p => score p.1 j * p.2) (((hm j).comp measurable_fst).mul measurable_snd) i2
  have l2 := h.strongLaw (fun p => score p.1 j) ((hm j).comp measurable_fst) i1
  simp only [e1, e2, hz] at l1 l2
  filter_upwards [l1, l2] with ω h1 h2
  have heq : ∀ k, pgpeGrad ((List.range k).map fun i => score (θ i ω)) ((List.range k).map fun i => J i ω) j =
      average (List.range k) (fun i => score (θ i ω) j * J i ω) -
        bestBaseline ((List.range k).map (fun i => (score (θ i ω) j, J i ω))) * average (List.range k) (fun i => score (θ i ω) j) := by
    intro k
    rw [pgpeGrad_eq, ← average_sub_mul]
    congr 1
    funext i
    ring
  simp only [heq]
  have hzero : Tendsto (fun k => bestBaseline ((List.range k).map (fun i => (score (θ i ω) j, J i ω))) *
      average (List.range k) (fun i => score (θ i ω) j)) atTop (𝓝 0) := by
    refine squeeze_zero_norm (fun k => ?_) (by simpa using (h2.abs).const_mul C)
    rw [norm_mul, Real.norm_eq_abs, Real.norm_eq_abs]
    refine mul_le_mul_of_nonneg_right (bestBaseline_bound _ C hC ?_) (abs_nonneg _)
    intro p hp
    obtain ⟨i, _, rfl⟩ := List.mem_map.1 hp
    exact h.bounded i ω
  simpa using h1.sub hzero

/-- C177 (fixed covariance). Let PGPE search with a Gaussian with a fixed positive definite covariance. The performance, the expected
return of the episodes, has a gradient with respect to the mean. As the number of episodes of an update grows, the gradient that PGPE
gives to its optimizer, with the baseline computed from the same episodes, converges almost surely to it. The expected return need
not be continuous in the parameters. -/
theorem C177_gauss (mu : Vec n) (sigma : Matrix (Fin n) (Fin n) ℝ) (hs : sigma.PosDef) (g : Gauss n)
    (hg : Gauss.new mu sigma = some g) (h : Rounds Pr mu sigma f C θ J) :
    ∫ ω, J 0 ω ∂Pr = performance mu sigma f ∧
    ∃ grad : Vec n, IsGradient (fun mu' => performance mu' sigma f) mu grad ∧
      ∀ᵐ ω ∂Pr, ∀ j, Tendsto (fun k => pgpeGrad ((List.range k).map fun i => g.diffLog (θ i ω)) ((List.range k).map fun i => J i ω) j)
        atTop (𝓝 (grad j)) := by
  have hg' : g = { mu := mu, sigma := sigma, invSigma := sigma⁻¹ } := by
    unfold Gauss.new at hg
    split at hg
    · simp at hg
    · simpa using hg.symm
  subst hg'
  refine ⟨?_, _, fun j => ?_, h.limit (fun x => sigma⁻¹ *ᵥ (x - mu)) (fun j => ?_) (fun j => (mean_score mu sigma sigma⁻¹ hs j).1)
    (fun j => (mean_score mu sigma sigma⁻¹ hs j).2)⟩
  · have := (h.integral_mul (fun _ => 1) measurable_const (normal_one mu sigma hs 1).1).2.2.2
    simpa [performance_eq] using this
  · simp only [performance_eq]
    exact mean_grad mu sigma hs f h.measurable_expected C h.bounded_expected j
  · simp only [mulVec, dotProduct, Pi.sub_apply]
    fun_prop

/-- C177 (diagonal covariance). The same with a Gaussian with a diagonal covariance, for the mean and the standard deviations: the
gradient has first the components for the mean, then those for the standard deviations. -/
theorem C177_diag (g : Diag n) (hs : ∀ j, 0 < g.std j) (h : Rounds Pr g.mu (Matrix.diagonal fun k => g.std k ^ 2) f C θ J) :
    ∫ ω, J 0 ω ∂Pr = performance g.mu (Matrix.diagonal fun k => g.std k ^ 2) f ∧
    ∃ grad : Fin n ⊕ Fin n → ℝ,
      IsGradient (fun rho : Fin n ⊕ Fin n → ℝ => performance (fun k => rho (.inl k)) (Matrix.diagonal fun k => rho (.inr k) ^ 2) f)
        (Sum.elim g.mu g.std) grad ∧
      ∀ᵐ ω ∂Pr, ∀ j, Tendsto (fun k => pgpeGrad
          ((List.range k).map fun i => (fun c : Fin (n + n) => g.diffLog (θ i ω) (finSumFinEquiv.symm c)))
          ((List.range k).map fun i => J i ω) (finSumFinEquiv j))
        atTop (𝓝 (grad j)) := by
  have hp := posDef_diagonal g.std hs
  have hinv : (Matrix.diagonal fun k => g.std k ^ 2)⁻¹ = Matrix.diagonal (fun k => 1 / g.std k ^ 2) := by
    apply Matrix.inv_eq_right_inv
    rw [Matrix.diagonal_mul_diagonal, ← Matrix.diagonal_one]
    congr 1
    funext k
    have := (hs k).ne'
    field_simp
  have hd : ∀ j x, g.diffLog x (.inl j) = ((Matrix.diagonal fun k => g.std k ^ 2)⁻¹ *ᵥ (x - g.mu)) j := by
    intro j x
    rw [hinv, mulVec_diagonal, Diag.diffLog, Sum.elim_inl, Pi.sub_apply]
    ring
  have hsc : ∀ j, HasExpect g.mu (Matrix.diagonal fun k => g.std k ^ 2) (fun x => g.diffLog x j) ∧
      mean g.mu (Matrix.diagonal fun k => g.std k ^ 2) (fun x => g.diffLog x j) = 0 := by
    rintro (j | j)
    · simp only [hd]
      exact mean_score _ _ _ hp j
    · exact std_score g.mu g.std hs j
  refine ⟨?_, fun j => mean g.mu (Matrix.diagonal fun k => g.std k ^ 2) (fun x => g.diffLog x j * f x), ?_, ?_⟩
  · have := (h.integral_mul (fun _ => 1) measurable_const (normal_one g.mu _ hp 1).1).2.2.2
    simpa [performance_eq] using this
  · rintro (j | j)
    · have := mean_grad g.mu _ hp f h.measurable_expected C h.bounded_expected j
      simp only [← hd] at this
      simpa only [performance_eq, Sum.update_elim_inl, Sum.elim_inl, Sum.elim_inr] using this
    · have := std_grad g.mu g.std hs f h.measurable_expected C h.bounded_expected j
      simp only [performance_eq, Sum.update_elim_inr, Sum.elim_inl, Sum.elim_inr]
      exact this
  · have := h.limit (fun x => (fun c : Fin (n + n) => g.diffLog x (finSumFinEquiv.symm c))) (fun c => ?_)
      (fun c => (hsc _).1) (fun c => (hsc _).2)
    · filter_upwards [this] with ω hω j
      simpa using hω (finSumFinEquiv j)
    · generalize finSumFinEquiv.symm c = j
      rcases j with j | j
      · simp only [Diag.diffLog, Sum.elim_inl]
        fun_prop
      · simp only [Diag.diffLog, Sum.elim_inr]
        fun_prop

/-- C177 (Cholesky factor). The same with a Gaussian given by the Cholesky factor of its covariance, for the mean and the entries of
the factor, in the order of `get_parameters`. -/
theorem C177_chol (g : Chol n) (hl : ∀ i j, i < j → g.chol i j = 0) (hd : ∀ i, g.chol i i ≠ 0)
    (h : Rounds Pr g.mu (g.chol * g.cholᵀ) f C θ J) :
    ∫ ω, J 0 ω ∂Pr = cholPerformance g f g.get ∧
    ∃ grad : List ℝ, IsGradientList (cholPerformance g f) g.get grad ∧
      ∀ᵐ ω ∂Pr, ∀ c : Fin g.get.length, Tendsto (fun k => pgpeGrad
          ((List.range k).map fun i => (fun c : Fin g.get.length => (g.diffLog (θ i ω)).getD c 0))
          ((List.range k).map fun i => J i ω) c)
        atTop (𝓝 (grad.getD c 0)) := by
  have hdet : g.chol.det ≠ 0 := by
    rw [det_lower _ hl]
    exact Finset.prod_ne_zero_iff.2 (fun i _ => hd i)
  have hgrad : ∀ k, k < g.get.length → (List.ofFn fun c : Fin g.get.length =>
      mean g.mu g.sigma (fun x => (g.diffLog x).getD c 0 * f x)).getD k 0 = mean g.mu g.sigma (fun x => (g.diffLog x).getD k 0 * f x) := by
    intro k hk
    exact getD_ofFn (fun c : Fin g.get.length => mean g.mu g.sigma (fun x => (g.diffLog x).getD c 0 * f x)) ⟨k, hk⟩
  refine ⟨?_, List.ofFn fun c : Fin g.get.length => mean g.mu g.sigma (fun x => (g.diffLog x).getD c 0 * f x), ⟨by simp, ?_⟩, ?_⟩
  · have h1 := (h.integral_mul (fun _ => 1) measurable_const (normal_one g.mu _ (posDef_chol g.chol hdet) 1).1).2.2.2
    simp only [one_mul] at h1
    rw [h1]
    unfold cholPerformance Chol.set
    rw [if_pos (by rw [Chol.get, List.length_append, List.length_ofFn, List.length_map, length_tril]), Chol.get,
      List.take_left' (by simp), List.drop_left' (by simp), writeTril_read]
    simp [Chol.sigma, performance_eq]
  · intro k hk
    rw [hgrad k hk]
    exact (chol_component g hl hd k hk).2.2.2 f h.measurable_expected C h.bounded_expected
  · have := h.limit (fun x => (fun c : Fin g.get.length => (g.diffLog x).getD c 0)) (fun c => (chol_component g hl hd c c.2).1)
      (fun c => (chol_component g hl hd c c.2).2.1) (fun c => (chol_component g hl hd c c.2).2.2.1)
    filter_upwards [this] with ω hω c
    rw [hgrad c c.2]
    exact hω c

end Limit

/-! ### Examples -/

theorem normalLaw_prob (m : Vec n) (s : Matrix (Fin n) (Fin n) ℝ) (hs : s.PosDef) : IsProbabilityMeasure (normalLaw m s) := by
  have h := isDensity_logPdf m s hs
  constructor
  rw [normalLaw, withDensity_apply _ MeasurableSet.univ, Measure.restrict_univ,
    ← ofReal_integral_eq_lintegral_ofReal h.2.1 (ae_of_all _ fun x => (h.1 x).le), h.2.2.1, ENNReal.ofReal_one]

/-- Episodes whose return depends only on the parameters. -/
theorem rounds_exist (m : Vec n) (s : Matrix (Fin n) (Fin n) ℝ) (hs : s.PosDef) (f : Vec n → ℝ) (hf : Measurable f) (C : ℝ)
    (hC : ∀ x, |f x| ≤ C) :
    ∃ Pr : Measure (ℕ → Vec n), IsProbabilityMeasure Pr ∧ Rounds Pr m s f C (fun i ω => ω i) (fun i ω => f (ω i)) := by
  haveI := normalLaw_prob m s hs
  have hpair : Measurable (fun x : Vec n => (x, f x)) := measurable_id.prodMk hf
  have hmap := fun i => Measure.infinitePi_map_eval (fun _ : ℕ => normalLaw m s) i
  refine ⟨Measure.infinitePi (fun _ => normalLaw m s), inferInstance, fun i => measurable_pi_apply i,
    fun i => hf.comp (measurable_pi_apply i), hmap, fun i => ?_, ?_, fun i ω => hC _, hf, hC, ?_⟩
  · have h0 : IdentDistrib (fun ω : ℕ → Vec n => ω i) (fun ω => ω 0) (Measure.infinitePi fun _ => normalLaw m s)
        (Measure.infinitePi fun _ => normalLaw m s) :=
      ⟨(measurable_pi_apply i).aemeasurable, (measurable_pi_apply 0).aemeasurable, (hmap i).trans (hmap 0).symm⟩
    exact h0.comp hpair
  · intro i j hij
    have := (iIndepFun_infinitePi (P := fun _ : ℕ => normalLaw m s) (X := fun _ x => x) (fun _ => measurable_id)).indepFun hij
    exact this.comp hpair hpair
  · have hle : MeasurableSpace.comap (fun ω : ℕ → Vec n => ω 0) inferInstance ≤ (inferInstance : MeasurableSpace (ℕ → Vec n)) :=
      (measurable_pi_apply 0).comap_le
    refine (condExp_of_stronglyMeasurable hle
      (f := fun ω : ℕ → Vec n => f (ω 0)) (hf.comp (comap_measurable _)).stronglyMeasurable ?_).eventuallyEq
    exact Integrable.of_bound (hf.comp (measurable_pi_apply 0)).aestronglyMeasurable C (ae_of_all _ fun ω => hC _)

/-- Two parameters; an episode succeeds if the first is positive. -/
noncomputable def success (x : Vec 2) : ℝ := Set.indicator {x : Vec 2 | 0 < x 0} (fun _ => 1) x

theorem measurable_success : Measurable success :=
  measurable_const.indicator (measurableSet_lt measurable_const (measurable_pi_apply 0))

theorem success_bound (x : Vec 2) : |success x| ≤ 1 := by
  unfold success
  by_cases h : x ∈ {x : Vec 2 | 0 < x 0} <;> simp [h]

theorem demo_std (k : Fin 2) : 0 < (![1, 2] k : ℝ) := by fin_cases k <;> simp

/-- The hypotheses of `C177_gauss` hold for returns that are not continuous in the parameters. -/
example : ∃ (Pr : Measure (ℕ → Vec 2)) (_ : IsProbabilityMeasure Pr) (g : Gauss 2),
    (Matrix.diagonal fun k : Fin 2 => (![1, 2] k : ℝ) ^ 2).PosDef ∧
    Gauss.new ![1, -1] (Matrix.diagonal fun k : Fin 2 => (![1, 2] k : ℝ) ^ 2) = some g ∧
    Rounds Pr ![1, -1] (Matrix.diagonal fun k : Fin 2 => (![1, 2] k : ℝ) ^ 2) success 1 (fun i ω => ω i) (fun i ω => success (ω i)) := by
  have hp := posDef_diagonal (![1, 2] : Vec 2) demo_std
  obtain ⟨Pr, h1, h2⟩ := rounds_exist ![1, -1] _ hp success measurable_success 1 success_bound
  obtain ⟨g, hg⟩ : ∃ g, Gauss.new ![1, -1] (Matrix.diagonal fun k : Fin 2 => (![1, 2] k : ℝ) ^ 2) = some g := by
    unfold Gauss.new
    rw [if_neg hp.det_pos.ne']
    exact ⟨_, rfl⟩
  exact ⟨Pr, h1, g, hp, hg, h2⟩

/-- The same for `C177_diag`. -/
example : ∃ (Pr : Measure (ℕ → Vec 2)) (_ : IsProbabilityMeasure Pr) (g : Diag 2), (∀ j, 0 < g.std j) ∧ g.std = ![1, 2] ∧
    Rounds Pr g.mu (Matrix.diagonal fun k => g.std k ^ 2) success 1 (fun i ω => ω i) (fun i ω => success (ω i)) := by
  obtain ⟨Pr, h1, h2⟩ := rounds_exist ![1, -1] _ (posDef_diagonal (![1, 2] : Vec 2) demo_std) success measurable_success 1 success_bound
  exact ⟨Pr, h1, ⟨![1, -1], ![1, 2]⟩, demo_std, rfl, h2⟩

/-- The same for `C177_chol`. -/
example : ∃ (Pr : Measure (ℕ → Vec 2)) (_ : IsProbabilityMeasure Pr) (g : Chol 2), (∀ i j, i < j → g.chol i j = 0) ∧
    (∀ i, g.chol i i ≠ 0) ∧ g.chol = !![2, 0; 1, 3] ∧
    Rounds Pr g.mu (g.chol * g.cholᵀ) success 1 (fun i ω => ω i) (fun i ω => success (ω i)) := by
  obtain ⟨Pr, h1, h2⟩ := rounds_exist ![1, -1] _ (posDef_chol !![2, 0; 1, 3] (by norm_num [det_fin_two])) success measurable_success 1
    success_bound
  refine ⟨Pr, h1, ⟨![1, -1], !![2, 0; 1, 3]⟩, ?_, ?_, rfl, h2⟩
  · intro i j h; fin_cases i <;> fin_cases j <;> simp_all
  · intro i; fin_cases i <;> norm_num

end Verif.Search.Pgpe
