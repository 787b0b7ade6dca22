/-
The normal distribution given by the densities of the code: mass, moments, entropy and divergence (lemmas for C58, C96 and C112).
-/
import Verif.Search.PropsDiff
import Mathlib.Probability.Distributions.Gaussian.Real
import Mathlib.MeasureTheory.Integral.Pi
import Mathlib.MeasureTheory.Measure.Lebesgue.Basic
import Mathlib.Analysis.Matrix.Order

namespace Verif.Search

open Matrix MeasureTheory ProbabilityTheory

variable {n : ℕ}

/-- The moments of the standard normal distribution that are needed. -/
def moment : ℕ → ℝ
  | 0 => 1
  | 1 => 0
  | _ => 1

theorem integrable_pow_pdf (k : ℕ) : Integrable (fun z : ℝ => gaussianPDFReal 0 1 z * z ^ k) := by
  have h : Integrable (fun z : ℝ => z ^ k) (gaussianReal 0 1) := by
    have := (memLp_id_gaussianReal (μ := 0) (v := 1) (k : NNReal))
    by_cases hk : k = 0
    · subst hk; simp
    · have h2 := this.integrable_norm_pow (p := k) hk
      refine h2.mono' (by fun_prop) (Filter.Eventually.of_forall fun z => by simp)
  rw [gaussianReal_of_var_ne_zero _ one_ne_zero,
    integrable_withDensity_iff_integrable_smul' (measurable_gaussianPDF _ _) (ae_of_all _ fun _ => gaussianPDF_lt_top)] at h
  simpa [toReal_gaussianPDF] using h

theorem integral_pow_pdf (k : ℕ) (hk : k ≤ 2) : ∫ z : ℝ, gaussianPDFReal 0 1 z * z ^ k = moment k := by
  have h := integral_gaussianReal_eq_integral_smul (μ := 0) (v := 1) (f := fun z : ℝ => z ^ k) one_ne_zero
  simp only [smul_eq_mul] at h
  rw [← h]
  interval_cases k
  · simp [moment]
  · simp [moment, integral_id_gaussianReal]
  · have := variance_fun_id_gaussianReal (μ := 0) (v := 1)
    rw [variance_eq_integral (by fun_prop)] at this
    simpa [moment, integral_id_gaussianReal] using this

/-- The density of independent standard normal variables. -/
noncomputable def phi (z : Vec n) : ℝ := ∏ i, gaussianPDFReal 0 1 (z i)

theorem phi_moment (e : Fin n → ℕ) : Integrable (fun z : Vec n => phi z * ∏ i, z i ^ e i) ∧
    ((∀ i, e i ≤ 2) → ∫ z : Vec n, phi z * ∏ i, z i ^ e i = ∏ i, moment (e i)) := by
  have h : ∀ z : Vec n, phi z * ∏ i, z i ^ e i = ∏ i, (fun i (t : ℝ) => gaussianPDFReal 0 1 t * t ^ e i) i (z i) := by
    intro z; simp only [phi, ← Finset.prod_mul_distrib]
  simp only [h]
  constructor
  · exact Integrable.fintype_prod (fun i => integrable_pow_pdf (e i))
  · intro he
    have h3 := integral_fintype_prod_volume_eq_prod (fun (i : Fin n) (t : ℝ) => gaussianPDFReal 0 1 t * t ^ e i)
    exact h3.trans (Finset.prod_congr rfl (fun i _ => integral_pow_pdf (e i) (he i)))

theorem phi_one : Integrable (phi : Vec n → ℝ) ∧ ∫ z : Vec n, phi z = 1 := by
  obtain ⟨h1, h2⟩ := phi_moment (fun _ : Fin n => 0)
  simp only [pow_zero, Finset.prod_const_one, mul_one] at h1 h2
  exact ⟨h1, by rw [h2 (by simp)]; simp [moment]⟩

theorem prod_single (z : Vec n) (i : Fin n) : ∏ k, z k ^ (if k = i then 1 else 0) = z i := by
  rw [Finset.prod_eq_single i] <;> simp +contextual

theorem phi_first (i : Fin n) : Integrable (fun z : Vec n => phi z * z i) ∧ ∫ z : Vec n, phi z * z i = 0 := by
  obtain ⟨h1, h2⟩ := phi_moment (fun k : Fin n => if k = i then 1 else 0)
  simp only [prod_single] at h1 h2
  refine ⟨h1, ?_⟩
  rw [h2 (by intro k; split_ifs <;> omega), Finset.prod_eq_zero (Finset.mem_univ i)]
  simp [moment]

theorem phi_second (i j : Fin n) : Integrable (fun z : Vec n => phi z * (z i * z j)) ∧
    ∫ z : Vec n, phi z * (z i * z j) = if i = j then 1 else 0 := by
  obtain ⟨h1, h2⟩ := phi_moment (fun k : Fin n => (if k = i then 1 else 0) + if k = j then 1 else 0)
  simp only [pow_add, Finset.prod_mul_distrib, prod_single] at h1 h2
  refine ⟨h1, ?_⟩
  rw [h2 (by intro k; split_ifs <;> omega)]
  by_cases hij : i = j
  · subst hij
    rw [if_pos rfl]
    apply Finset.prod_eq_one
    intro k _
    by_cases hk : k = i <;> simp [hk, moment]
  · rw [if_neg hij, Finset.prod_eq_zero (Finset.mem_univ i)]
    simp [hij, moment]

/-- Change of variables. -/
theorem change (L : Matrix (Fin n) (Fin n) ℝ) (hL : L.det ≠ 0) (m : Vec n) (f : Vec n → ℝ) :
    (Integrable (fun z => f (m + L *ᵥ z)) → Integrable f) ∧ ∫ x, f x = |L.det| * ∫ z, f (m + L *ᵥ z) := by
  have hmap := Real.map_matrix_volume_pi_eq_smul_volume_pi hL
  have hunit : IsUnit L.det := isUnit_iff_ne_zero.2 hL
  let e : Vec n ≃ₗ[ℝ] Vec n := LinearEquiv.ofBijective (toLin' L) (by
    constructor
    · intro a b hab
      have := congrArg (fun v => L⁻¹ *ᵥ v) hab
      simpa [toLin'_apply, Matrix.mulVec_mulVec, Matrix.nonsing_inv_mul L hunit] using this
    · intro b
      exact ⟨L⁻¹ *ᵥ b, by simp [toLin'_apply, Matrix.mulVec_mulVec, Matrix.mul_nonsing_inv L hunit]⟩)
  have hemb : MeasurableEmbedding (toLin' L : Vec n → Vec n) := by
    have := (e.toContinuousLinearEquiv.toHomeomorph.measurableEmbedding)
    exact this
  have hvol : (volume : Measure (Vec n)) = ENNReal.ofReal |L.det| • Measure.map (toLin' L) volume := by
    rw [hmap, smul_smul, ← ENNReal.ofReal_mul (abs_nonneg _), ← abs_mul, mul_inv_cancel₀ hL, abs_one, ENNReal.ofReal_one, one_smul]
  have hshift : ∀ g : Vec n → ℝ, ∫ x, g x = ∫ x, g (m + x) := fun g => (integral_add_left_eq_self g m).symm
  constructor
  · intro h
    have h1 : Integrable (fun x => f (m + x)) := by
      rw [hvol]
      refine Integrable.smul_measure ?_ ENNReal.ofReal_ne_top
      rw [hemb.integrable_map_iff]
      exact h
    have := h1.comp_add_left (-m)
    simpa using this
  · rw [hshift]
    conv_lhs => rw [hvol]
    rw [integral_smul_measure, hemb.integral_map, ENNReal.toReal_ofReal (abs_nonneg _), smul_eq_mul]
    rfl

theorem logPdf_phi (L : Matrix (Fin n) (Fin n) ℝ) (hL : L.det ≠ 0) (m z : Vec n) :
    |L.det| * Real.exp (logPdf (m + L *ᵥ z) m (L * Lᵀ)) = phi z := by
  have hunit : IsUnit L.det := isUnit_iff_ne_zero.2 hL
  have hq : (m + L *ᵥ z - m) ⬝ᵥ ((L * Lᵀ)⁻¹ *ᵥ (m + L *ᵥ z - m)) = ∑ k, z k ^ 2 := by
    rw [add_sub_cancel_left, quad_chol]
    simp [Matrix.mulVec_mulVec, Matrix.nonsing_inv_mul L hunit]
  have hd : Real.log (L * Lᵀ).det = 2 * Real.log |L.det| := by
    rw [Matrix.det_mul, Matrix.det_transpose, ← sq, ← sq_abs, Real.log_pow]; norm_num
  have hpos : 0 < |L.det| := abs_pos.2 hL
  unfold logPdf
  rw [hq, hd]
  have hpdf : ∀ t : ℝ, gaussianPDFReal 0 1 t = Real.exp (-(1 / 2) * (Real.log (2 * Real.pi) + t ^ 2)) := by
    intro t
    have h2 : (0 : ℝ) < 2 * Real.pi := by positivity
    simp only [gaussianPDFReal, NNReal.coe_one, mul_one, sub_zero]
    have h3 : -(1 / 2 : ℝ) * (Real.log (2 * Real.pi) + t ^ 2) = -(Real.log (2 * Real.pi) / 2) + -t ^ 2 / 2 := by ring
    rw [h3, Real.exp_add, Real.exp_neg, ← Real.log_sqrt h2.le, Real.exp_log (Real.sqrt_pos.2 h2)]
  have h4 : -(1 / 2 : ℝ) * (n * Real.log (2 * Real.pi) + 2 * Real.log |L.det| + ∑ k, z k ^ 2)
      = -Real.log |L.det| + ∑ k, -(1 / 2) * (Real.log (2 * Real.pi) + z k ^ 2) := by
    rw [← Finset.mul_sum, Finset.sum_add_distrib, Finset.sum_const, Finset.card_univ, Fintype.card_fin, nsmul_eq_mul]
    ring
  rw [h4, Real.exp_add, Real.exp_neg, Real.exp_log hpos, ← mul_assoc, mul_inv_cancel₀ hpos.ne', one_mul, Real.exp_sum]
  simp only [phi, hpdf]

/-- The expectation of `f` for the density with mean `m` and covariance `s`. -/
noncomputable def mean (m : Vec n) (s : Matrix (Fin n) (Fin n) ℝ) (f : Vec n → ℝ) : ℝ := ∫ x, Real.exp (logPdf x m s) * f x

/-- `f` has an expectation for the density with mean `m` and covariance `s`. -/
def HasExpect (m : Vec n) (s : Matrix (Fin n) (Fin n) ℝ) (f : Vec n → ℝ) : Prop :=
  Integrable (fun x => Real.exp (logPdf x m s) * f x)

theorem mean_phi (L : Matrix (Fin n) (Fin n) ℝ) (hL : L.det ≠ 0) (m : Vec n) (f : Vec n → ℝ) :
    (Integrable (fun z => phi z * f (m + L *ᵥ z)) → HasExpect m (L * Lᵀ) f) ∧
    mean m (L * Lᵀ) f = ∫ z, phi z * f (m + L *ᵥ z) := by
  obtain ⟨h1, h2⟩ := change L hL m (fun x => Real.exp (logPdf x m (L * Lᵀ)) * f x)
  have hpos : |L.det| ≠ 0 := abs_ne_zero.2 hL
  have he : ∀ z, phi z * f (m + L *ᵥ z) = |L.det| * (Real.exp (logPdf (m + L *ᵥ z) m (L * Lᵀ)) * f (m + L *ᵥ z)) := by
    intro z; rw [← logPdf_phi L hL m z]; ring
  constructor
  · intro h
    apply h1
    simp only [he] at h
    have := h.const_mul (|L.det|⁻¹)
    simpa [← mul_assoc, inv_mul_cancel₀ hpos] using this
  · unfold mean
    rw [h2, ← integral_const_mul]
    simp only [he]

open scoped MatrixOrder in
theorem posSemidef_iff_factor (s : Matrix (Fin n) (Fin n) ℝ) (hs : s.PosSemidef) : ∃ B : Matrix (Fin n) (Fin n) ℝ, s = Bᴴ * B := by
  obtain ⟨B, hB⟩ := CStarAlgebra.nonneg_iff_eq_star_mul_self.mp hs.nonneg
  exact ⟨B, hB⟩

/-- A positive definite matrix is a product of an invertible matrix and its transpose. -/
theorem exists_factor (s : Matrix (Fin n) (Fin n) ℝ) (hs : s.PosDef) : ∃ L : Matrix (Fin n) (Fin n) ℝ, L.det ≠ 0 ∧ s = L * Lᵀ := by
  obtain ⟨B, hB⟩ := posSemidef_iff_factor s hs.posSemidef
  refine ⟨Bᵀ, ?_, by simpa [Matrix.conjTranspose_eq_transpose_of_trivial] using hB⟩
  have hd := hs.det_pos
  rw [hB, Matrix.det_mul, Matrix.conjTranspose_eq_transpose_of_trivial, Matrix.det_transpose] at hd
  rw [Matrix.det_transpose]
  intro h0
  rw [h0] at hd; simp at hd

theorem mean_add (m : Vec n) (s : Matrix (Fin n) (Fin n) ℝ) (f g : Vec n → ℝ) (hf : HasExpect m s f) (hg : HasExpect m s g) :
    HasExpect m s (fun x => f x + g x) ∧ mean m s (fun x => f x + g x) = mean m s f + mean m s g := by
  unfold HasExpect mean at *
  simp only [mul_add]
  exact ⟨hf.add hg, integral_add hf hg⟩

theorem mean_mul (m : Vec n) (s : Matrix (Fin n) (Fin n) ℝ) (c : ℝ) (f : Vec n → ℝ) (hf : HasExpect m s f) :
    HasExpect m s (fun x => c * f x) ∧ mean m s (fun x => c * f x) = c * mean m s f := by
  unfold HasExpect mean at *
  have h : ∀ x, Real.exp (logPdf x m s) * (c * f x) = c * (Real.exp (logPdf x m s) * f x) := fun x => by ring
  simp only [h]
  exact ⟨hf.const_mul c, integral_const_mul _ _⟩

theorem mean_sum {ι : Type} (t : Finset ι) (m : Vec n) (s : Matrix (Fin n) (Fin n) ℝ) (f : ι → Vec n → ℝ)
    (hf : ∀ i ∈ t, HasExpect m s (f i)) :
    HasExpect m s (fun x => ∑ i ∈ t, f i x) ∧ mean m s (fun x => ∑ i ∈ t, f i x) = ∑ i ∈ t, mean m s (f i) := by
  unfold HasExpect mean at *
  simp only [Finset.mul_sum]
  exact ⟨integrable_finset_sum t hf, integral_finset_sum t hf⟩

/-- The density has mass one. -/
theorem normal_one (m : Vec n) (s : Matrix (Fin n) (Fin n) ℝ) (hs : s.PosDef) (c : ℝ) :
    HasExpect m s (fun _ => c) ∧ mean m s (fun _ => c) = c := by
  obtain ⟨L, hL, rfl⟩ := exists_factor s hs
  obtain ⟨h1, h2⟩ := mean_phi L hL m (fun _ => c)
  refine ⟨h1 (phi_one.1.mul_const c), ?_⟩
  rw [h2, integral_mul_const, phi_one.2, one_mul]

/-- The mean of the density. -/
theorem normal_mean (m : Vec n) (s : Matrix (Fin n) (Fin n) ℝ) (hs : s.PosDef) (i : Fin n) :
    HasExpect m s (fun x => x i - m i) ∧ mean m s (fun x => x i - m i) = 0 := by
  obtain ⟨L, hL, rfl⟩ := exists_factor s hs
  obtain ⟨h1, h2⟩ := mean_phi L hL m (fun x => x i - m i)
  have he : ∀ z : Vec n, phi z * ((m + L *ᵥ z) i - m i) = ∑ k, L i k * (phi z * z k) := by
    intro z
    simp only [Pi.add_apply, add_sub_cancel_left, mulVec, dotProduct, Finset.mul_sum]
    exact Finset.sum_congr rfl (fun k _ => by ring)
  have hi : ∀ k ∈ Finset.univ, Integrable (fun z : Vec n => L i k * (phi z * z k)) := fun k _ => (phi_first k).1.const_mul _
  simp only [he] at h1 h2
  refine ⟨h1 (integrable_finset_sum _ hi), ?_⟩
  rw [h2, integral_finset_sum _ hi]
  apply Finset.sum_eq_zero
  intro k _
  rw [integral_const_mul, (phi_first k).2, mul_zero]

/-- The covariance of the density. -/
theorem normal_cov (m : Vec n) (s : Matrix (Fin n) (Fin n) ℝ) (hs : s.PosDef) (i j : Fin n) :
    HasExpect m s (fun x => (x i - m i) * (x j - m j)) ∧ mean m s (fun x => (x i - m i) * (x j - m j)) = s i j := by
  obtain ⟨L, hL, rfl⟩ := exists_factor s hs
  obtain ⟨h1, h2⟩ := mean_phi L hL m (fun x => (x i - m i) * (x j - m j))
  have he : ∀ z : Vec n, phi z * (((m + L *ᵥ z) i - m i) * ((m + L *ᵥ z) j - m j)) = ∑ k, ∑ l, L i k * L j l * (phi z * (z k * z l)) := by
    intro z
    simp only [Pi.add_apply, add_sub_cancel_left, mulVec, dotProduct, Finset.sum_mul_sum]
    simp only [Finset.mul_sum]
    exact Finset.sum_congr rfl (fun k _ => Finset.sum_congr rfl (fun l _ => by ring))
  have hi : ∀ k ∈ Finset.univ, ∀ l ∈ Finset.univ, Integrable (fun z : Vec n => L i k * L j l * (phi z * (z k * z l))) :=
    fun k _ l _ => (phi_second k l).1.const_mul _
  have hi2 : ∀ k ∈ Finset.univ, Integrable (fun z : Vec n => ∑ l, L i k * L j l * (phi z * (z k * z l))) :=
    fun k hk => integrable_finset_sum _ (hi k hk)
  simp only [he] at h1 h2
  refine ⟨h1 (integrable_finset_sum _ hi2), ?_⟩
  rw [h2, integral_finset_sum _ hi2, Matrix.mul_apply]
  apply Finset.sum_congr rfl
  intro k hk
  rw [integral_finset_sum _ (hi k hk), Finset.sum_eq_single k]
  · rw [integral_const_mul, (phi_second k k).2, if_pos rfl, mul_one, transpose_apply]
  · intro l _ hl
    rw [integral_const_mul, (phi_second k l).2, if_neg (Ne.symm hl), mul_zero]
  · simp

/-- The expectation of a quadratic form around any point. -/
theorem normal_quad (m c : Vec n) (s M : Matrix (Fin n) (Fin n) ℝ) (hs : s.PosDef) :
    HasExpect m s (fun x => (x - c) ⬝ᵥ (M *ᵥ (x - c))) ∧
    mean m s (fun x => (x - c) ⬝ᵥ (M *ᵥ (x - c))) = (M * s).trace + (m - c) ⬝ᵥ (M *ᵥ (m - c)) := by
  have he : ∀ x : Vec n, (x - c) ⬝ᵥ (M *ᵥ (x - c)) = ∑ i, ∑ j, (M i j * ((x i - m i) * (x j - m j))
      + (M i j * (m j - c j) * (x i - m i) + (M i j * (m i - c i) * (x j - m j) + M i j * ((m i - c i) * (m j - c j))))) := by
    intro x
    simp only [dotProduct, mulVec, Pi.sub_apply, Finset.mul_sum]
    exact Finset.sum_congr rfl (fun k _ => Finset.sum_congr rfl (fun l _ => by ring))
  have h1 : ∀ i j : Fin n, HasExpect m s (fun x => M i j * ((x i - m i) * (x j - m j))
      + (M i j * (m j - c j) * (x i - m i) + (M i j * (m i - c i) * (x j - m j) + M i j * ((m i - c i) * (m j - c j))))) ∧
      mean m s (fun x => M i j * ((x i - m i) * (x j - m j))
      + (M i j * (m j - c j) * (x i - m i) + (M i j * (m i - c i) * (x j - m j) + M i j * ((m i - c i) * (m j - c j)))))
      = M i j * s i j + M i j * ((m i - c i) * (m j - c j)) := by
    intro i j
    have a := mean_mul m s (M i j) _ (normal_cov m s hs i j).1
    have b := mean_mul m s (M i j * (m j - c j)) _ (normal_mean m s hs i).1
    have d := mean_mul m s (M i j * (m i - c i)) _ (normal_mean m s hs j).1
    have e := normal_one m s hs (M i j * ((m i - c i) * (m j - c j)))
    have f := mean_add m s _ _ d.1 e.1
    have g := mean_add m s _ _ b.1 f.1
    have h := mean_add m s _ _ a.1 g.1
    refine ⟨h.1, ?_⟩
    rw [h.2, g.2, f.2, a.2, b.2, d.2, e.2, (normal_cov m s hs i j).2, (normal_mean m s hs i).2, (normal_mean m s hs j).2]
    ring
  have h2 : ∀ i : Fin n, _ := fun i => mean_sum Finset.univ m s _ (fun j _ => (h1 i j).1)
  have h3 := mean_sum Finset.univ m s _ (fun i _ => (h2 i).1)
  rw [funext he]
  refine ⟨h3.1, ?_⟩
  rw [h3.2]
  have hsym : ∀ i j, s j i = s i j := fun i j => by
    have := congrFun (congrFun hs.isHermitian i) j
    simpa [Matrix.conjTranspose_apply] using this
  calc _ = ∑ i, ∑ j, (M i j * s i j + M i j * ((m i - c i) * (m j - c j))) := by
        apply Finset.sum_congr rfl
        intro i _
        rw [(h2 i).2]
        exact Finset.sum_congr rfl (fun j _ => (h1 i j).2)
    _ = _ := by
        have t1 : (M * s).trace = ∑ i, ∑ j, M i j * s i j := by
          simp only [Matrix.trace, Matrix.diag_apply, Matrix.mul_apply]
          exact Finset.sum_congr rfl (fun k _ => Finset.sum_congr rfl (fun l _ => by rw [hsym]))
        have t2 : (m - c) ⬝ᵥ (M *ᵥ (m - c)) = ∑ i, ∑ j, M i j * ((m i - c i) * (m j - c j)) := by
          simp only [dotProduct, mulVec, Pi.sub_apply, Finset.mul_sum]
          exact Finset.sum_congr rfl (fun k _ => Finset.sum_congr rfl (fun l _ => by ring))
        rw [t1, t2]
        simp only [Finset.sum_add_distrib]

/-- The expectation of a log-density. -/
theorem normal_log (m c : Vec n) (s t : Matrix (Fin n) (Fin n) ℝ) (hs : s.PosDef) :
    HasExpect m s (fun x => logPdf x c t) ∧ mean m s (fun x => logPdf x c t)
      = -(1 / 2) * (n * Real.log (2 * Real.pi) + Real.log t.det + ((t⁻¹ * s).trace + (m - c) ⬝ᵥ (t⁻¹ *ᵥ (m - c)))) := by
  have a := normal_one m s hs (n * Real.log (2 * Real.pi) + Real.log t.det)
  have b := normal_quad m c s t⁻¹ hs
  have d := mean_add m s _ _ a.1 b.1
  have e := mean_mul m s (-(1 / 2)) _ d.1
  refine ⟨e.1, ?_⟩
  have : mean m s (fun x => logPdf x c t) = _ := e.2
  rw [this, d.2, a.2, b.2]

/-- The entropy formula of the code is the differential entropy of the density. -/
theorem normal_entropy (m : Vec n) (s : Matrix (Fin n) (Fin n) ℝ) (hs : s.PosDef) :
    -mean m s (fun x => logPdf x m s) = gaussEntropy s := by
  rw [(normal_log m m s s hs).2, Matrix.nonsing_inv_mul s (isUnit_iff_ne_zero.2 hs.det_pos.ne')]
  simp only [sub_self, zero_dotProduct, Matrix.trace_one, Fintype.card_fin, gaussEntropy]
  ring

/-- The formula for the divergence is the Kullback-Leibler divergence of the densities. -/
theorem normal_kl (m c : Vec n) (s t : Matrix (Fin n) (Fin n) ℝ) (hs : s.PosDef) :
    mean m s (fun x => logPdf x m s - logPdf x c t) = gaussKL m s c t := by
  have a := normal_log m m s s hs
  have b := normal_log m c s t hs
  have d := mean_mul m s (-1) _ b.1
  have e := mean_add m s _ _ a.1 d.1
  have h : mean m s (fun x => logPdf x m s - logPdf x c t) = mean m s (fun x => logPdf x m s + -1 * logPdf x c t) := by
    congr 1; funext x; ring
  have hq : (m - c) ⬝ᵥ (t⁻¹ *ᵥ (m - c)) = (c - m) ⬝ᵥ (t⁻¹ *ᵥ (c - m)) := by
    rw [← neg_sub c m, neg_dotProduct, mulVec_neg, dotProduct_neg, neg_neg]
  rw [h, e.2, d.2, a.2, b.2, Matrix.nonsing_inv_mul s (isUnit_iff_ne_zero.2 hs.det_pos.ne'), hq]
  simp only [sub_self, zero_dotProduct, Matrix.trace_one, Fintype.card_fin, gaussKL]
  ring

end Verif.Search
