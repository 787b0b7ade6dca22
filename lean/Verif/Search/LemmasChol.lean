/-
Lemmas for C177: the derivative of an expectation with respect to an entry of the Cholesky factor.
-/
import Verif.Search.LemmasPgpe
import Mathlib.Analysis.Calculus.ParametricIntegral
import Mathlib.Topology.Instances.Matrix

namespace Verif.Search.Pgpe

open Matrix MeasureTheory ProbabilityTheory Filter Topology

variable {n : ℕ}

/-- The squared distance to `m`. -/
def sqDist (m x : Vec n) : ℝ := ∑ k, (x k - m k) ^ 2

theorem sqDist_nonneg (m x : Vec n) : 0 ≤ sqDist m x := Finset.sum_nonneg fun _ _ => sq_nonneg _

theorem integrable_exp_sqDist (m : Vec n) (c : ℝ) (hc : 0 < c) :
    Integrable (fun x => Real.exp (-c * sqDist m x) * (1 + sqDist m x)) := by
  have hv : ∀ _ : Fin n, 0 < 1 / (2 * c) := fun _ => by positivity
  have hp : (Matrix.diagonal (fun _ : Fin n => 1 / (2 * c))).PosDef := PosDef.diagonal hv
  have h1 := (normal_one m _ hp 1).1
  have h2 := (mean_sum (Finset.univ : Finset (Fin n)) m _ _ (fun k _ => (normal_cov m _ hp k k).1)).1
  have h3 := (mean_add m _ _ _ h1 h2).1
  have h4 := h3.const_mul (Real.exp (1 / 2 * (n * Real.log (2 * Real.pi) + ∑ _j : Fin n, Real.log (1 / (2 * c)))))
  refine h4.congr (ae_of_all _ fun x => ?_)
  simp only
  rw [← mul_assoc, ← Real.exp_add, logPdf_diagonal x m _ (fun k => (hv k).ne')]
  have e1 : ∑ j, (x j - m j) ^ 2 / (1 / (2 * c)) = 2 * c * sqDist m x := by
    rw [sqDist, Finset.mul_sum]
    refine Finset.sum_congr rfl fun k _ => ?_
    field_simp
  have e2 : ∑ i, (x i - m i) * (x i - m i) = sqDist m x := by
    rw [sqDist]
    refine Finset.sum_congr rfl fun k _ => by ring
  rw [e1, e2]
  congr 2
  ring

/-- The derivative of the expectation of a bounded function, for a family of log-densities. -/
theorem curve_grad (m : Vec n) (S S' : ℝ → Vec n → ℝ) (y : ℝ) (U : Set ℝ) (hU : U ∈ 𝓝 y) (K c : ℝ) (hc : 0 < c)
    (hm : ∀ y, Measurable (S y)) (hm' : Measurable (S' y))
    (hd : ∀ y ∈ U, ∀ x, HasDerivAt (fun y => S y x) (S' y x) y)
    (hb : ∀ y ∈ U, ∀ x, Real.exp (S y x) ≤ K * Real.exp (-c * sqDist m x))
    (hs : ∀ y ∈ U, ∀ x, |S' y x| ≤ K * (1 + sqDist m x)) (f : Vec n → ℝ) (hf : Measurable f) (C : ℝ) (hC : ∀ x, |f x| ≤ C) :
    HasDerivAt (fun y => ∫ x, Real.exp (S y x) * f x) (∫ x, Real.exp (S y x) * (S' y x * f x)) y := by
  have hK : 0 ≤ K := by
    have h1 := hb y (mem_of_mem_nhds hU) m
    have h2 := Real.exp_pos (S y m)
    have h3 := Real.exp_pos (-c * sqDist m m)
    by_contra h
    nlinarith
  have hC0 : 0 ≤ C := (abs_nonneg _).trans (hC m)
  have hi := integrable_exp_sqDist m c hc
  refine (hasDerivAt_integral_of_dominated_loc_of_deriv_le (μ := (volume : Measure (Vec n)))
    (F := fun y x => Real.exp (S y x) * f x) (F' := fun y x => Real.exp (S y x) * (S' y x * f x))
    (bound := fun x => K * K * C * (Real.exp (-c * sqDist m x) * (1 + sqDist m x))) hU
    (Eventually.of_forall fun y => ((hm y).exp.mul hf).aestronglyMeasurable) ?_ ((hm y).exp.mul (hm'.mul hf)).aestronglyMeasurable
    ?_ (hi.const_mul _) ?_).2
  · refine (hi.const_mul (K * C)).mono' ((hm y).exp.mul hf).aestronglyMeasurable (ae_of_all _ fun x => ?_)
    rw [norm_mul, Real.norm_eq_abs, Real.norm_eq_abs, abs_of_pos (Real.exp_pos _)]
    have h1 := hb y (mem_of_mem_nhds hU) x
    have h2 := hC x
    have h3 := sqDist_nonneg m x
    calc Real.exp (S y x) * |f x| ≤ K * Real.exp (-c * sqDist m x) * C := mul_le_mul h1 h2 (abs_nonneg _) (by positivity)
      _ = K * C * (Real.exp (-c * sqDist m x) * 1) := by ring
      _ ≤ _ := by gcongr; linarith
  · refine ae_of_all _ fun x z hz => ?_
    rw [norm_mul, norm_mul, Real.norm_eq_abs, Real.norm_eq_abs, Real.norm_eq_abs, abs_of_pos (Real.exp_pos _)]
    have h1 := hb z hz x
    have h2 := hC x
    have h3 := sqDist_nonneg m x
    have h4 := hs z hz x
    calc Real.exp (S z x) * (|S' z x| * |f x|) ≤ K * Real.exp (-c * sqDist m x) * (K * (1 + sqDist m x) * C) :=
          mul_le_mul h1 (mul_le_mul h4 h2 (abs_nonneg _) (by positivity)) (by positivity) (by positivity)
      _ = _ := by ring
  · refine ae_of_all _ fun x z hz => ?_
    have := ((hd z hz x).exp).mul_const (f x)
    refine this.congr_deriv (by ring)

/-! ### The Cholesky factor -/

theorem continuous_writeEntry (L : Matrix (Fin n) (Fin n) ℝ) (p : Fin n × Fin n) : Continuous (fun y => writeEntry L (p, y)) := by
  refine continuous_matrix fun a b => ?_
  simp only [writeEntry, Matrix.of_apply]
  split_ifs
  · exact continuous_id
  · exact continuous_const

theorem writeEntry_same (L : Matrix (Fin n) (Fin n) ℝ) (p : Fin n × Fin n) : writeEntry L (p, L p.1 p.2) = L := by
  ext a b
  simp only [writeEntry, Matrix.of_apply]
  split_ifs with h
  · rw [← h]
  · rfl

theorem writeEntry_twice (L : Matrix (Fin n) (Fin n) ℝ) (p : Fin n × Fin n) (y z : ℝ) :
    writeEntry (writeEntry L (p, y)) (p, z) = writeEntry L (p, z) := by
  ext a b
  simp only [writeEntry, Matrix.of_apply]
  split_ifs <;> rfl

theorem writeEntry_lower (L : Matrix (Fin n) (Fin n) ℝ) (hl : ∀ i j, i < j → L i j = 0) (i j : Fin n) (hij : j ≤ i) (y : ℝ) (a b : Fin n)
    (hab : a < b) : writeEntry L ((i, j), y) a b = 0 := by
  rw [writeEntry_apply, if_neg (by
    intro h
    have h1 := congrArg Prod.fst h
    have h2 := congrArg Prod.snd h
    simp only at h1 h2
    subst h1 h2
    exact absurd hij (not_le.2 hab))]
  exact hl a b hab

/-- Near an invertible matrix the entries of the inverse are bounded. -/
theorem inv_bounded (M : ℝ → Matrix (Fin n) (Fin n) ℝ) (hM : Continuous M) (y : ℝ) (h : (M y).det ≠ 0) :
    ∃ B : ℝ, 0 ≤ B ∧ ∀ᶠ z in 𝓝 y, (M z).det ≠ 0 ∧ |(M z).det|⁻¹ ≤ B ∧ (∀ a b, |(M z)⁻¹ a b| ≤ B) ∧ ∀ a b, |M z a b| ≤ B := by
  have hdet : Continuous (fun z => (M z).det) := hM.matrix_det
  have hinv : ∀ a b, ContinuousAt (fun z => (M z)⁻¹ a b) y := by
    intro a b
    simp only [Matrix.inv_def, Ring.inverse_eq_inv', Matrix.smul_apply, smul_eq_mul]
    exact (hdet.continuousAt.inv₀ h).mul ((hM.matrix_adjugate).matrix_elem a b).continuousAt
  have hbd : ∀ g : ℝ → ℝ, ContinuousAt g y → ∀ B, |g y| < B → ∀ᶠ z in 𝓝 y, |g z| ≤ B := by
    intro g hg B hB
    filter_upwards [hg.abs.eventually (gt_mem_nhds hB)] with z hz
    exact hz.le
  let B : ℝ := |(M y).det|⁻¹ + ∑ a, ∑ b, |(M y)⁻¹ a b| + ∑ a, ∑ b, |M y a b| + 1
  have h0 : 0 ≤ |(M y).det|⁻¹ := by positivity
  have h1 : 0 ≤ ∑ a, ∑ b, |(M y)⁻¹ a b| := by positivity
  have h2 : 0 ≤ ∑ a, ∑ b, |M y a b| := by positivity
  have le : ∀ (A : Matrix (Fin n) (Fin n) ℝ) a b, |A a b| ≤ ∑ a, ∑ b, |A a b| := by
    intro A a b
    refine le_trans ?_ (Finset.single_le_sum (f := fun a => ∑ b, |A a b|) (fun a _ => by positivity) (Finset.mem_univ a))
    exact Finset.single_le_sum (f := fun b => |A a b|) (fun b _ => abs_nonneg _) (Finset.mem_univ b)
  refine ⟨B, by positivity, ?_⟩
  have e1 := hdet.continuousAt.eventually_ne h
  have e2 := hbd (fun z => |(M z).det|⁻¹) ((hdet.continuousAt.abs).inv₀ (abs_ne_zero.2 h)) B
    (by rw [abs_of_nonneg h0]; simp only [B]; linarith)
  have e3 : ∀ᶠ z in 𝓝 y, ∀ a b, |(M z)⁻¹ a b| ≤ B := by
    rw [eventually_all]; intro a
    rw [eventually_all]; intro b
    exact hbd _ (hinv a b) B (by have := le (M y)⁻¹ a b; simp only [B]; linarith)
  have e4 : ∀ᶠ z in 𝓝 y, ∀ a b, |M z a b| ≤ B := by
    rw [eventually_all]; intro a
    rw [eventually_all]; intro b
    exact hbd _ (hM.matrix_elem a b).continuousAt B (by have := le (M y) a b; simp only [B]; linarith)
  filter_upwards [e1, e2, e3, e4] with z h1 h2 h3 h4
  exact ⟨h1, (le_abs_self _).trans h2, h3, h4⟩

theorem mulVec_sq_le (A : Matrix (Fin n) (Fin n) ℝ) (B : ℝ) (hA : ∀ a b, |A a b| ≤ B) (z : Vec n) (a : Fin n) :
    (A *ᵥ z) a ^ 2 ≤ n * B ^ 2 * ∑ k, z k ^ 2 := by
  simp only [mulVec, dotProduct]
  refine (Finset.sum_mul_sq_le_sq_mul_sq _ _ _).trans ?_
  refine mul_le_mul_of_nonneg_right ?_ (by positivity)
  calc ∑ k, A a k ^ 2 ≤ ∑ _k : Fin n, B ^ 2 := Finset.sum_le_sum fun k _ => by
        rw [← sq_abs]; exact pow_le_pow_left₀ (abs_nonneg _) (hA a k) 2
    _ = n * B ^ 2 := by simp

/-- The derivative of the log-density with respect to an entry of the factor. -/
noncomputable def cholScore (m : Vec n) (L : Matrix (Fin n) (Fin n) ℝ) (i j : Fin n) (x : Vec n) : ℝ :=
  (L⁻¹ *ᵥ (x - m)) j * (∑ k, (L⁻¹ *ᵥ (x - m)) k * L⁻¹ k i) - if j = i then 1 / L i i else 0

theorem cholScore_bound (m : Vec n) (L : Matrix (Fin n) (Fin n) ℝ) (hl : ∀ i j, i < j → L i j = 0) (hd : ∀ i, L i i ≠ 0) (B : ℝ)
    (hB : 0 ≤ B) (hi : ∀ a b, |L⁻¹ a b| ≤ B) (i j : Fin n) (x : Vec n) :
    |cholScore m L i j x| ≤ (B + n * B ^ 2 + n * B ^ 2 * (n * (n * B ^ 2))) * (1 + sqDist m x) := by
  have hq : ∀ k, (L⁻¹ *ᵥ (x - m)) k ^ 2 ≤ n * B ^ 2 * sqDist m x := fun k => mulVec_sq_le L⁻¹ B hi (x - m) k
  have hs : ∑ k, (L⁻¹ *ᵥ (x - m)) k ^ 2 ≤ n * (n * B ^ 2 * sqDist m x) := by
    refine (Finset.sum_le_sum fun k _ => hq k).trans ?_
    simp
  have hw : (∑ k, (L⁻¹ *ᵥ (x - m)) k * L⁻¹ k i) ^ 2 ≤ n * B ^ 2 * (n * (n * B ^ 2 * sqDist m x)) := by
    have h := mulVec_sq_le (L⁻¹)ᵀ B (fun a b => hi b a) (L⁻¹ *ᵥ (x - m)) i
    have e : ((L⁻¹)ᵀ *ᵥ (L⁻¹ *ᵥ (x - m))) i = ∑ k, (L⁻¹ *ᵥ (x - m)) k * L⁻¹ k i := by
      conv_lhs => rw [mulVec, dotProduct]
      exact Finset.sum_congr rfl fun k _ => by rw [transpose_apply, mul_comm]
    rw [e] at h
    exact h.trans (mul_le_mul_of_nonneg_left hs (by positivity))
  have h1 : |if j = i then 1 / L i i else 0| ≤ B := by
    split_ifs
    · rw [← inv_diag L hl hd]; exact hi i i
    · simpa using hB
  have h0 := sqDist_nonneg m x
  unfold cholScore
  set a := (L⁻¹ *ᵥ (x - m)) j
  have ha := hq j
  set b := ∑ k, (L⁻¹ *ᵥ (x - m)) k * L⁻¹ k i
  have h2 : |a * b| ≤ a ^ 2 + b ^ 2 := by
    rw [abs_le]
    constructor <;> nlinarith [sq_nonneg (a + b), sq_nonneg (a - b), sq_nonneg a, sq_nonneg b]
  have h3 := abs_sub (a * b) (if j = i then 1 / L i i else 0)
  have h4 : 0 ≤ (n : ℝ) * B ^ 2 := by positivity
  have h5 : 0 ≤ (n : ℝ) * B ^ 2 * (n * (n * B ^ 2)) := by positivity
  have h6 : 0 ≤ B * sqDist m x := by positivity
  calc _ ≤ |a * b| + |if j = i then 1 / L i i else 0| := h3
    _ ≤ (n * B ^ 2 * sqDist m x + n * B ^ 2 * (n * (n * B ^ 2 * sqDist m x))) + B := by linarith
    _ ≤ _ := by linarith

theorem chol_density_bound (m : Vec n) (L : Matrix (Fin n) (Fin n) ℝ) (hu : L.det ≠ 0) (B : ℝ) (hdet : |L.det|⁻¹ ≤ B)
    (hi : ∀ a b, |L a b| ≤ B) (x : Vec n) :
    Real.exp (logPdf x m (L * Lᵀ)) ≤ B * Real.exp (-(1 / (2 * (n * (n * B ^ 2) + 1))) * sqDist m x) := by
  have hunit : IsUnit L.det := isUnit_iff_ne_zero.2 hu
  have hld : Real.log (L * Lᵀ).det = 2 * Real.log |L.det| := by
    rw [Matrix.det_mul, Matrix.det_transpose, ← sq, ← sq_abs, Real.log_pow]; norm_num
  have hpos : 0 < |L.det| := abs_pos.2 hu
  unfold logPdf
  rw [quad_chol, hld]
  set z := L⁻¹ *ᵥ (x - m) with hz
  have hx : x - m = L *ᵥ z := by rw [hz, mulVec_mulVec, mul_nonsing_inv _ hunit, one_mulVec]
  have hq : sqDist m x ≤ (n * (n * B ^ 2) + 1) * ∑ k, z k ^ 2 := by
    have h1 : sqDist m x = ∑ k, (L *ᵥ z) k ^ 2 := by
      rw [← hx]; rfl
    rw [h1]
    refine (Finset.sum_le_sum fun k _ => mulVec_sq_le L B hi z k).trans ?_
    have : 0 ≤ ∑ k, z k ^ 2 := by positivity
    simp
    linarith
  have hD : (0 : ℝ) < n * (n * B ^ 2) + 1 := by positivity
  have h2pi : 0 ≤ (n : ℝ) * Real.log (2 * Real.pi) :=
    mul_nonneg (by positivity) (Real.log_nonneg (by linarith [Real.pi_gt_three]))
  have hle : -(1 / 2) * (n * Real.log (2 * Real.pi) + 2 * Real.log |L.det| + ∑ k, z k ^ 2) ≤
      Real.log (|L.det|⁻¹) + -(1 / (2 * (n * (n * B ^ 2) + 1))) * sqDist m x := by
    have h3 : 1 / (2 * (n * (n * B ^ 2) + 1)) * sqDist m x ≤ 1 / 2 * ∑ k, z k ^ 2 := by
      rw [div_mul_eq_mul_div, one_mul, div_le_iff₀ (by positivity)]
      linarith
    rw [Real.log_inv]
    linarith
  refine (Real.exp_le_exp.2 hle).trans ?_
  rw [Real.exp_add, Real.exp_log (inv_pos.2 hpos)]
  exact mul_le_mul_of_nonneg_right hdet (Real.exp_pos _).le

/-- The derivative of an expectation with respect to an entry of the Cholesky factor of the covariance. -/
theorem chol_grad (m : Vec n) (L : Matrix (Fin n) (Fin n) ℝ) (hl : ∀ i j, i < j → L i j = 0) (hd : ∀ i, L i i ≠ 0) (i j : Fin n)
    (hij : j ≤ i) (f : Vec n → ℝ) (hf : Measurable f) (C : ℝ) (hC : ∀ x, |f x| ≤ C) :
    HasDerivAt (fun y => mean m (writeEntry L ((i, j), y) * (writeEntry L ((i, j), y))ᵀ) f)
      (mean m (L * Lᵀ) (fun x => cholScore m L i j x * f x)) (L i j) := by
  have hsame : writeEntry L ((i, j), L i j) = L := writeEntry_same L (i, j)
  have hdet : (writeEntry L ((i, j), L i j)).det ≠ 0 := by
    rw [hsame, det_lower L hl]
    exact Finset.prod_ne_zero_iff.2 (fun i _ => hd i)
  obtain ⟨B, hB, hev⟩ := inv_bounded _ (continuous_writeEntry L (i, j)) (L i j) hdet
  have hlow := writeEntry_lower L hl i j hij
  have hdiag : ∀ y, (writeEntry L ((i, j), y)).det ≠ 0 → ∀ k, writeEntry L ((i, j), y) k k ≠ 0 := by
    intro y hy k
    rw [det_lower _ (hlow y)] at hy
    exact Finset.prod_ne_zero_iff.1 hy k (Finset.mem_univ k)
  have hB2 : 0 ≤ n * B ^ 2 + n * B ^ 2 * (n * (n * B ^ 2)) := by positivity
  have h := curve_grad m (fun y x => logPdf x m (writeEntry L ((i, j), y) * (writeEntry L ((i, j), y))ᵀ))
    (fun y x => cholScore m (writeEntry L ((i, j), y)) i j x) (L i j) _ hev (B + n * B ^ 2 + n * B ^ 2 * (n * (n * B ^ 2)))
    (1 / (2 * (n * (n * B ^ 2) + 1))) (by positivity) (fun y => ?_) ?_ (fun y hy x => ?_) (fun y hy x => ?_) (fun y hy x => ?_) f hf C hC
  · simp only [hsame] at h
    exact h
  · unfold logPdf
    simp only [dotProduct, mulVec, Pi.sub_apply]
    fun_prop
  · unfold cholScore
    simp only [dotProduct, mulVec, Pi.sub_apply]
    fun_prop
  · have h := logPdf_chol_deriv (writeEntry L ((i, j), y)) (hlow y) (hdiag y hy.1) x m i j hij
    have e : writeEntry L ((i, j), y) i j = y := by rw [writeEntry_apply, if_pos rfl]
    simp only [writeEntry_twice, e] at h
    exact h
  · refine (chol_density_bound m _ hy.1 B hy.2.1 hy.2.2.2 x).trans ?_
    refine mul_le_mul_of_nonneg_right ?_ (Real.exp_pos _).le
    linarith
  · exact cholScore_bound m _ (hlow y) (hdiag y hy.1) B hB hy.2.2.1 i j x

theorem posDef_chol (L : Matrix (Fin n) (Fin n) ℝ) (h : L.det ≠ 0) : (L * Lᵀ).PosDef := by
  have := PosDef.mul_conjTranspose_self L (vecMul_injective_of_isUnit ((isUnit_iff_isUnit_det L).2 (isUnit_iff_ne_zero.2 h)))
  rwa [conjTranspose_eq_transpose_of_trivial] at this

/-- The derivative of the log-density has mean zero. -/
theorem chol_score (m : Vec n) (L : Matrix (Fin n) (Fin n) ℝ) (hl : ∀ i j, i < j → L i j = 0) (hd : ∀ i, L i i ≠ 0) (i j : Fin n)
    (hij : j ≤ i) : HasExpect m (L * Lᵀ) (cholScore m L i j) ∧ mean m (L * Lᵀ) (cholScore m L i j) = 0 := by
  have hdet : L.det ≠ 0 := by
    rw [det_lower L hl]
    exact Finset.prod_ne_zero_iff.2 (fun i _ => hd i)
  have hcont := continuous_writeEntry L (i, j)
  have hsame : writeEntry L ((i, j), L i j) = L := writeEntry_same L (i, j)
  obtain ⟨B, hB, hev⟩ := inv_bounded _ hcont (L i j) (by rw [hsame]; exact hdet)
  obtain ⟨_, h2, h3, h4⟩ := hev.self_of_nhds
  rw [hsame] at h2 h3 h4
  constructor
  · refine ((integrable_exp_sqDist m (1 / (2 * (n * (n * B ^ 2) + 1))) (by positivity)).const_mul
      (B * (B + n * B ^ 2 + n * B ^ 2 * (n * (n * B ^ 2))))).mono' ?_ (ae_of_all _ fun x => ?_)
    · refine (Measurable.mul (measurable_logPdf m _) ?_).aestronglyMeasurable
      unfold cholScore
      simp only [dotProduct, mulVec, Pi.sub_apply]
      fun_prop
    · rw [norm_mul, Real.norm_eq_abs, Real.norm_eq_abs, abs_of_pos (Real.exp_pos _)]
      refine (mul_le_mul (chol_density_bound m L hdet B h2 h4 x) (cholScore_bound m L hl hd B hB h3 i j x) (abs_nonneg _)
        (by positivity)).trans (le_of_eq (by ring))
  · have h := chol_grad m L hl hd i j hij (fun _ => 1) measurable_const 1 (by simp)
    simp only [mul_one] at h
    refine h.unique ?_
    refine (hasDerivAt_const (L i j) (1 : ℝ)).congr_of_eventuallyEq ?_
    filter_upwards [hev] with y hy
    exact (normal_one m _ (posDef_chol _ hy.1) 1).2

end Verif.Search.Pgpe
