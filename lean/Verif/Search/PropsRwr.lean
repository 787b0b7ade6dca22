/-
Property C178: what RWR improves.
-/
import Verif.Search.SpecRwr
import Verif.Search.ModelRwr
import Verif.Search.PropsPgpe
import Verif.Search.PropsDist

namespace Verif.Search.Pgpe

open Matrix MeasureTheory ProbabilityTheory Filter Topology

variable {n : ℕ}

/-! ### Improvement -/

section Improve

variable {Ω : Type} [MeasurableSpace Ω] {Pr : Measure Ω} [IsProbabilityMeasure Pr] {m : Vec n} {s : Matrix (Fin n) (Fin n) ℝ}
  {f : Vec n → ℝ} {C : ℝ} {θ : ℕ → Ω → Vec n} {W : ℕ → Ω → ℝ}

theorem Rounds.total (h : Rounds Pr m s f C θ W) (hs : s.PosDef) : ∫ ω, W 0 ω ∂Pr = performance m s f := by
  have h1 := (h.integral_mul (fun _ => 1) measurable_const (normal_one m s hs 1).1).2.2.2
  simpa [performance_eq] using h1

theorem Rounds.integrable_return (h : Rounds Pr m s f C θ W) (i : ℕ) : Integrable (W i) Pr :=
  Integrable.of_bound (h.measurable_return i).aestronglyMeasurable C (ae_of_all _ fun ω => by simpa using h.bounded i ω)

theorem Rounds.total_pos (h : Rounds Pr m s f C θ W) (hW : ∀ ω, 0 < W 0 ω) : 0 < ∫ ω, W 0 ω ∂Pr := by
  rw [integral_pos_iff_support_of_nonneg (fun ω => (hW ω).le) (h.integrable_return 0)]
  have : Function.support (W 0) = Set.univ := Set.eq_univ_of_forall fun ω => (hW ω).ne'
  rw [this]
  simp

theorem measurable_logPdf' (m : Vec n) (s : Matrix (Fin n) (Fin n) ℝ) : Measurable (fun x => logPdf x m s) := by
  unfold logPdf
  simp only [dotProduct, mulVec, Pi.sub_apply]
  fun_prop

/-- Another normal distribution is better by at least the exponential of the weighted mean of the difference of the log-densities. -/
theorem Rounds.improve (h : Rounds Pr m s f C θ W) (hW : ∀ ω, 0 < W 0 ω) (hs : s.PosDef) (m' : Vec n) (s' : Matrix (Fin n) (Fin n) ℝ)
    (hs' : s'.PosDef) (a : ℝ)
    (ha : ∫ ω, (logPdf (θ 0 ω) m' s' - logPdf (θ 0 ω) m s) * W 0 ω ∂Pr = a * ∫ ω, W 0 ω ∂Pr) :
    Real.exp a * performance m s f ≤ performance m' s' f := by
  have hl : HasExpect m s (fun x => logPdf x m' s' - logPdf x m s) := by
    have h1 := (normal_log m m' s s' hs).1
    have h2 := (mean_mul m s (-1) _ (normal_log m m s s hs).1).1
    have h3 := (mean_add m s _ _ h1 h2).1
    refine h3.congr (ae_of_all _ fun x => by simp only; ring)
  have he : HasExpect m s (fun x => Real.exp (logPdf x m' s' - logPdf x m s)) := by
    refine (normal_one m' s' hs' 1).1.congr (ae_of_all _ fun x => ?_)
    simp only
    rw [mul_one, ← Real.exp_add]
    congr 1
    ring
  have hml : Measurable (fun x => logPdf x m' s' - logPdf x m s) := (measurable_logPdf' m' s').sub (measurable_logPdf' m s)
  obtain ⟨_, i1, _, e1⟩ := h.integral_mul _ hml hl
  obtain ⟨_, i2, _, e2⟩ := h.integral_mul _ hml.exp he
  have hp : performance m' s' f = ∫ ω, Real.exp (logPdf (θ 0 ω) m' s' - logPdf (θ 0 ω) m s) * W 0 ω ∂Pr := by
    rw [e2, performance_eq]
    unfold mean
    refine integral_congr_ae (ae_of_all _ fun x => ?_)
    simp only
    rw [← mul_assoc, ← Real.exp_add]
    congr 2
    ring
  rw [hp, ← h.total hs]
  have i3 := h.integrable_return 0
  have hlow : ∫ ω, Real.exp a * ((logPdf (θ 0 ω) m' s' - logPdf (θ 0 ω) m s) * W 0 ω + (1 - a) * W 0 ω) ∂Pr =
      Real.exp a * ∫ ω, W 0 ω ∂Pr := by
    rw [integral_const_mul, integral_add i1 (i3.const_mul _), ha, integral_const_mul]
    ring
  rw [← hlow]
  refine integral_mono ((i1.add (i3.const_mul _)).const_mul _) i2 fun ω => ?_
  simp only
  set l := logPdf (θ 0 ω) m' s' - logPdf (θ 0 ω) m s
  have h1 : l - a + 1 ≤ Real.exp (l - a) := Real.add_one_le_exp _
  have h2 : Real.exp l = Real.exp a * Real.exp (l - a) := by rw [← Real.exp_add]; congr 1; ring
  rw [h2]
  have h3 := hW ω
  have h4 := Real.exp_pos a
  calc Real.exp a * (l * W 0 ω + (1 - a) * W 0 ω) = Real.exp a * (l - a + 1) * W 0 ω := by ring
    _ ≤ Real.exp a * Real.exp (l - a) * W 0 ω := by gcongr

/-- The first `k` episodes with their weights. -/
def sample (θ : ℕ → Ω → Vec n) (W : ℕ → Ω → ℝ) (k : ℕ) (ω : Ω) : List (ℝ × Vec n) := (List.range k).map fun i => (W i ω, θ i ω)

theorem sum_sample (θ : ℕ → Ω → Vec n) (W : ℕ → Ω → ℝ) (k : ℕ) (ω : Ω) (g : ℝ × Vec n → ℝ) :
    ((sample θ W k ω).map g).sum = k * average (List.range k) (fun i => g (W i ω, θ i ω)) := by
  unfold sample average
  rw [List.map_map, List.length_range]
  by_cases hk : k = 0
  · subst hk; simp
  · have : (k : ℝ) ≠ 0 := by exact_mod_cast hk
    field_simp
    rfl

theorem hasExpect_coord (hs : s.PosDef) (j : Fin n) : HasExpect m s (fun x => x j) := by
  have h := (mean_add m s _ _ (normal_mean m s hs j).1 (normal_one m s hs (m j)).1).1
  simpa using h

theorem hasExpect_sq (hs : s.PosDef) (j : Fin n) (c : ℝ) : HasExpect m s (fun x => (x j - c) ^ 2) := by
  have h1 := (normal_cov m s hs j j).1
  have h2 := (mean_mul m s (2 * (m j - c)) _ (normal_mean m s hs j).1).1
  have h3 := (normal_one m s hs ((m j - c) ^ 2)).1
  have h4 := (mean_add m s _ _ (mean_add m s _ _ h1 h2).1 h3).1
  exact h4.congr (ae_of_all _ fun x => by simp only; ring)

theorem mean_sq (hs : s.PosDef) (j : Fin n) (c : ℝ) : mean m s (fun x => (x j - c) ^ 2) = s j j + (m j - c) ^ 2 := by
  have h1 := normal_cov m s hs j j
  have h2 := mean_mul m s (2 * (m j - c)) _ (normal_mean m s hs j).1
  have h3 := normal_one m s hs ((m j - c) ^ 2)
  have h5 := mean_add m s _ _ h1.1 h2.1
  have h4 := mean_add m s _ _ h5.1 h3.1
  rw [h5.2, h1.2, h2.2, (normal_mean m s hs j).2, h3.2, mul_zero, add_zero] at h4
  rw [← h4.2]
  congr 1
  funext x
  ring

/-- The weighted mean of the parameters. -/
noncomputable def tiltedMean (Pr : Measure Ω) (θ : ℕ → Ω → Vec n) (W : ℕ → Ω → ℝ) : Vec n :=
  fun j => (∫ ω, θ 0 ω j * W 0 ω ∂Pr) / ∫ ω, W 0 ω ∂Pr

/-- The weighted variances. -/
noncomputable def tiltedVar (Pr : Measure Ω) (θ : ℕ → Ω → Vec n) (W : ℕ → Ω → ℝ) : Vec n :=
  fun j => (∫ ω, (θ 0 ω j - tiltedMean Pr θ W j) ^ 2 * W 0 ω ∂Pr) / ∫ ω, W 0 ω ∂Pr

theorem Rounds.wmean_limit (h : Rounds Pr m s f C θ W) (hW : ∀ ω, 0 < W 0 ω) (hs : s.PosDef) :
    ∀ᵐ ω ∂Pr, Tendsto (fun k => average (List.range k) (fun i => W i ω)) atTop (𝓝 (∫ ω, W 0 ω ∂Pr)) ∧
      ∀ j, Tendsto (fun k => wmean (sample θ W k ω) j) atTop (𝓝 (tiltedMean Pr θ W j)) := by
  have l1 := h.strongLaw (fun p => p.2) measurable_snd (h.integrable_return 0)
  have l2 : ∀ᵐ ω ∂Pr, ∀ j, Tendsto (fun k => average (List.range k) (fun i => θ i ω j * W i ω)) atTop
      (𝓝 (∫ ω, θ 0 ω j * W 0 ω ∂Pr)) := by
    refine ae_all_iff.2 fun j => ?_
    refine h.strongLaw (fun p => p.1 j * p.2) (by fun_prop) ?_
    exact (h.integral_mul (fun x => x j) (measurable_pi_apply j) (hasExpect_coord hs j)).2.1
  filter_upwards [l1, l2] with ω h1 h2
  refine ⟨h1, fun j => ?_⟩
  refine ((h2 j).div h1 (h.total_pos hW).ne').congr' ?_
  filter_upwards [eventually_gt_atTop 0] with k hk
  have : (k : ℝ) ≠ 0 := by exact_mod_cast hk.ne'
  simp only [wmean, sumD, sum_sample]
  rw [mul_div_mul_left _ _ this]
  show average _ _ / average _ _ = _
  congr 2
  funext i
  ring

theorem Rounds.tilted_first (h : Rounds Pr m s f C θ W) (hW : ∀ ω, 0 < W 0 ω) (hs : s.PosDef) (j : Fin n) (c : ℝ) :
    Integrable (fun ω => (θ 0 ω j - c) * W 0 ω) Pr ∧
      ∫ ω, (θ 0 ω j - c) * W 0 ω ∂Pr = (tiltedMean Pr θ W j - c) * ∫ ω, W 0 ω ∂Pr := by
  have i1 := (h.integral_mul (fun x => x j) (measurable_pi_apply j) (hasExpect_coord hs j)).2.1
  have i2 := (h.integrable_return 0).const_mul c
  simp only [sub_mul]
  refine ⟨i1.sub i2, ?_⟩
  rw [integral_sub i1 i2, integral_const_mul, tiltedMean, div_mul_cancel₀ _ (h.total_pos hW).ne']

theorem Rounds.tilted_second (h : Rounds Pr m s f C θ W) (hW : ∀ ω, 0 < W 0 ω) (hs : s.PosDef) (j : Fin n) (c : ℝ) :
    Integrable (fun ω => (θ 0 ω j - c) ^ 2 * W 0 ω) Pr ∧
      ∫ ω, (θ 0 ω j - c) ^ 2 * W 0 ω ∂Pr = (tiltedVar Pr θ W j + (tiltedMean Pr θ W j - c) ^ 2) * ∫ ω, W 0 ω ∂Pr := by
  have i0 : ∀ c, Integrable (fun ω => (θ 0 ω j - c) ^ 2 * W 0 ω) Pr := fun c =>
    (h.integral_mul (fun x => (x j - c) ^ 2) (by fun_prop) (hasExpect_sq hs j c)).2.1
  refine ⟨i0 c, ?_⟩
  set b := tiltedMean Pr θ W j with hb
  obtain ⟨i1, e1⟩ := h.tilted_first hW hs j b
  have i2 := i0 b
  have i3 := h.integrable_return 0
  have e : ∫ ω, (θ 0 ω j - c) ^ 2 * W 0 ω ∂Pr =
      ∫ ω, ((θ 0 ω j - b) ^ 2 * W 0 ω + 2 * (b - c) * ((θ 0 ω j - b) * W 0 ω)) + (b - c) ^ 2 * W 0 ω ∂Pr :=
    integral_congr_ae (ae_of_all _ fun ω => by simp only; ring)
  have i12 : Integrable (fun ω => (θ 0 ω j - b) ^ 2 * W 0 ω + 2 * (b - c) * ((θ 0 ω j - b) * W 0 ω)) Pr := i2.add (i1.const_mul _)
  rw [e, integral_add i12 (i3.const_mul _), integral_add i2 (i1.const_mul _), integral_const_mul,
    integral_const_mul, e1, ← hb, sub_self, add_mul]
  have : tiltedVar Pr θ W j * ∫ ω, W 0 ω ∂Pr = ∫ ω, (θ 0 ω j - b) ^ 2 * W 0 ω ∂Pr := by
    rw [tiltedVar, div_mul_cancel₀ _ (h.total_pos hW).ne']
  rw [this]
  ring

theorem Rounds.tiltedVar_pos (h : Rounds Pr m s f C θ W) (hW : ∀ ω, 0 < W 0 ω) (hs : s.PosDef) (j : Fin n) :
    0 < tiltedVar Pr θ W j := by
  refine div_pos ?_ (h.total_pos hW)
  set b := tiltedMean Pr θ W j
  have hnn : ∀ ω, 0 ≤ (θ 0 ω j - b) ^ 2 * W 0 ω := fun ω => mul_nonneg (sq_nonneg _) (hW ω).le
  refine lt_of_le_of_ne (integral_nonneg hnn) fun h0 => ?_
  have hz := (integral_eq_zero_iff_of_nonneg hnn (h.tilted_second hW hs j b).1).1 h0.symm
  have hz2 : ∫ ω, (θ 0 ω j - b) ^ 2 ∂Pr = 0 := by
    rw [integral_congr_ae (g := fun _ => 0)]
    · simp
    · filter_upwards [hz] with ω hω
      rcases mul_eq_zero.1 hω with h1 | h1
      · exact h1
      · exact absurd h1 (hW ω).ne'
  have := (h.integral_mul (fun x => (x j - b) ^ 2) (by fun_prop) (hasExpect_sq hs j b)).2.2.1
  rw [hz2, mean_sq hs] at this
  have hd : 0 < s j j := hs.diag_pos
  nlinarith [sq_nonneg (m j - b)]

theorem Rounds.var_limit (h : Rounds Pr m s f C θ W) (hW : ∀ ω, 0 < W 0 ω) (hs : s.PosDef) :
    ∀ᵐ ω ∂Pr, ∀ j, Tendsto (fun k => ((sample θ W k ω).map (fun p => p.1 * (p.2 j - wmean (sample θ W k ω) j) ^ 2)).sum /
      zOf (sample θ W k ω)) atTop (𝓝 (tiltedVar Pr θ W j)) := by
  have iW2 : Integrable (fun ω => W 0 ω * W 0 ω) Pr :=
    (h.integrable_return 0).mul_bdd (c := C) (h.measurable_return 0).aestronglyMeasurable
      (ae_of_all _ fun ω => by simpa using h.bounded 0 ω)
  have l0 := h.strongLaw (fun p => p.2 * p.2) (by fun_prop) iW2
  have l1 : ∀ᵐ ω ∂Pr, ∀ j, Tendsto (fun k => average (List.range k) (fun i => (θ i ω j - 0) * W i ω)) atTop
      (𝓝 (∫ ω, (θ 0 ω j - 0) * W 0 ω ∂Pr)) :=
    ae_all_iff.2 fun j => h.strongLaw (fun p => (p.1 j - 0) * p.2) (by fun_prop) (h.tilted_first hW hs j 0).1
  have l2 : ∀ᵐ ω ∂Pr, ∀ j, Tendsto (fun k => average (List.range k) (fun i => (θ i ω j - 0) ^ 2 * W i ω)) atTop
      (𝓝 (∫ ω, (θ 0 ω j - 0) ^ 2 * W 0 ω ∂Pr)) :=
    ae_all_iff.2 fun j => h.strongLaw (fun p => (p.1 j - 0) ^ 2 * p.2) (by fun_prop) (h.tilted_second hW hs j 0).1
  filter_upwards [h.wmean_limit hW hs, l0, l1, l2] with ω hm h0 h1 h2 j
  have hZ := (h.total_pos hW).ne'
  have hk : Tendsto (fun k : ℕ => (k : ℝ)⁻¹) atTop (𝓝 0) := tendsto_inv_atTop_nhds_zero_nat
  have num := ((h2 j).sub (((hm.2 j).const_mul 2).mul (h1 j))).add (((hm.2 j).pow 2).mul hm.1)
  have den := hm.1.sub ((hk.mul h0).div hm.1 hZ)
  rw [(h.tilted_first hW hs j 0).2, (h.tilted_second hW hs j 0).2] at num
  have lim := num.div den (by simpa using hZ)
  have hv : ((tiltedVar Pr θ W j + (tiltedMean Pr θ W j - 0) ^ 2) * ∫ ω, W 0 ω ∂Pr -
      2 * tiltedMean Pr θ W j * ((tiltedMean Pr θ W j - 0) * ∫ ω, W 0 ω ∂Pr) + tiltedMean Pr θ W j ^ 2 * ∫ ω, W 0 ω ∂Pr) /
      (∫ ω, W 0 ω ∂Pr - 0 * (∫ ω, W 0 ω * W 0 ω ∂Pr) / ∫ ω, W 0 ω ∂Pr) = tiltedVar Pr θ W j := by
    field_simp
    ring
  rw [hv] at lim
  refine lim.congr' ?_
  filter_upwards [eventually_gt_atTop 0] with k hk
  have hk0 : (k : ℝ) ≠ 0 := by exact_mod_cast hk.ne'
  set c := wmean (sample θ W k ω) j
  have e1 : ((sample θ W k ω).map (fun p => p.1 * (p.2 j - c) ^ 2)).sum =
      k * (average (List.range k) (fun i => (θ i ω j - 0) ^ 2 * W i ω) - 2 * c * average (List.range k) (fun i => (θ i ω j - 0) * W i ω) +
        c ^ 2 * average (List.range k) (fun i => W i ω)) := by
    rw [sum_sample, ← average_sub_mul, ← sub_neg_eq_add, ← neg_mul, ← average_sub_mul]
    congr 2
    funext i
    ring
  have e2 : zOf (sample θ W k ω) = k * (average (List.range k) (fun i => W i ω) -
      (k : ℝ)⁻¹ * average (List.range k) (fun i => W i ω * W i ω) / average (List.range k) (fun i => W i ω)) := by
    simp only [zOf, sumD, sumD2, sum_sample]
    rw [mul_sub, mul_div_mul_left _ _ hk0]
    congr 1
    rw [← mul_div_assoc, ← mul_assoc, mul_inv_cancel₀ hk0, one_mul]
    congr 2
    funext i
    ring
  rw [e1, e2, mul_div_mul_left _ _ hk0]
  rfl

/-! ### The gain -/

theorem logPdf_move (m m' : Vec n) (s : Matrix (Fin n) (Fin n) ℝ) (hs : s.PosDef) (x : Vec n) :
    logPdf x m' s - logPdf x m s =
      ∑ j, (s⁻¹ *ᵥ (m' - m)) j * (x j - m j) - 1 / 2 * ((m' - m) ⬝ᵥ (s⁻¹ *ᵥ (m' - m))) := by
  have hv : x - m' = (x - m) - (m' - m) := by abel
  have hsym : ∀ u v : Vec n, u ⬝ᵥ (s⁻¹ *ᵥ v) = v ⬝ᵥ (s⁻¹ *ᵥ u) := by
    intro u v
    rw [dotProduct_mulVec, ← mulVec_transpose, posDef_symm s hs, dotProduct_comm]
  have hq : (x - m') ⬝ᵥ (s⁻¹ *ᵥ (x - m')) = (x - m) ⬝ᵥ (s⁻¹ *ᵥ (x - m)) - 2 * ((x - m) ⬝ᵥ (s⁻¹ *ᵥ (m' - m))) +
      (m' - m) ⬝ᵥ (s⁻¹ *ᵥ (m' - m)) := by
    rw [hv, mulVec_sub, sub_dotProduct, dotProduct_sub, dotProduct_sub, hsym (m' - m) (x - m)]
    ring
  have he : ∑ j, (s⁻¹ *ᵥ (m' - m)) j * (x j - m j) = (x - m) ⬝ᵥ (s⁻¹ *ᵥ (m' - m)) := by
    rw [dotProduct]
    exact Finset.sum_congr rfl fun j _ => by rw [Pi.sub_apply]; ring
  unfold logPdf
  rw [hq, he]
  ring

theorem Rounds.gauss_gain (h : Rounds Pr m s f C θ W) (hW : ∀ ω, 0 < W 0 ω) (hs : s.PosDef) :
    ∫ ω, (logPdf (θ 0 ω) (tiltedMean Pr θ W) s - logPdf (θ 0 ω) m s) * W 0 ω ∂Pr =
      1 / 2 * ((tiltedMean Pr θ W - m) ⬝ᵥ (s⁻¹ *ᵥ (tiltedMean Pr θ W - m))) * ∫ ω, W 0 ω ∂Pr := by
  set b := tiltedMean Pr θ W with hb
  set q := (b - m) ⬝ᵥ (s⁻¹ *ᵥ (b - m)) with hq
  have e : ∫ ω, (logPdf (θ 0 ω) b s - logPdf (θ 0 ω) m s) * W 0 ω ∂Pr =
      ∫ ω, ∑ j, (s⁻¹ *ᵥ (b - m)) j * ((θ 0 ω j - m j) * W 0 ω) - 1 / 2 * q * W 0 ω ∂Pr := by
    refine integral_congr_ae (ae_of_all _ fun ω => ?_)
    simp only
    rw [logPdf_move m b s hs, sub_mul, Finset.sum_mul]
    congr 1
    exact Finset.sum_congr rfl fun j _ => by ring
  have i1 : ∀ j ∈ (Finset.univ : Finset (Fin n)), Integrable (fun ω => (s⁻¹ *ᵥ (b - m)) j * ((θ 0 ω j - m j) * W 0 ω)) Pr :=
    fun j _ => (h.tilted_first hW hs j (m j)).1.const_mul _
  rw [e, integral_sub (integrable_finset_sum _ i1) ((h.integrable_return 0).const_mul _), integral_finset_sum _ i1, integral_const_mul]
  simp only [integral_const_mul, (h.tilted_first hW hs _ _).2, ← hb]
  have hs2 : ∑ j, (s⁻¹ *ᵥ (b - m)) j * ((b j - m j) * ∫ ω, W 0 ω ∂Pr) = q * ∫ ω, W 0 ω ∂Pr := by
    rw [hq, dotProduct, Finset.sum_mul]
    exact Finset.sum_congr rfl fun j _ => by rw [Pi.sub_apply]; ring
  rw [hs2]
  ring

theorem Rounds.diag_gain {v : Vec n} (h : Rounds Pr m (Matrix.diagonal fun k => v k ^ 2) f C θ W) (hW : ∀ ω, 0 < W 0 ω)
    (hv : ∀ j, 0 < v j) :
    ∫ ω, (logPdf (θ 0 ω) (tiltedMean Pr θ W) (Matrix.diagonal (tiltedVar Pr θ W)) -
        logPdf (θ 0 ω) m (Matrix.diagonal fun k => v k ^ 2)) * W 0 ω ∂Pr =
      1 / 2 * (∑ j, (tiltedVar Pr θ W j / v j ^ 2 - 1 - Real.log (tiltedVar Pr θ W j / v j ^ 2) +
        (tiltedMean Pr θ W j - m j) ^ 2 / v j ^ 2)) * ∫ ω, W 0 ω ∂Pr := by
  have hp := posDef_diagonal v hv
  have ht := h.tiltedVar_pos hW hp
  set t := tiltedVar Pr θ W with htd
  set b := tiltedMean Pr θ W with hb
  have e : ∫ ω, (logPdf (θ 0 ω) b (Matrix.diagonal t) - logPdf (θ 0 ω) m (Matrix.diagonal fun k => v k ^ 2)) * W 0 ω ∂Pr =
      ∫ ω, ∑ j, ((-(1 / 2) * Real.log (t j / v j ^ 2) * W 0 ω + -(1 / (2 * t j)) * ((θ 0 ω j - b j) ^ 2 * W 0 ω)) +
        1 / (2 * v j ^ 2) * ((θ 0 ω j - m j) ^ 2 * W 0 ω)) ∂Pr := by
    refine integral_congr_ae (ae_of_all _ fun ω => ?_)
    simp only
    rw [logPdf_diagonal _ _ _ (fun k => (ht k).ne'), logPdf_diagonal _ _ _ (fun k => (pow_pos (hv k) 2).ne')]
    have : ∀ j, Real.log (t j / v j ^ 2) = Real.log (t j) - Real.log (v j ^ 2) := fun j =>
      Real.log_div (ht j).ne' (pow_pos (hv j) 2).ne'
    simp only [this]
    have hsum : ∑ j, ((-(1 / 2) * (Real.log (t j) - Real.log (v j ^ 2)) * W 0 ω + -(1 / (2 * t j)) * ((θ 0 ω j - b j) ^ 2 * W 0 ω)) +
        1 / (2 * v j ^ 2) * ((θ 0 ω j - m j) ^ 2 * W 0 ω)) =
        (∑ j, (-(1 / 2) * (Real.log (t j) + (θ 0 ω j - b j) ^ 2 / t j) + 1 / 2 * (Real.log (v j ^ 2) + (θ 0 ω j - m j) ^ 2 / v j ^ 2))) *
          W 0 ω := by
      rw [Finset.sum_mul]
      refine Finset.sum_congr rfl fun j _ => ?_
      have h1 := (ht j).ne'
      have h2 := (hv j).ne'
      field_simp
      ring
    rw [hsum, Finset.sum_add_distrib, ← Finset.mul_sum, ← Finset.mul_sum, Finset.sum_add_distrib, Finset.sum_add_distrib]
    ring
  have i0 := h.integrable_return 0
  have i1 : ∀ j, Integrable (fun ω => -(1 / (2 * t j)) * ((θ 0 ω j - b j) ^ 2 * W 0 ω)) Pr := fun j =>
    (h.tilted_second hW hp j (b j)).1.const_mul _
  have i2 : ∀ j, Integrable (fun ω => 1 / (2 * v j ^ 2) * ((θ 0 ω j - m j) ^ 2 * W 0 ω)) Pr := fun j =>
    (h.tilted_second hW hp j (m j)).1.const_mul _
  have i01 : ∀ j, Integrable (fun ω => -(1 / 2) * Real.log (t j / v j ^ 2) * W 0 ω +
      -(1 / (2 * t j)) * ((θ 0 ω j - b j) ^ 2 * W 0 ω)) Pr := fun j => (i0.const_mul _).add (i1 j)
  have i012 : ∀ j, Integrable (fun ω => (-(1 / 2) * Real.log (t j / v j ^ 2) * W 0 ω +
      -(1 / (2 * t j)) * ((θ 0 ω j - b j) ^ 2 * W 0 ω)) + 1 / (2 * v j ^ 2) * ((θ 0 ω j - m j) ^ 2 * W 0 ω)) Pr := fun j =>
    (i01 j).add (i2 j)
  rw [e, integral_finset_sum _ (fun j _ => i012 j), Finset.mul_sum, Finset.sum_mul]
  refine Finset.sum_congr rfl fun j _ => ?_
  rw [integral_add (i01 j) (i2 j), integral_add (i0.const_mul _) (i1 j), integral_const_mul, integral_const_mul, integral_const_mul,
    (h.tilted_second hW hp j (b j)).2, (h.tilted_second hW hp j (m j)).2, ← htd, ← hb, sub_self]
  have h1 := (ht j).ne'
  have h2 := (hv j).ne'
  field_simp
  ring

/-! ### The updates -/

theorem exp_weights (J : List ℝ) (theta : List (Vec n)) (beta : ℝ) :
    (rwrWeights beta J).zip theta = ((J.map fun x => Real.exp (beta * x)).zip theta).map
      (fun p : ℝ × Vec n => (Real.exp (-(beta * maxJ J)) * p.1, p.2)) := by
  have : rwrWeights beta J = (J.map fun x => Real.exp (beta * x)).map (fun w => Real.exp (-(beta * maxJ J)) * w) := by
    unfold rwrWeights
    rw [List.map_map]
    refine List.map_congr_left fun x _ => ?_
    simp only [Function.comp_apply]
    rw [← Real.exp_add]
    congr 1
    ring
  rw [this, List.zip_map_left]
  rfl

theorem zip_sample (θ : ℕ → Ω → Vec n) (J : ℕ → Ω → ℝ) (beta : ℝ) (k : ℕ) (ω : Ω) :
    ((((List.range k).map fun i => J i ω).map fun x => Real.exp (beta * x)).zip ((List.range k).map fun i => θ i ω)) =
      sample θ (fun i ω => Real.exp (beta * J i ω)) k ω := by
  rw [List.map_map, List.zip_map']
  rfl

variable {J : ℕ → Ω → ℝ} {beta : ℝ}

/-- The limit of the mean. -/
theorem gauss_limit (mu : Vec n) (sigma : Matrix (Fin n) (Fin n) ℝ) (hs : sigma.PosDef) (g : Gauss n)
    (hg : Gauss.new mu sigma = some g) (h : Utilities Pr mu sigma beta f C θ J) :
    ∀ mu', mu' = tiltedMean Pr θ (fun i ω => Real.exp (beta * J i ω)) →
      (∀ᵐ ω ∂Pr, ∃ new : ℕ → Gauss n,
        (∀ k, 0 < k → rwrUpdate g beta ((List.range k).map fun i => J i ω) ((List.range k).map fun i => θ i ω) = some (new k)) ∧
        (∀ k, (new k).sigma = sigma) ∧ ∀ j, Tendsto (fun k => (new k).mu j) atTop (𝓝 (mu' j))) ∧
      performance mu sigma f ≤ performance mu' sigma f ∧ (mu' ≠ mu → performance mu sigma f < performance mu' sigma f) := by
  have hg' : g = { mu := mu, sigma := sigma, invSigma := sigma⁻¹ } := by
    unfold Gauss.new at hg
    split at hg
    · simp at hg
    · simpa using hg.symm
  subst hg'
  unfold Utilities at h
  set W : ℕ → Ω → ℝ := fun i ω => Real.exp (beta * J i ω) with hWd
  have hW : ∀ ω, 0 < W 0 ω := fun ω => Real.exp_pos _
  rintro _ rfl
  constructor
  · filter_upwards [h.wmean_limit hW hs] with ω hω
    refine ⟨fun k => ⟨wmean (sample θ W k ω), sigma, sigma⁻¹⟩, fun k hk => ?_, fun _ => rfl, hω.2⟩
    rw [rwrUpdate, exp_weights, (C58_scale _ (Real.exp_pos _) _ ⟨0, 0⟩ ⟨0, 0⟩ _ (fun _ => none)).2.2, zip_sample]
    refine if_neg ?_
    have : 0 < sumD (sample θ W k ω) := by
      unfold sumD sample
      refine List.sum_pos _ ?_ (by simp; omega)
      intro x hx
      simp only [List.map_map, List.mem_map] at hx
      obtain ⟨i, _, rfl⟩ := hx
      exact Real.exp_pos _
    exact this.ne'
  · have ha := h.gauss_gain hW hs
    have himp := h.improve hW hs _ sigma hs _ ha
    have hpos : 0 < performance mu sigma f := by rw [← h.total hs]; exact h.total_pos hW
    constructor
    · refine le_trans ?_ himp
      have : 0 ≤ (tiltedMean Pr θ W - mu) ⬝ᵥ (sigma⁻¹ *ᵥ (tiltedMean Pr θ W - mu)) := by
        simpa using hs.inv.posSemidef.dotProduct_mulVec_nonneg (tiltedMean Pr θ W - mu)
      have h1 : 1 ≤ Real.exp (1 / 2 * ((tiltedMean Pr θ W - mu) ⬝ᵥ (sigma⁻¹ *ᵥ (tiltedMean Pr θ W - mu)))) :=
        Real.one_le_exp (by positivity)
      exact le_mul_of_one_le_left hpos.le h1
    · intro hne
      refine lt_of_lt_of_le ?_ himp
      have : 0 < (tiltedMean Pr θ W - mu) ⬝ᵥ (sigma⁻¹ *ᵥ (tiltedMean Pr θ W - mu)) := by
        simpa using hs.inv.dotProduct_mulVec_pos (sub_ne_zero.2 hne)
      have h1 : 1 < Real.exp (1 / 2 * ((tiltedMean Pr θ W - mu) ⬝ᵥ (sigma⁻¹ *ᵥ (tiltedMean Pr θ W - mu)))) :=
        Real.one_lt_exp_iff.2 (by positivity)
      exact lt_mul_of_one_lt_left hpos h1

/-- C178 (fixed covariance). Let RWR search with a Gaussian with a fixed positive definite covariance. As the number of episodes of an
update grows, the new mean converges almost surely to a mean for which the expected exponential of `beta` times the return is at
least that of the old mean, and larger if the mean moves at all. -/
theorem C178_gauss (mu : Vec n) (sigma : Matrix (Fin n) (Fin n) ℝ) (hs : sigma.PosDef) (g : Gauss n)
    (hg : Gauss.new mu sigma = some g) (h : Utilities Pr mu sigma beta f C θ J) :
    ∃ mu' : Vec n,
      (∀ᵐ ω ∂Pr, ∃ new : ℕ → Gauss n,
        (∀ k, 0 < k → rwrUpdate g beta ((List.range k).map fun i => J i ω) ((List.range k).map fun i => θ i ω) = some (new k)) ∧
        (∀ k, (new k).sigma = sigma) ∧ ∀ j, Tendsto (fun k => (new k).mu j) atTop (𝓝 (mu' j))) ∧
      performance mu sigma f ≤ performance mu' sigma f ∧ (mu' ≠ mu → performance mu sigma f < performance mu' sigma f) :=
  ⟨_, gauss_limit mu sigma hs g hg h _ rfl⟩

/-- C178 (diagonal covariance). The same with a Gaussian with a diagonal covariance: the mean and the standard deviations converge
almost surely, and for the limits the expected exponential of `beta` times the return is at least that of the old distribution, and
larger if the distribution changes at all. -/
theorem C178_diag (g : Diag n) (hs : ∀ j, 0 < g.std j) (h : Utilities Pr g.mu (Matrix.diagonal fun k => g.std k ^ 2) beta f C θ J) :
    ∃ g' : Diag n, (∀ j, 0 < g'.std j) ∧
      (∀ᵐ ω ∂Pr, ∃ new : ℕ → Diag n,
        (∀ k, 2 ≤ k → rwrUpdateDiag g beta ((List.range k).map fun i => J i ω) ((List.range k).map fun i => θ i ω) = some (new k)) ∧
        ∀ j, Tendsto (fun k => (new k).mu j) atTop (𝓝 (g'.mu j)) ∧ Tendsto (fun k => (new k).std j) atTop (𝓝 (g'.std j))) ∧
      performance g.mu (Matrix.diagonal fun k => g.std k ^ 2) f ≤ performance g'.mu (Matrix.diagonal fun k => g'.std k ^ 2) f ∧
      (g' ≠ g → performance g.mu (Matrix.diagonal fun k => g.std k ^ 2) f <
        performance g'.mu (Matrix.diagonal fun k => g'.std k ^ 2) f) := by
  unfold Utilities at h
  set W : ℕ → Ω → ℝ := fun i ω => Real.exp (beta * J i ω) with hWd
  have hW : ∀ ω, 0 < W 0 ω := fun ω => Real.exp_pos _
  have hp := posDef_diagonal g.std hs
  have hv := h.tiltedVar_pos hW hp
  have hstd : ∀ j, 0 < Real.sqrt (tiltedVar Pr θ W j) := fun j => Real.sqrt_pos.2 (hv j)
  refine ⟨⟨tiltedMean Pr θ W, fun j => Real.sqrt (tiltedVar Pr θ W j)⟩, hstd, ?_, ?_⟩
  · filter_upwards [h.wmean_limit hW hp, h.var_limit hW hp] with ω hω hω2
    refine ⟨fun k => ⟨wmean (sample θ W k ω), fun j => Real.sqrt (((sample θ W k ω).map
      (fun p => p.1 * (p.2 j - wmean (sample θ W k ω) j) ^ 2)).sum / zOf (sample θ W k ω))⟩, fun k hk => ?_,
      fun j => ⟨hω.2 j, (Real.continuous_sqrt.tendsto _).comp (hω2 j)⟩⟩
    rw [rwrUpdateDiag, exp_weights, (C58_scale _ (Real.exp_pos _) _ g ⟨0, 0⟩ ⟨0, 0, 0⟩ (fun _ => none)).1, zip_sample]
    obtain ⟨k, rfl⟩ : ∃ i, k = i + 2 := ⟨k - 2, by omega⟩
    have hl : sample θ W (k + 2) ω = [] ++ (W 0 ω, θ 0 ω) :: [] ++ (W 1 ω, θ 1 ω) ::
        ((List.range k).map fun i => (W (i + 2) ω, θ (i + 2) ω)) := by
      unfold sample
      rw [List.range_succ_eq_map, List.range_succ_eq_map]
      simp [Function.comp_def]
    obtain ⟨g', hg', _⟩ := C58_diag_wmle_partial g (sample θ W (k + 2) ω) _ _ _ _ _ hl (Real.exp_pos _) (Real.exp_pos _) (by
      intro p hp
      obtain ⟨i, _, rfl⟩ := List.mem_map.1 hp
      exact (Real.exp_pos _).le)
    unfold Diag.wmle at hg' ⊢
    simp only at hg' ⊢
    split at hg'
    · simp at hg'
    · next hc => rw [if_neg hc]
  · have hsq : (fun k => Real.sqrt (tiltedVar Pr θ W k) ^ 2) = tiltedVar Pr θ W := funext fun k => Real.sq_sqrt (hv k).le
    have hp' := posDef_diagonal (fun j => Real.sqrt (tiltedVar Pr θ W j)) hstd
    simp only at hp' ⊢
    rw [hsq] at hp' ⊢
    have ha := h.diag_gain hW hs
    have himp := h.improve hW hp _ _ hp' _ ha
    have hpos : 0 < performance g.mu (Matrix.diagonal fun k => g.std k ^ 2) f := by rw [← h.total hp]; exact h.total_pos hW
    have hterm : ∀ j, 0 ≤ tiltedVar Pr θ W j / g.std j ^ 2 - 1 - Real.log (tiltedVar Pr θ W j / g.std j ^ 2) := by
      intro j
      have := Real.log_le_sub_one_of_pos (div_pos (hv j) (pow_pos (hs j) 2))
      linarith
    have hterm2 : ∀ j, 0 ≤ (tiltedMean Pr θ W j - g.mu j) ^ 2 / g.std j ^ 2 := fun j => by positivity
    constructor
    · refine le_trans ?_ himp
      refine le_mul_of_one_le_left hpos.le (Real.one_le_exp ?_)
      refine mul_nonneg (by norm_num) (Finset.sum_nonneg fun j _ => add_nonneg (hterm j) (hterm2 j))
    · intro hne
      refine lt_of_lt_of_le ?_ himp
      refine lt_mul_of_one_lt_left hpos (Real.one_lt_exp_iff.2 (mul_pos (by norm_num) ?_))
      refine lt_of_le_of_ne (Finset.sum_nonneg fun j _ => add_nonneg (hterm j) (hterm2 j)) fun h0 => hne ?_
      have hz := (Finset.sum_eq_zero_iff_of_nonneg fun j _ => add_nonneg (hterm j) (hterm2 j)).1 h0.symm
      have hmu : ∀ j, tiltedMean Pr θ W j = g.mu j := by
        intro j
        have h1 := hz j (Finset.mem_univ j)
        have h2 : (tiltedMean Pr θ W j - g.mu j) ^ 2 / g.std j ^ 2 = 0 := by linarith [hterm j, hterm2 j]
        have h3 := (div_eq_zero_iff.1 h2).resolve_right (pow_pos (hs j) 2).ne'
        have h4 := pow_eq_zero_iff (two_ne_zero) |>.1 h3
        linarith
      have hsd : ∀ j, Real.sqrt (tiltedVar Pr θ W j) = g.std j := by
        intro j
        have h1 := hz j (Finset.mem_univ j)
        have h2 : tiltedVar Pr θ W j / g.std j ^ 2 - 1 - Real.log (tiltedVar Pr θ W j / g.std j ^ 2) = 0 := by
          linarith [hterm j, hterm2 j]
        have h3 : tiltedVar Pr θ W j / g.std j ^ 2 = 1 := by
          by_contra hn
          have := Real.log_lt_sub_one_of_pos (div_pos (hv j) (pow_pos (hs j) 2)) hn
          linarith
        rw [div_eq_one_iff_eq (pow_pos (hs j) 2).ne'] at h3
        rw [h3, Real.sqrt_sq (hs j).le]
      rcases g with ⟨a, b⟩
      simp only [Diag.mk.injEq]
      exact ⟨funext hmu, funext hsd⟩

end Improve

/-! ### Examples -/

/-- Episodes with a return that depends only on the parameters. -/
theorem utilities_exist (m : Vec n) (s : Matrix (Fin n) (Fin n) ℝ) (hs : s.PosDef) (beta : ℝ) (hb : 0 ≤ beta) (R : Vec n → ℝ)
    (hR : Measurable R) (c : ℝ) (hc : ∀ x, R x ≤ c) :
    ∃ Pr : Measure (ℕ → Vec n), IsProbabilityMeasure Pr ∧
      Utilities Pr m s beta (fun x => Real.exp (beta * R x)) (Real.exp (beta * c)) (fun i ω => ω i) (fun i ω => R (ω i)) := by
  refine rounds_exist m s hs (fun x => Real.exp (beta * R x)) ((hR.const_mul beta).exp) (Real.exp (beta * c)) fun x => ?_
  rw [abs_of_pos (Real.exp_pos _)]
  exact Real.exp_le_exp.2 (mul_le_mul_of_nonneg_left (hc x) hb)

/-- The hypotheses of `C178_gauss` hold for returns that are not bounded from below. -/
example : ∃ (Pr : Measure (ℕ → Vec 2)) (_ : IsProbabilityMeasure Pr) (g : Gauss 2) (f : Vec 2 → ℝ) (C : ℝ),
    (Matrix.diagonal fun k : Fin 2 => (![1, 2] k : ℝ) ^ 2).PosDef ∧
    Gauss.new ![1, -1] (Matrix.diagonal fun k : Fin 2 => (![1, 2] k : ℝ) ^ 2) = some g ∧
    Utilities Pr ![1, -1] (Matrix.diagonal fun k : Fin 2 => (![1, 2] k : ℝ) ^ 2) 3 f C (fun i ω => ω i)
      (fun i ω => -(ω i 0) ^ 2 - (ω i 1) ^ 2) := by
  have hp := posDef_diagonal (![1, 2] : Vec 2) demo_std
  obtain ⟨Pr, h1, h2⟩ := utilities_exist ![1, -1] _ hp 3 (by norm_num) (fun x => -(x 0) ^ 2 - (x 1) ^ 2) (by fun_prop) 0
    (fun x => by nlinarith [sq_nonneg (x 0), sq_nonneg (x 1)])
  obtain ⟨g, hg⟩ : ∃ g, Gauss.new ![1, -1] (Matrix.diagonal fun k : Fin 2 => (![1, 2] k : ℝ) ^ 2) = some g := by
    unfold Gauss.new
    rw [if_neg hp.det_pos.ne']
    exact ⟨_, rfl⟩
  exact ⟨Pr, h1, g, _, _, hp, hg, h2⟩

/-- The same for `C178_diag`. -/
example : ∃ (Pr : Measure (ℕ → Vec 2)) (_ : IsProbabilityMeasure Pr) (g : Diag 2) (f : Vec 2 → ℝ) (C : ℝ), (∀ j, 0 < g.std j) ∧
    g.std = ![1, 2] ∧ Utilities Pr g.mu (Matrix.diagonal fun k => g.std k ^ 2) 3 f C (fun i ω => ω i)
      (fun i ω => -(ω i 0) ^ 2 - (ω i 1) ^ 2) := by
  have hp := posDef_diagonal (![1, 2] : Vec 2) demo_std
  obtain ⟨Pr, h1, h2⟩ := utilities_exist ![1, -1] _ hp 3 (by norm_num) (fun x => -(x 0) ^ 2 - (x 1) ^ 2) (by fun_prop) 0
    (fun x => by nlinarith [sq_nonneg (x 0), sq_nonneg (x 1)])
  exact ⟨Pr, h1, ⟨![1, -1], ![1, 2]⟩, _, _, demo_std, rfl, h2⟩

end Verif.Search.Pgpe
