/-
Property C178: what RWR improves, with a full covariance.
-/
import Verif.Search.LemmasRwrChol
import Mathlib.Analysis.Matrix.LDL
import Mathlib.LinearAlgebra.Matrix.Block

namespace Verif.Search.Pgpe

open Matrix MeasureTheory ProbabilityTheory Filter Topology

variable {n : ℕ}

section Tilted

variable {Ω : Type} [MeasurableSpace Ω] {Pr : Measure Ω} [IsProbabilityMeasure Pr] {m : Vec n} {s : Matrix (Fin n) (Fin n) ℝ}
  {f : Vec n → ℝ} {C : ℝ} {θ : ℕ → Ω → Vec n} {W : ℕ → Ω → ℝ}

/-- The weighted covariance. -/
noncomputable def tiltedCov (Pr : Measure Ω) (θ : ℕ → Ω → Vec n) (W : ℕ → Ω → ℝ) : Matrix (Fin n) (Fin n) ℝ :=
  fun a b => (∫ ω, (θ 0 ω a - tiltedMean Pr θ W a) * (θ 0 ω b - tiltedMean Pr θ W b) * W 0 ω ∂Pr) / ∫ ω, W 0 ω ∂Pr

theorem hasExpect_cross (hs : s.PosDef) (a b : Fin n) (c d : ℝ) : HasExpect m s (fun x => (x a - c) * (x b - d)) := by
  have h1 := mean_add m s _ _ (normal_cov m s hs a b).1 (mean_mul m s (m b - d) _ (normal_mean m s hs a).1).1
  have h2 := mean_add m s _ _ (mean_mul m s (m a - c) _ (normal_mean m s hs b).1).1 (normal_one m s hs ((m a - c) * (m b - d))).1
  have h3 := (mean_add m s _ _ h1.1 h2.1).1
  have e : (fun x : Vec n => (x a - c) * (x b - d)) = fun x => (x a - m a) * (x b - m b) + (m b - d) * (x a - m a) +
      ((m a - c) * (x b - m b) + (m a - c) * (m b - d)) := by
    funext x; ring
  rw [e]
  exact h3

theorem Rounds.tilted_cross (h : Rounds Pr m s f C θ W) (hW : ∀ ω, 0 < W 0 ω) (hs : s.PosDef) (a b : Fin n) (c d : ℝ) :
    Integrable (fun ω => (θ 0 ω a - c) * (θ 0 ω b - d) * W 0 ω) Pr ∧
      ∫ ω, (θ 0 ω a - c) * (θ 0 ω b - d) * W 0 ω ∂Pr =
        (tiltedCov Pr θ W a b + (tiltedMean Pr θ W a - c) * (tiltedMean Pr θ W b - d)) * ∫ ω, W 0 ω ∂Pr := by
  have i0 : ∀ c d, Integrable (fun ω => (θ 0 ω a - c) * (θ 0 ω b - d) * W 0 ω) Pr := fun c d =>
    (h.integral_mul (fun x => (x a - c) * (x b - d)) (by fun_prop) (hasExpect_cross hs a b c d)).2.1
  refine ⟨i0 c d, ?_⟩
  set u := tiltedMean Pr θ W a with hu
  set v := tiltedMean Pr θ W b with hv
  obtain ⟨i1, e1⟩ := h.tilted_first hW hs a u
  obtain ⟨i2, e2⟩ := h.tilted_first hW hs b v
  have i3 := h.integrable_return 0
  have iA : Integrable (fun ω => (θ 0 ω a - u) * (θ 0 ω b - v) * W 0 ω + (v - d) * ((θ 0 ω a - u) * W 0 ω)) Pr :=
    (i0 u v).add (i1.const_mul _)
  have iB : Integrable (fun ω => (u - c) * ((θ 0 ω b - v) * W 0 ω) + (u - c) * (v - d) * W 0 ω) Pr := (i2.const_mul _).add (i3.const_mul _)
  have e : ∫ ω, (θ 0 ω a - c) * (θ 0 ω b - d) * W 0 ω ∂Pr =
      ∫ ω, ((θ 0 ω a - u) * (θ 0 ω b - v) * W 0 ω + (v - d) * ((θ 0 ω a - u) * W 0 ω)) +
        ((u - c) * ((θ 0 ω b - v) * W 0 ω) + (u - c) * (v - d) * W 0 ω) ∂Pr :=
    integral_congr_ae (ae_of_all _ fun ω => by simp only; ring)
  rw [e, integral_add iA iB, integral_add (i0 u v) (i1.const_mul _), integral_add (i2.const_mul _) (i3.const_mul _), integral_const_mul,
    integral_const_mul, integral_const_mul, e1, e2, ← hu, ← hv, sub_self, sub_self, add_mul]
  have : tiltedCov Pr θ W a b * ∫ ω, W 0 ω ∂Pr = ∫ ω, (θ 0 ω a - u) * (θ 0 ω b - v) * W 0 ω ∂Pr := by
    rw [tiltedCov, div_mul_cancel₀ _ (h.total_pos hW).ne']
  rw [this]
  ring

/-- Quadratic forms. -/
theorem Rounds.tilted_quad (h : Rounds Pr m s f C θ W) (hW : ∀ ω, 0 < W 0 ω) (hs : s.PosDef) (M : Matrix (Fin n) (Fin n) ℝ) (c : Vec n) :
    Integrable (fun ω => (θ 0 ω - c) ⬝ᵥ (M *ᵥ (θ 0 ω - c)) * W 0 ω) Pr ∧
      ∫ ω, (θ 0 ω - c) ⬝ᵥ (M *ᵥ (θ 0 ω - c)) * W 0 ω ∂Pr =
        ((M * tiltedCov Pr θ W).trace + (tiltedMean Pr θ W - c) ⬝ᵥ (M *ᵥ (tiltedMean Pr θ W - c))) * ∫ ω, W 0 ω ∂Pr := by
  have e : (fun ω => (θ 0 ω - c) ⬝ᵥ (M *ᵥ (θ 0 ω - c)) * W 0 ω) =
      fun ω => ∑ a, ∑ b, M a b * ((θ 0 ω a - c a) * (θ 0 ω b - c b) * W 0 ω) := by
    funext ω
    simp only [dotProduct, mulVec, Pi.sub_apply, Finset.mul_sum, Finset.sum_mul]
    exact Finset.sum_congr rfl (fun k _ => Finset.sum_congr rfl (fun l _ => by ring))
  have i1 : ∀ a ∈ (Finset.univ : Finset (Fin n)), ∀ b ∈ (Finset.univ : Finset (Fin n)),
      Integrable (fun ω => M a b * ((θ 0 ω a - c a) * (θ 0 ω b - c b) * W 0 ω)) Pr := fun a _ b _ =>
    (h.tilted_cross hW hs a b _ _).1.const_mul _
  have i2 : ∀ a ∈ (Finset.univ : Finset (Fin n)), Integrable (fun ω => ∑ b, M a b * ((θ 0 ω a - c a) * (θ 0 ω b - c b) * W 0 ω)) Pr :=
    fun a ha => integrable_finset_sum _ (i1 a ha)
  have hsym : ∀ a b, tiltedCov Pr θ W b a = tiltedCov Pr θ W a b := by
    intro a b
    unfold tiltedCov
    congr 2
    funext ω
    ring
  rw [e]
  refine ⟨integrable_finset_sum _ i2, ?_⟩
  rw [integral_finset_sum _ i2]
  have t1 : (M * tiltedCov Pr θ W).trace = ∑ a, ∑ b, M a b * tiltedCov Pr θ W a b := by
    simp only [Matrix.trace, Matrix.diag_apply, Matrix.mul_apply]
    exact Finset.sum_congr rfl (fun k _ => Finset.sum_congr rfl (fun l _ => by rw [hsym]))
  have t2 : (tiltedMean Pr θ W - c) ⬝ᵥ (M *ᵥ (tiltedMean Pr θ W - c)) =
      ∑ a, ∑ b, M a b * ((tiltedMean Pr θ W a - c a) * (tiltedMean Pr θ W b - c b)) := by
    simp only [dotProduct, mulVec, Pi.sub_apply, Finset.mul_sum]
    exact Finset.sum_congr rfl (fun k _ => Finset.sum_congr rfl (fun l _ => by ring))
  rw [t1, t2, ← Finset.sum_add_distrib, Finset.sum_mul]
  refine Finset.sum_congr rfl fun a ha => ?_
  rw [integral_finset_sum _ (i1 a ha), ← Finset.sum_add_distrib, Finset.sum_mul]
  refine Finset.sum_congr rfl fun b _ => ?_
  rw [integral_const_mul, (h.tilted_cross hW hs a b _ _).2]
  ring

theorem Rounds.tiltedCov_posDef (h : Rounds Pr m s f C θ W) (hW : ∀ ω, 0 < W 0 ω) (hs : s.PosDef) : (tiltedCov Pr θ W).PosDef := by
  have hsym : ∀ a b, tiltedCov Pr θ W b a = tiltedCov Pr θ W a b := by
    intro a b
    unfold tiltedCov
    congr 2
    funext ω
    ring
  refine Matrix.PosDef.of_dotProduct_mulVec_pos (by ext a b; simp [hsym a b]) fun x hx => ?_
  set M := vecMulVec x x with hM
  have hquad : ∀ y : Vec n, y ⬝ᵥ (M *ᵥ y) = (x ⬝ᵥ y) ^ 2 := by
    intro y
    rw [hM, vecMulVec_mulVec, dotProduct_comm y]
    simp [smul_dotProduct, sq]
  have htr : ∀ S : Matrix (Fin n) (Fin n) ℝ, (M * S).trace = x ⬝ᵥ (S *ᵥ x) := by
    intro S
    simp only [hM, Matrix.trace, Matrix.diag_apply, Matrix.mul_apply, vecMulVec_apply, dotProduct, mulVec, Finset.mul_sum]
    rw [Finset.sum_comm]
    exact Finset.sum_congr rfl (fun k _ => Finset.sum_congr rfl (fun l _ => by ring))
  obtain ⟨i, e⟩ := h.tilted_quad hW hs M (tiltedMean Pr θ W)
  have hZ := h.total_pos hW
  simp only [hquad, htr, sub_self, dotProduct_zero] at i e
  have hnn : ∀ ω, 0 ≤ (x ⬝ᵥ (θ 0 ω - tiltedMean Pr θ W)) ^ 2 * W 0 ω := fun ω => mul_nonneg (sq_nonneg _) (hW ω).le
  have hpos : 0 < ∫ ω, (x ⬝ᵥ (θ 0 ω - tiltedMean Pr θ W)) ^ 2 * W 0 ω ∂Pr := by
    refine lt_of_le_of_ne (integral_nonneg hnn) fun h0 => ?_
    have hz := (integral_eq_zero_iff_of_nonneg hnn i).1 h0.symm
    have hz2 : ∫ ω, (x ⬝ᵥ (θ 0 ω - tiltedMean Pr θ W)) ^ 2 ∂Pr = 0 := by
      rw [integral_congr_ae (g := fun _ => 0)]
      · simp
      · filter_upwards [hz] with ω hω
        rcases mul_eq_zero.1 hω with h1 | h1
        · exact h1
        · exact absurd h1 (hW ω).ne'
    have hq := normal_quad m (tiltedMean Pr θ W) s M hs
    simp only [hquad, htr] at hq
    have := (h.integral_mul (fun y => (x ⬝ᵥ (y - tiltedMean Pr θ W)) ^ 2) (by unfold dotProduct; fun_prop) hq.1).2.2.1
    rw [hz2, hq.2] at this
    have hp : 0 < x ⬝ᵥ (s *ᵥ x) := by simpa using hs.dotProduct_mulVec_pos hx
    nlinarith [sq_nonneg (x ⬝ᵥ (m - tiltedMean Pr θ W))]
  rw [e] at hpos
  simp only [star_trivial]
  simpa using (pos_iff_pos_of_mul_pos hpos).2 hZ

theorem Rounds.cov_limit (h : Rounds Pr m s f C θ W) (hW : ∀ ω, 0 < W 0 ω) (hs : s.PosDef) :
    ∀ᵐ ω ∂Pr, ∀ a b, Tendsto (fun k => wcov (sample θ W k ω) a b) atTop (𝓝 (tiltedCov Pr θ W a b)) := by
  have iW2 : Integrable (fun ω => W 0 ω * W 0 ω) Pr :=
    (h.integrable_return 0).mul_bdd (c := C) (h.measurable_return 0).aestronglyMeasurable
      (ae_of_all _ fun ω => by simpa using h.bounded 0 ω)
  have l0 := h.strongLaw (fun p => p.2 * p.2) (by fun_prop) iW2
  have l1 : ∀ᵐ ω ∂Pr, ∀ j, Tendsto (fun k => average (List.range k) (fun i => (θ i ω j - 0) * W i ω)) atTop
      (𝓝 (∫ ω, (θ 0 ω j - 0) * W 0 ω ∂Pr)) :=
    ae_all_iff.2 fun j => h.strongLaw (fun p => (p.1 j - 0) * p.2) (by fun_prop) (h.tilted_first hW hs j 0).1
  have l2 : ∀ᵐ ω ∂Pr, ∀ a b, Tendsto (fun k => average (List.range k) (fun i => (θ i ω a - 0) * (θ i ω b - 0) * W i ω)) atTop
      (𝓝 (∫ ω, (θ 0 ω a - 0) * (θ 0 ω b - 0) * W 0 ω ∂Pr)) :=
    ae_all_iff.2 fun a => ae_all_iff.2 fun b =>
      h.strongLaw (fun p => (p.1 a - 0) * (p.1 b - 0) * p.2) (by fun_prop) (h.tilted_cross hW hs a b 0 0).1
  filter_upwards [h.wmean_limit hW hs, l0, l1, l2] with ω hm h0 h1 h2 a b
  have hZ := (h.total_pos hW).ne'
  have hk : Tendsto (fun k : ℕ => (k : ℝ)⁻¹) atTop (𝓝 0) := tendsto_inv_atTop_nhds_zero_nat
  have num := (((h2 a b).sub ((hm.2 b).mul (h1 a))).sub ((hm.2 a).mul (h1 b))).add (((hm.2 a).mul (hm.2 b)).mul hm.1)
  have den := hm.1.sub ((hk.mul h0).div hm.1 hZ)
  rw [(h.tilted_first hW hs a 0).2, (h.tilted_first hW hs b 0).2, (h.tilted_cross hW hs a b 0 0).2] at num
  have lim := num.div den (by simpa using hZ)
  have hv : ((tiltedCov Pr θ W a b + (tiltedMean Pr θ W a - 0) * (tiltedMean Pr θ W b - 0)) * ∫ ω, W 0 ω ∂Pr -
      tiltedMean Pr θ W b * ((tiltedMean Pr θ W a - 0) * ∫ ω, W 0 ω ∂Pr) -
      tiltedMean Pr θ W a * ((tiltedMean Pr θ W b - 0) * ∫ ω, W 0 ω ∂Pr) + tiltedMean Pr θ W a * tiltedMean Pr θ W b * ∫ ω, W 0 ω ∂Pr) /
      (∫ ω, W 0 ω ∂Pr - 0 * (∫ ω, W 0 ω * W 0 ω ∂Pr) / ∫ ω, W 0 ω ∂Pr) = tiltedCov Pr θ W a b := by
    field_simp
    ring
  rw [hv] at lim
  refine lim.congr' ?_
  filter_upwards [eventually_gt_atTop 0] with k hk
  have hk0 : (k : ℝ) ≠ 0 := by exact_mod_cast hk.ne'
  unfold wcov
  set c := wmean (sample θ W k ω) a
  set d := wmean (sample θ W k ω) b
  have e1 : ((sample θ W k ω).map (fun p => p.1 * (p.2 a - c) * (p.2 b - d))).sum =
      k * (average (List.range k) (fun i => (θ i ω a - 0) * (θ i ω b - 0) * W i ω) - d * average (List.range k) (fun i => (θ i ω a - 0) * W i ω) -
        c * average (List.range k) (fun i => (θ i ω b - 0) * W i ω) + c * d * average (List.range k) (fun i => W i ω)) := by
    rw [sum_sample, ← average_sub_mul, ← average_sub_mul, ← sub_neg_eq_add, ← neg_mul, ← average_sub_mul]
    congr 2
    funext i
    ring
  have e2 : zOf (sample θ W k ω) = k * (average (List.range k) (fun i => W i ω) -
      (k : ℝ)⁻¹ * average (List.range k) (fun i => W i ω * W i ω) / average (List.range k) (fun i => W i ω)) := by
    simp only [zOf, sumD, sumD2, sum_sample]
    rw [mul_sub, mul_div_mul_left _ _ hk0]
    congr 1
    rw [← mul_div_assoc, ← mul_assoc, mul_inv_cancel₀ hk0, one_mul]
    congr 2
    funext i
    ring
  rw [e1, e2, mul_div_mul_left _ _ hk0]
  rfl

theorem Rounds.chol_gain (h : Rounds Pr m s f C θ W) (hW : ∀ ω, 0 < W 0 ω) (hs : s.PosDef) :
    ∫ ω, (logPdf (θ 0 ω) (tiltedMean Pr θ W) (tiltedCov Pr θ W) - logPdf (θ 0 ω) m s) * W 0 ω ∂Pr =
      gaussKL (tiltedMean Pr θ W) (tiltedCov Pr θ W) m s * ∫ ω, W 0 ω ∂Pr := by
  have hp := h.tiltedCov_posDef hW hs
  set b := tiltedMean Pr θ W with hb
  set t := tiltedCov Pr θ W with ht
  obtain ⟨i1, e1⟩ := h.tilted_quad hW hs t⁻¹ b
  obtain ⟨i2, e2⟩ := h.tilted_quad hW hs s⁻¹ m
  have i3 := h.integrable_return 0
  have e : ∫ ω, (logPdf (θ 0 ω) b t - logPdf (θ 0 ω) m s) * W 0 ω ∂Pr =
      ∫ ω, (1 / 2 * (Real.log s.det - Real.log t.det) * W 0 ω + 1 / 2 * ((θ 0 ω - m) ⬝ᵥ (s⁻¹ *ᵥ (θ 0 ω - m)) * W 0 ω)) +
        -(1 / 2) * ((θ 0 ω - b) ⬝ᵥ (t⁻¹ *ᵥ (θ 0 ω - b)) * W 0 ω) ∂Pr := by
    refine integral_congr_ae (ae_of_all _ fun ω => ?_)
    simp only [logPdf]
    ring
  have i12 : Integrable (fun ω => 1 / 2 * (Real.log s.det - Real.log t.det) * W 0 ω +
      1 / 2 * ((θ 0 ω - m) ⬝ᵥ (s⁻¹ *ᵥ (θ 0 ω - m)) * W 0 ω)) Pr := (i3.const_mul _).add (i2.const_mul _)
  rw [e, integral_add i12 (i1.const_mul _), integral_add (i3.const_mul _) (i2.const_mul _), integral_const_mul, integral_const_mul,
    integral_const_mul, e1, e2, ← hb, ← ht, Matrix.nonsing_inv_mul t (isUnit_iff_ne_zero.2 hp.det_pos.ne')]
  have hq : (b - m) ⬝ᵥ (s⁻¹ *ᵥ (b - m)) = (m - b) ⬝ᵥ (s⁻¹ *ᵥ (m - b)) := by
    rw [← neg_sub m b, neg_dotProduct, mulVec_neg, dotProduct_neg, neg_neg]
  rw [hq]
  simp only [sub_self, zero_dotProduct, Matrix.trace_one, Fintype.card_fin, gaussKL]
  ring

variable {J : ℕ → Ω → ℝ} {beta : ℝ}

/-- C178 (full covariance). The same with a Gaussian with a full covariance, for which `np.linalg.cholesky` gives a Cholesky factor of
every positive definite matrix: from some number of episodes on the update succeeds, the mean and the covariance converge almost surely,
and for the limits the expected exponential of `beta` times the return is at least that of the old distribution, and larger if the
distribution changes at all: it grows at least by the exponential of the divergence. -/
theorem C178_chol (cholesky : Matrix (Fin n) (Fin n) ℝ → Option (Matrix (Fin n) (Fin n) ℝ)) (hc : IsCholesky cholesky)
    (hd : ∀ M, M.PosDef → (cholesky M).isSome) (g : Chol n) (hs : g.sigma.PosDef) (h : Utilities Pr g.mu g.sigma beta f C θ J) :
    ∃ g' : Chol n, g'.sigma.PosDef ∧
      (∀ᵐ ω ∂Pr, ∃ new : ℕ → Chol n,
        (∀ᶠ k in atTop, rwrUpdateChol cholesky g beta ((List.range k).map fun i => J i ω) ((List.range k).map fun i => θ i ω) =
          some (new k)) ∧
        (∀ a, Tendsto (fun k => (new k).mu a) atTop (𝓝 (g'.mu a))) ∧
        ∀ a b, Tendsto (fun k => (new k).sigma a b) atTop (𝓝 (g'.sigma a b))) ∧
      performance g.mu g.sigma f ≤ performance g'.mu g'.sigma f ∧
      (g'.mu ≠ g.mu ∨ g'.sigma ≠ g.sigma → performance g.mu g.sigma f < performance g'.mu g'.sigma f) ∧
      Real.exp (gaussKL g'.mu g'.sigma g.mu g.sigma) * performance g.mu g.sigma f ≤ performance g'.mu g'.sigma f := by
  unfold Utilities at h
  set W : ℕ → Ω → ℝ := fun i ω => Real.exp (beta * J i ω) with hWd
  have hW : ∀ ω, 0 < W 0 ω := fun ω => Real.exp_pos _
  have hp := h.tiltedCov_posDef hW hs
  obtain ⟨c, hcs⟩ := Option.isSome_iff_exists.1 (hd _ hp)
  have hsg : (⟨tiltedMean Pr θ W, c⟩ : Chol n).sigma = tiltedCov Pr θ W := (hc _ _ hcs).2.2
  refine ⟨⟨tiltedMean Pr θ W, c⟩, by rw [hsg]; exact hp, ?_, ?_⟩
  · filter_upwards [h.wmean_limit hW hs, h.cov_limit hW hs] with ω hω hω2
    have hev := eventually_posDef (fun k => wcov (sample θ W k ω)) _ hp (fun k => by
      ext a b
      simp only [conjTranspose_apply, star_trivial, wcov]
      congr 3
      funext p
      ring) hω2
    refine ⟨fun k => ⟨wmean (sample θ W k ω), (cholesky (wcov (sample θ W k ω))).getD 0⟩, ?_, hω.2, fun a b => ?_⟩
    · filter_upwards [hev, eventually_ge_atTop 2] with k hk hk2
      rw [rwrUpdateChol, exp_weights, (C58_scale _ (Real.exp_pos _) _ ⟨0, 0⟩ g ⟨0, 0, 0⟩ cholesky).2.1, zip_sample]
      obtain ⟨k, rfl⟩ : ∃ i, k = i + 2 := ⟨k - 2, by omega⟩
      have hl : sample θ W (k + 2) ω = [] ++ (W 0 ω, θ 0 ω) :: [] ++ (W 1 ω, θ 1 ω) ::
          ((List.range k).map fun i => (W (i + 2) ω, θ (i + 2) ω)) := by
        unfold sample
        rw [List.range_succ_eq_map, List.range_succ_eq_map]
        simp [Function.comp_def]
      obtain ⟨g', hg', _⟩ := C58_diag_wmle_partial ⟨0, 0⟩ (sample θ W (k + 2) ω) _ _ _ _ _ hl (Real.exp_pos _) (Real.exp_pos _) (by
        intro p hp
        obtain ⟨i, _, rfl⟩ := List.mem_map.1 hp
        exact (Real.exp_pos _).le)
      obtain ⟨e, he⟩ := Option.isSome_iff_exists.1 (hd _ hk)
      unfold Diag.wmle at hg'
      simp only at hg'
      split at hg'
      · simp at hg'
      · next hn =>
        unfold Chol.wmle
        rw [if_neg (fun hor => hn (hor.imp_right Or.inl))]
        show (cholesky (wcov (sample θ W (k + 2) ω))).map _ = _
        rw [he]
        rfl
    · rw [hsg]
      refine (hω2 a b).congr' ?_
      filter_upwards [hev] with k hk
      obtain ⟨e, he⟩ := Option.isSome_iff_exists.1 (hd _ hk)
      have : wcov (sample θ W k ω) = e * eᵀ := (hc _ _ he).2.2.symm
      rw [he]
      exact congrFun (congrFun this a) b
  · rw [hsg]
    have himp := h.improve hW hs _ _ hp _ (h.chol_gain hW hs)
    have hpos : 0 < performance g.mu g.sigma f := by rw [← h.total hs]; exact h.total_pos hW
    obtain ⟨k1, k2⟩ := gaussKL_pos (tiltedMean Pr θ W) g.mu (tiltedCov Pr θ W) g.sigma hp hs
    refine ⟨?_, ?_, himp⟩
    · exact le_trans (le_mul_of_one_le_left hpos.le (Real.one_le_exp k1)) himp
    · intro hne
      refine lt_of_lt_of_le (lt_mul_of_one_lt_left hpos (Real.one_lt_exp_iff.2 (k2 ?_))) himp
      rintro ⟨h1, h2⟩
      exact hne.elim (fun h => h h1) (fun h => h h2)

end Tilted

/-- Every positive definite matrix has a Cholesky factor. -/
theorem cholesky_factor (S : Matrix (Fin n) (Fin n) ℝ) (hS : S.PosDef) :
    ∃ c : Matrix (Fin n) (Fin n) ℝ, (∀ i j, i < j → c i j = 0) ∧ (∀ i, 0 < c i i) ∧ c * cᵀ = S := by
  set L : Matrix (Fin n) (Fin n) ℝ := LDL.lower hS with hL
  have htri : ∀ i j, i < j → L i j = 0 := by
    have h1 : BlockTriangular (LDL.lowerInv hS) (OrderDual.toDual : Fin n → (Fin n)ᵒᵈ) := fun i j hij =>
      LDL.lowerInv_triangular hS (OrderDual.toDual_lt_toDual.1 hij)
    have h2 := blockTriangular_inv_of_blockTriangular h1
    exact fun i j hij => h2 (OrderDual.toDual_lt_toDual.2 hij)
  have hSL : L * diagonal (LDL.diagEntries hS) * Lᵀ = S := by
    have := LDL.lower_conj_diag hS
    rwa [conjTranspose_eq_transpose_of_trivial] at this
  have hdetL : L.det ≠ 0 := by
    intro h0
    have := hS.det_pos
    rw [← hSL, det_mul, det_mul, h0] at this
    simp at this
  have hLi : ∀ i, L i i ≠ 0 := by
    rw [det_of_lowerTriangular L (fun i j hij => htri i j (OrderDual.toDual_lt_toDual.1 hij))] at hdetL
    exact fun i => Finset.prod_ne_zero_iff.1 hdetL i (Finset.mem_univ i)
  have hd : ∀ i, 0 < LDL.diagEntries hS i := by
    intro i
    have hp : (LDL.diag hS).PosDef := by
      rw [LDL.diag_eq_lowerInv_conj]
      refine hS.mul_mul_conjTranspose_same ?_
      rw [Matrix.vecMul_injective_iff_isUnit]
      exact isUnit_of_invertible _
    have := hp.diag_pos (i := i)
    simpa [LDL.diag] using this
  clear_value L
  generalize LDL.diagEntries hS = d at hd hSL
  refine ⟨L * diagonal (fun j => Real.sqrt (d j) * (SignType.sign (L j j) : ℝ)), fun i j hij => by rw [mul_diagonal, htri i j hij, zero_mul],
    fun i => ?_, ?_⟩
  · rw [mul_diagonal]
    have h2 : L i i * (Real.sqrt (d i) * (SignType.sign (L i i) : ℝ)) = Real.sqrt (d i) * |L i i| := by
      rw [← self_mul_sign]; ring
    rw [h2]
    exact mul_pos (Real.sqrt_pos.2 (hd i)) (abs_pos.2 (hLi i))
  · refine Eq.trans ?_ hSL
    ext a b
    simp only [Matrix.mul_apply (M := L * _), transpose_apply, mul_diagonal]
    refine Finset.sum_congr rfl fun k _ => ?_
    have h1 : ((SignType.sign (L k k) : ℝ)) * (SignType.sign (L k k) : ℝ) = 1 := by
      rcases lt_or_gt_of_ne (hLi k) with h | h
      · simp [h]
      · simp [h]
    calc _ = L a k * (Real.sqrt (d k) * Real.sqrt (d k)) *
          ((SignType.sign (L k k) : ℝ) * (SignType.sign (L k k) : ℝ)) * L b k := by ring
      _ = _ := by rw [h1, Real.mul_self_sqrt (hd k).le, mul_one]

/-- `np.linalg.cholesky` as the theorem asks for it exists, in every dimension. -/
theorem cholesky_exists : ∃ cholesky : Matrix (Fin n) (Fin n) ℝ → Option (Matrix (Fin n) (Fin n) ℝ),
    IsCholesky cholesky ∧ ∀ M, M.PosDef → (cholesky M).isSome := by
  classical
  refine ⟨fun M => if h : ∃ c : Matrix (Fin n) (Fin n) ℝ, (∀ i j, i < j → c i j = 0) ∧ (∀ i, 0 < c i i) ∧ c * cᵀ = M then some h.choose
    else none, ?_, ?_⟩
  · intro M c h
    simp only at h
    split at h
    · next hex =>
      cases h
      exact hex.choose_spec
    · simp at h
  · intro M hM
    simp only
    rw [dif_pos (cholesky_factor M hM)]
    rfl

/-- The hypotheses of `C178_chol` hold for a covariance that is not diagonal. -/
example : ∃ (cholesky : Matrix (Fin 2) (Fin 2) ℝ → Option (Matrix (Fin 2) (Fin 2) ℝ)) (Pr : Measure (ℕ → Vec 2)) (_ : IsProbabilityMeasure Pr)
    (g : Chol 2) (f : Vec 2 → ℝ) (C : ℝ), IsCholesky cholesky ∧ (∀ M, M.PosDef → (cholesky M).isSome) ∧ g.chol = !![1, 0; 2, 3] ∧
    g.sigma.PosDef ∧ Utilities Pr g.mu g.sigma 3 f C (fun i ω => ω i) (fun i ω => -(ω i 0) ^ 2 - (ω i 1) ^ 2) := by
  obtain ⟨cholesky, h1, h2⟩ := cholesky_exists (n := 2)
  have hp : (⟨![1, -1], !![1, 0; 2, 3]⟩ : Chol 2).sigma.PosDef := posDef_chol _ (by simp [det_fin_two])
  obtain ⟨Pr, h3, h4⟩ := utilities_exist ![1, -1] _ hp 3 (by norm_num) (fun x => -(x 0) ^ 2 - (x 1) ^ 2) (by fun_prop) 0
    (fun x => by nlinarith [sq_nonneg (x 0), sq_nonneg (x 1)])
  exact ⟨cholesky, Pr, h3, _, _, _, h1, h2, rfl, hp, h4⟩

end Verif.Search.Pgpe
