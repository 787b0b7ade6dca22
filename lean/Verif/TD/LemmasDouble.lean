/-
Stochastic approximation with vanishing perturbations, as needed for Double Q-learning: the deterministic part along one history, and the
convergence of the noise when only the squares of the increments themselves have a bounded sum.
-/
import Verif.TD.LemmasNoise

namespace Verif.TD

open Filter Topology MeasureTheory

/-- Convergence along one history. Entry `j` is moved with rate `a n j` towards `F n j`, which is closer to `xs j` than the table by the
factor `γ`, up to a vanishing error; `d n j` is a noise whose sum converges. -/
theorem history_perturbed {I : Type} [Fintype I] {x F a d : ℕ → I → ℝ} {xs : I → ℝ} {L : I → Prop} {γ B : ℝ} (hγ0 : 0 ≤ γ) (hγ1 : γ < 1)
    (h0 : ∀ n j, 0 ≤ a n j) (h1 : ∀ n j, a n j ≤ 1)
    (hx : ∀ n j, x (n + 1) j = x n j + a n j * (F n j - x n j) + d n j)
    (hF : ∀ ε, 0 < ε → ∀ᶠ n in atTop, ∀ D, 0 ≤ D → (∀ j, L j → |x n j - xs j| ≤ D) →
      ∀ j, L j → a n j ≠ 0 → |F n j - xs j| ≤ γ * D + ε)
    (hB : ∀ n j, |x n j - xs j| ≤ B)
    (hdiv : ∀ j, L j → Tendsto (fun n => ∑ k ∈ Finset.range n, a k j) atTop atTop)
    (hsum : ∀ j, ∃ l, Tendsto (fun n => ∑ k ∈ Finset.range n, d k j) atTop (𝓝 l)) (j : I) (hj : L j) :
    Tendsto (fun n => x n j) atTop (𝓝 (xs j)) := by
  have key : ∀ (D ε : ℝ), 0 ≤ D → 0 < ε → (∀ᶠ n in atTop, ∀ j, L j → |x n j - xs j| ≤ D) →
      ∀ᶠ n in atTop, ∀ j, L j → |x n j - xs j| ≤ γ * D + ε := by
    intro D ε hD0 hε hD
    rw [eventually_all]
    intro j
    by_cases hj : L j
    swap
    · exact Eventually.of_forall (fun n h => absurd h hj)
    obtain ⟨l, hl⟩ := hsum j
    set R : ℕ → ℝ := fun n => l - ∑ k ∈ Finset.range n, d k j with hR
    have hR0 : Tendsto R atTop (𝓝 0) := by simpa [hR] using hl.const_sub l
    have hRs : ∀ᶠ n in atTop, |R n| ≤ ε / 4 := by
      have := (tendsto_zero_iff_abs_tendsto_zero R).1 hR0
      exact (this.eventually (gt_mem_nhds (by positivity : (0 : ℝ) < ε / 4))).mono (fun n h => le_of_lt h)
    obtain ⟨n0, hn0⟩ := eventually_atTop.1 (hD.and (hRs.and (hF (ε / 4) (by positivity))))
    have hz := average_below (a := fun n => a n j) (v := fun n => |x n j - xs j + R n|)
      (c := γ * D + ε / 2) (fun n => h0 n j) (fun n => h1 n j) (hdiv j hj) n0
      (fun n hn => ?_) (by positivity : (0 : ℝ) < ε / 4)
    · filter_upwards [hz, hRs] with n hz hr _
      have : |x n j - xs j| ≤ |x n j - xs j + R n| + |R n| := by
        have := abs_sub (x n j - xs j + R n) (R n)
        simpa using this
      linarith
    · obtain ⟨hd, hr, hf⟩ := hn0 n hn
      have hRn : R (n + 1) = R n - d n j := by
        simp only [hR, Finset.sum_range_succ]; ring
      have hxn : x (n + 1) j - xs j + R (n + 1) =
          (1 - a n j) * (x n j - xs j + R n) + a n j * (F n j - xs j + R n) := by
        rw [hx, hRn]; ring
      rw [hxn]
      refine (abs_add_le _ _).trans ?_
      rw [abs_mul, abs_mul, abs_of_nonneg (h0 n j), abs_of_nonneg (by linarith [h1 n j] : 0 ≤ 1 - a n j)]
      rcases eq_or_ne (a n j) 0 with ha | ha
      · rw [ha]; linarith
      · have h2 : |F n j - xs j + R n| ≤ γ * D + ε / 2 := (abs_add_le _ _).trans (by linarith [hf D hD0 hd j hj ha])
        linarith [mul_le_mul_of_nonneg_left h2 (h0 n j)]
  have hB0 : 0 ≤ B := (abs_nonneg _).trans (hB 0 j)
  set q := (1 + γ) / 2 with hq
  have hpow : ∀ k : ℕ, ∀ᶠ n in atTop, ∀ j, L j → |x n j - xs j| ≤ q ^ k * (B + 1) := by
    intro k
    induction k with
    | zero => exact Eventually.of_forall (fun n j _ => by simpa using (hB n j).trans (by linarith))
    | succ k ih =>
      have hpos : 0 < q ^ k * (B + 1) := by
        have : 0 < q := by rw [hq]; linarith
        positivity
      have := key (q ^ k * (B + 1)) ((1 - γ) / 2 * (q ^ k * (B + 1))) hpos.le (mul_pos (by linarith) hpos) ih
      refine this.mono (fun n h j hj => (h j hj).trans (le_of_eq ?_))
      rw [pow_succ, hq]; ring
  have hq0 : Tendsto (fun k : ℕ => q ^ k * (B + 1)) atTop (𝓝 0) := by
    have := tendsto_pow_atTop_nhds_zero_of_lt_one (r := q) (by rw [hq]; linarith) (by rw [hq]; linarith)
    simpa using this.mul_const (B + 1)
  rw [Metric.tendsto_atTop]
  intro ε hε
  obtain ⟨k, hk⟩ := (hq0.eventually (gt_mem_nhds hε)).exists
  obtain ⟨N, hN⟩ := eventually_atTop.1 (hpow k)
  exact ⟨N, fun n hn => by rw [Real.dist_eq]; exact lt_of_le_of_lt (hN n hn j hj) hk⟩

variable {Ω : Type} [mΩ : MeasurableSpace Ω] {μ : Measure Ω} [IsProbabilityMeasure μ] {ℱ : Filtration ℕ mΩ}

/-- The product of something known and something centred has mean zero. -/
theorem known_mul_centred {f d : Ω → ℝ} {n : ℕ} {K K' : ℝ} (hf : StronglyMeasurable[ℱ n] f) (hfK : ∀ ω, |f ω| ≤ K)
    (hd : StronglyMeasurable d) (hdK : ∀ ω, |d ω| ≤ K') (hc : μ[d | ℱ n] =ᵐ[μ] 0) : ∫ ω, f ω * d ω ∂μ = 0 := by
  have hi : Integrable (f * d) μ := integrable_of_le ((hf.mono (ℱ.le _)).mul hd) (K * K') (fun ω => by
    rw [Pi.mul_apply, abs_mul]
    exact mul_le_mul (hfK ω) (hdK ω) (abs_nonneg _) ((abs_nonneg _).trans (hfK ω)))
  have h1 := condExp_mul_of_stronglyMeasurable_left hf hi (integrable_of_le hd K' hdK)
  have h2 : ∫ ω, (f * d) ω ∂μ = ∫ ω, (μ[f * d | ℱ n]) ω ∂μ := (integral_condExp (ℱ.le n)).symm
  have h3 : μ[f * d | ℱ n] =ᵐ[μ] 0 := by
    filter_upwards [h1, hc] with ω h h'
    rw [h, Pi.mul_apply, h']; simp
  calc _ = ∫ ω, (f * d) ω ∂μ := rfl
    _ = _ := h2
    _ = 0 := by rw [integral_congr_ae h3]; simp

/-- Bounded centred increments, each known one step later, with a bounded mean of the sum of squares: their sum converges. -/
theorem noise_mean_converges {d : ℕ → Ω → ℝ} {K C : ℝ} (hm : ∀ n, StronglyMeasurable[ℱ (n + 1)] (d n))
    (hc : ∀ n, μ[d n | ℱ n] =ᵐ[μ] 0) (hK : ∀ n ω, |d n ω| ≤ K) (hC : ∀ N, ∑ k ∈ Finset.range N, ∫ ω, (d k ω) ^ 2 ∂μ ≤ C) :
    ∀ᵐ ω ∂μ, ∃ l, Tendsto (fun n => ∑ k ∈ Finset.range n, d k ω) atTop (𝓝 l) := by
  have hdm : ∀ n, StronglyMeasurable (d n) := fun n => (hm n).mono (ℱ.le _)
  set M : ℕ → Ω → ℝ := fun n ω => ∑ k ∈ Finset.range n, d k ω with hM
  have hMn : ∀ n, StronglyMeasurable[ℱ n] (M n) := by
    intro n
    refine Finset.stronglyMeasurable_fun_sum _ (fun k hk => ?_)
    exact (hm k).mono (ℱ.mono (by have := Finset.mem_range.1 hk; omega))
  have hMm : ∀ n, StronglyMeasurable (M n) := fun n => (hMn n).mono (ℱ.le _)
  have hMK : ∀ n ω, |M n ω| ≤ n * K := by
    intro n ω
    refine (Finset.abs_sum_le_sum_abs _ _).trans ?_
    refine (Finset.sum_le_sum (fun k _ => hK k ω)).trans ?_
    simp
  have hMi : ∀ n, Integrable (M n) μ := fun n => integrable_of_le (hMm n) _ (hMK n)
  have hmart : Martingale M ℱ μ := by
    refine martingale_of_condExp_sub_eq_zero_nat hMn hMi (fun n => ?_)
    have : M (n + 1) - M n = d n := by
      funext ω; simp [hM, Finset.sum_range_succ]
    rw [this]; exact hc n
  have hMd0 : ∀ n, ∫ ω, M n ω * d n ω ∂μ = 0 := fun n => known_mul_centred (hMn n) (hMK n) (hdm n) (hK n) (hc n)
  have hMd : ∀ n, Integrable (fun ω => M n ω * d n ω) μ := fun n =>
    integrable_of_le ((hMm n).mul (hdm n)) (n * K * K) (fun ω => by
      rw [abs_mul]
      exact mul_le_mul (hMK n ω) (hK n ω) (abs_nonneg _) ((abs_nonneg _).trans (hMK n ω)))
  have hsq : ∀ n, Integrable (fun ω => M n ω ^ 2) μ := fun n =>
    integrable_of_le ((hMm n).pow 2) ((n * K) ^ 2) (fun ω => by
      rw [abs_of_nonneg (sq_nonneg _), ← sq_abs (M n ω)]
      exact pow_le_pow_left₀ (abs_nonneg _) (hMK n ω) 2)
  have hdsq : ∀ n, Integrable (fun ω => d n ω ^ 2) μ := fun n =>
    integrable_of_le ((hdm n).pow 2) (K ^ 2) (fun ω => by
      rw [abs_of_nonneg (sq_nonneg _), ← sq_abs (d n ω)]
      exact pow_le_pow_left₀ (abs_nonneg _) (hK n ω) 2)
  have hM2 : ∀ n, ∫ ω, M n ω ^ 2 ∂μ = ∑ k ∈ Finset.range n, ∫ ω, d k ω ^ 2 ∂μ := by
    intro n
    induction n with
    | zero => simp [hM]
    | succ n ih =>
      have e : ∀ ω, M (n + 1) ω ^ 2 = M n ω ^ 2 + 2 * (M n ω * d n ω) + d n ω ^ 2 := by
        intro ω; simp only [hM, Finset.sum_range_succ]; ring
      have i1 : Integrable (fun ω => 2 * (M n ω * d n ω)) μ := (hMd n).const_mul 2
      have i2 : Integrable (fun ω => M n ω ^ 2 + 2 * (M n ω * d n ω)) μ := (hsq n).add i1
      simp only [e, Finset.sum_range_succ]
      rw [integral_add i2 (hdsq n), integral_add (hsq n) i1, integral_const_mul, hMd0 n, ih]
      ring
  refine hmart.submartingale.exists_ae_tendsto_of_bdd (R := Real.toNNReal ((1 + C) / 2)) (fun n => ?_)
  rw [eLpNorm_one_eq_lintegral_enorm, ← ofReal_integral_norm_eq_lintegral_enorm (hMi n)]
  refine ENNReal.ofReal_le_ofReal ?_
  have i4 : Integrable (fun ω => (1 + M n ω ^ 2) / 2) μ := ((integrable_const 1).add (hsq n)).div_const 2
  refine (integral_mono (hMi n).norm i4 (fun ω => ?_)).trans ?_
  · have := sq_nonneg (|M n ω| - 1)
    have h2 := sq_abs (M n ω)
    show |M n ω| ≤ (1 + M n ω ^ 2) / 2
    nlinarith
  · rw [integral_div, integral_add (integrable_const 1) (hsq n)]
    simp only [integral_const, probReal_univ, smul_eq_mul, one_mul]
    have := hC n
    rw [← hM2] at this
    linarith

/-- Increments `h n`, each known one step later, with a bounded sum of squares, minus their means given the past: the sum converges. -/
theorem noise_centred_converges {h m : ℕ → Ω → ℝ} {K C : ℝ} (hh : ∀ n, StronglyMeasurable[ℱ (n + 1)] (h n))
    (hm : ∀ n, StronglyMeasurable[ℱ n] (m n)) (hc : ∀ n, μ[h n | ℱ n] =ᵐ[μ] m n) (hK : ∀ n ω, |h n ω| ≤ K) (mK : ∀ n ω, |m n ω| ≤ K)
    (hC : ∀ N ω, ∑ k ∈ Finset.range N, (h k ω) ^ 2 ≤ C) :
    ∀ᵐ ω ∂μ, ∃ l, Tendsto (fun n => ∑ k ∈ Finset.range n, (h k ω - m k ω)) atTop (𝓝 l) := by
  have hhm : ∀ n, StronglyMeasurable (h n) := fun n => (hh n).mono (ℱ.le _)
  have hmm : ∀ n, StronglyMeasurable (m n) := fun n => (hm n).mono (ℱ.le _)
  have hdK : ∀ n ω, |h n ω - m n ω| ≤ 2 * K := fun n ω => by
    have := abs_sub (h n ω) (m n ω)
    linarith [hK n ω, mK n ω]
  have hdm : ∀ n, StronglyMeasurable[ℱ (n + 1)] (fun ω => h n ω - m n ω) := fun n =>
    (hh n).sub ((hm n).mono (ℱ.mono (Nat.le_succ n)))
  have hcen : ∀ n, μ[fun ω => h n ω - m n ω | ℱ n] =ᵐ[μ] 0 := by
    intro n
    have h1 : μ[fun ω => h n ω - m n ω | ℱ n] =ᵐ[μ] μ[h n | ℱ n] - μ[m n | ℱ n] :=
      condExp_sub (integrable_of_le (hhm n) K (hK n)) (integrable_of_le (hmm n) K (mK n)) _
    have h2 := condExp_of_stronglyMeasurable (ℱ.le n) (hm n) (integrable_of_le (μ := μ) (hmm n) K (mK n))
    filter_upwards [h1, hc n] with ω k1 k2
    rw [k1, Pi.sub_apply, k2, h2]; simp
  have hsq : ∀ {f : Ω → ℝ} {K : ℝ}, StronglyMeasurable f → (∀ ω, |f ω| ≤ K) → Integrable (fun ω => f ω ^ 2) μ := fun {f K} hf hK =>
    integrable_of_le (hf.pow 2) (K ^ 2) (fun ω => by
      rw [abs_of_nonneg (sq_nonneg _), ← sq_abs (f ω)]
      exact pow_le_pow_left₀ (abs_nonneg _) (hK ω) 2)
  refine noise_mean_converges (ℱ := ℱ) (K := 2 * K) (C := C) hdm hcen hdK (fun N => ?_)
  have hle : ∀ n, ∫ ω, (h n ω - m n ω) ^ 2 ∂μ ≤ ∫ ω, h n ω ^ 2 ∂μ := by
    intro n
    have h0 := known_mul_centred (μ := μ) (hm n) (mK n) ((hdm n).mono (ℱ.le _)) (hdK n) (hcen n)
    have hdsm : StronglyMeasurable (fun ω => h n ω - m n ω) := (hdm n).mono (ℱ.le _)
    have i1 := hsq hdsm (hdK n)
    have i2 := hsq (hmm n) (mK n)
    have i3 : Integrable (fun ω => 2 * (m n ω * (h n ω - m n ω))) μ :=
      (integrable_of_le ((hmm n).mul hdsm) (K * (2 * K)) (fun ω => by
        rw [Pi.mul_apply, abs_mul]
        exact mul_le_mul (mK n ω) (hdK n ω) (abs_nonneg _) ((abs_nonneg _).trans (mK n ω)))).const_mul 2
    have e : ∀ ω, h n ω ^ 2 = (h n ω - m n ω) ^ 2 + 2 * (m n ω * (h n ω - m n ω)) + m n ω ^ 2 := fun ω => by ring
    simp only [e]
    have i4 : Integrable (fun ω => (h n ω - m n ω) ^ 2 + 2 * (m n ω * (h n ω - m n ω))) μ := i1.add i3
    rw [integral_add i4 i2, integral_add i1 i3, integral_const_mul, h0]
    have : 0 ≤ ∫ ω, m n ω ^ 2 ∂μ := integral_nonneg (fun ω => sq_nonneg _)
    linarith
  refine (Finset.sum_le_sum (fun n _ => hle n)).trans ?_
  rw [← integral_finsetSum _ (fun n _ => hsq (hhm n) (hK n))]
  refine (integral_mono (integrable_finsetSum _ (fun n _ => hsq (hhm n) (hK n))) (integrable_const C) (fun ω => hC N ω)).trans ?_
  simp

variable {Y : Type} [Fintype Y] [DecidableEq Y]

/-- The same with increments that depend on a random outcome `y n`, which has the probabilities `P n` given the past. -/
theorem noise_outcomes {y : ℕ → Ω → Y} {P g : ℕ → Y → Ω → ℝ} {K C : ℝ} (hy : ∀ n o, MeasurableSet[ℱ (n + 1)] {ω | y n ω = o})
    (hP : ∀ n o, μ[Set.indicator {ω | y n ω = o} (fun _ => (1 : ℝ)) | ℱ n] =ᵐ[μ] P n o)
    (hg : ∀ n o, Measurable[ℱ n] (g n o)) (hgK : ∀ n o ω, |g n o ω| ≤ K)
    (hm : ∀ n, Measurable[ℱ n] (fun ω => ∑ o, P n o ω * g n o ω)) (mK : ∀ n ω, |∑ o, P n o ω * g n o ω| ≤ K)
    (hC : ∀ N ω, ∑ k ∈ Finset.range N, (g k (y k ω) ω) ^ 2 ≤ C) :
    ∀ᵐ ω ∂μ, ∃ l, Tendsto (fun n => ∑ k ∈ Finset.range n, (g k (y k ω) ω - ∑ o, P k o ω * g k o ω)) atTop (𝓝 l) := by
  have hindy : ∀ n o, Measurable[ℱ (n + 1)] (fun ω => if y n ω = o then (1 : ℝ) else 0) := fun n o =>
    Measurable.ite (hy n o) measurable_const measurable_const
  have hind : ∀ n o, Set.indicator {ω | y n ω = o} (fun _ => (1 : ℝ)) = fun ω => if y n ω = o then (1 : ℝ) else 0 := by
    intro n o; funext ω; simp [Set.indicator]
  have hsum : ∀ n, (fun ω => g n (y n ω) ω) = ∑ o, g n o * fun ω => if y n ω = o then (1 : ℝ) else 0 := by
    intro n; funext ω
    rw [Finset.sum_apply, Finset.sum_eq_single (y n ω)] <;> simp +contextual [eq_comm]
  have hyi : ∀ n o, Integrable (fun ω => if y n ω = o then (1 : ℝ) else 0) μ := fun n o =>
    integrable_of_le (((hindy n o).mono (ℱ.le _) le_rfl).stronglyMeasurable) 1 (fun ω => by split <;> simp)
  have hgi : ∀ n o, Integrable (g n o * fun ω => if y n ω = o then (1 : ℝ) else 0) μ := fun n o =>
    (hyi n o).bdd_mul (((hg n o).mono (ℱ.le _) le_rfl).stronglyMeasurable.aestronglyMeasurable)
      (Eventually.of_forall (fun ω => by simpa using hgK n o ω))
  refine noise_centred_converges (ℱ := ℱ) (h := fun n ω => g n (y n ω) ω) (m := fun n ω => ∑ o, P n o ω * g n o ω) (K := K) (C := C)
    (fun n => ?_) (fun n => (hm n).stronglyMeasurable) (fun n => ?_) (fun n ω => hgK n _ ω) mK hC
  · rw [hsum]
    refine Measurable.stronglyMeasurable ?_
    have e : (∑ o, g n o * fun ω => if y n ω = o then (1 : ℝ) else 0) = fun ω => ∑ o, (g n o * fun ω => if y n ω = o then (1 : ℝ) else 0) ω := by
      funext ω; rw [Finset.sum_apply]
    rw [e]
    exact @Finset.measurable_fun_sum _ _ _ _ _ _ (ℱ (n + 1)) _ Finset.univ (fun o _ =>
      ((hg n o).mono (ℱ.mono (Nat.le_succ n)) le_rfl).mul (hindy n o))
  · rw [hsum]
    have hone : ∀ o, μ[g n o * (fun ω => if y n ω = o then (1 : ℝ) else 0) | ℱ n] =ᵐ[μ] fun ω => P n o ω * g n o ω := by
      intro o
      have g1 := condExp_mul_of_stronglyMeasurable_left (hg n o).stronglyMeasurable (hgi n o) (hyi n o)
      have g2 := hP n o
      rw [hind] at g2
      filter_upwards [g1, g2] with ω k1 k2
      rw [k1, Pi.mul_apply, k2, mul_comm]
    filter_upwards [condExp_finsetSum (s := Finset.univ) (fun o _ => hgi n o) (ℱ n), ae_all_iff.2 hone] with ω k1 k2
    rw [k1, Finset.sum_apply]
    exact Finset.sum_congr rfl (fun o _ => k2 o)

end Verif.TD
