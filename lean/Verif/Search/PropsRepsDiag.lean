/-
Property C180: with many episodes the update of REPS keeps to the bound on the divergence, with a diagonal covariance.
-/
import Verif.Search.PropsRepsMultiplier

namespace Verif.Search.Pgpe

open Matrix MeasureTheory ProbabilityTheory Filter Topology

variable {n : ℕ}

theorem gaussKL_diagonal (b m t v : Vec n) (ht : ∀ j, 0 < t j) (hv : ∀ j, 0 < v j) :
    gaussKL b (diagonal t) m (diagonal v) = 1 / 2 * ∑ j, (t j / v j - 1 - Real.log (t j / v j) + (b j - m j) ^ 2 / v j) := by
  have hi : (diagonal v)⁻¹ = diagonal (fun j => 1 / v j) := by
    apply Matrix.inv_eq_right_inv
    rw [diagonal_mul_diagonal, ← diagonal_one]
    congr 1
    funext j
    simp [(hv j).ne']
  unfold gaussKL
  rw [hi, det_diagonal, det_diagonal, Real.log_prod (fun j _ => (hv j).ne'), Real.log_prod (fun j _ => (ht j).ne'), diagonal_mul_diagonal,
    trace_diagonal]
  congr 1
  have hn : (n : ℝ) = ∑ _j : Fin n, (1 : ℝ) := by simp
  simp only [dotProduct, mulVec_diagonal, Pi.sub_apply]
  rw [hn, ← Finset.sum_sub_distrib, ← Finset.sum_add_distrib, ← Finset.sum_sub_distrib, ← Finset.sum_add_distrib]
  refine Finset.sum_congr rfl fun j _ => ?_
  rw [Real.log_div (ht j).ne' (hv j).ne']
  ring

section Diagonal

variable {Ω : Type} [MeasurableSpace Ω] {Pr : Measure Ω} [IsProbabilityMeasure Pr]
  {f : Vec n → ℝ} {C : ℝ} {θ : ℕ → Ω → Vec n} {J : ℕ → Ω → ℝ} {eta : ℕ → Ω → ℝ} {eta' eps B : ℝ}

/-- C180 (diagonal covariance). The same with a Gaussian with a diagonal covariance, from two episodes on. -/
theorem C180_diag (g : Diag n) (hs : ∀ j, 0 < g.std j) (he : 0 < eta') (hB : ∀ i ω, |J i ω| ≤ B)
    (h : Utilities Pr g.mu (diagonal fun k => g.std k ^ 2) eta'⁻¹ f C θ J) (hn : ¬ ∃ r, ∀ᵐ ω ∂Pr, J 0 ω = r)
    (heps : weightedKL Pr (J 0) eta' = eps) (hη : ∀ᵐ ω ∂Pr, Multipliers ω eps J eta) :
    ∃ g' : Diag n, (∀ j, 0 < g'.std j) ∧
      gaussKL g'.mu (diagonal fun k => g'.std k ^ 2) g.mu (diagonal fun k => g.std k ^ 2) ≤ eps ∧
      performance g.mu (diagonal fun k => g.std k ^ 2) f ≤ performance g'.mu (diagonal fun k => g'.std k ^ 2) f ∧
      ∀ᵐ ω ∂Pr, ∃ new : ℕ → Diag n,
        (∀ k, 2 ≤ k → repsUpdateDiag g (eta k ω) ((List.range k).map fun i => J i ω) ((List.range k).map fun i => θ i ω) = some (new k)) ∧
        (∀ j, Tendsto (fun k => (new k).mu j) atTop (𝓝 (g'.mu j))) ∧
        (∀ j, Tendsto (fun k => (new k).std j) atTop (𝓝 (g'.std j))) ∧
        ∀ δ, 0 < δ → ∀ᶠ k in atTop,
          gaussKL (new k).mu (diagonal fun j => (new k).std j ^ 2) g.mu (diagonal fun j => g.std j ^ 2) < eps + δ := by
  have hη' := hη.and (C180_multipliers he hB h hn heps hη).2
  have hp := posDef_diagonal g.std hs
  set W : ℕ → Ω → ℝ := fun i ω => Real.exp (eta'⁻¹ * J i ω) with hWd
  obtain ⟨hlim, heps'⟩ := run_limits hp he hB h hη' W hWd
  have iL : Integrable (fun ω => Real.log (W 0 ω) * W 0 ω) Pr := integrable_log h hB
  unfold Utilities at h
  rw [← hWd] at h
  have hW : ∀ ω, 0 < W 0 ω := fun ω => Real.exp_pos _
  have hv := h.tiltedVar_pos hW hp
  have hvar : ∀ j, tiltedCov Pr θ W j j = tiltedVar Pr θ W j := by
    intro j
    unfold tiltedCov tiltedVar
    congr 2
    funext ω
    ring
  have hstd : ∀ j, 0 < Real.sqrt (tiltedVar Pr θ W j) := fun j => Real.sqrt_pos.2 (hv j)
  have hsq : (fun k => Real.sqrt (tiltedVar Pr θ W k) ^ 2) = tiltedVar Pr θ W := funext fun k => Real.sq_sqrt (hv k).le
  have hp' := posDef_diagonal (fun j => Real.sqrt (tiltedVar Pr θ W j)) hstd
  rw [hsq] at hp'
  have hgain := h.diag_gain hW hs
  have hKL := gaussKL_diagonal (tiltedMean Pr θ W) g.mu (tiltedVar Pr θ W) (fun k => g.std k ^ 2) hv (fun j => pow_pos (hs j) 2)
  rw [← hKL] at hgain
  have hkl : gaussKL (tiltedMean Pr θ W) (diagonal (tiltedVar Pr θ W)) g.mu (diagonal fun k => g.std k ^ 2) ≤ eps := by
    rw [heps']
    exact h.gibbs hW hp _ _ hp' _ hgain iL
  refine ⟨⟨tiltedMean Pr θ W, fun j => Real.sqrt (tiltedVar Pr θ W j)⟩, hstd, by simp only; rw [hsq]; exact hkl, ?_, ?_⟩
  · simp only
    rw [hsq]
    have himp := h.improve hW hp _ _ hp' _ hgain
    have hpos : 0 < performance g.mu (diagonal fun k => g.std k ^ 2) f := by rw [← h.total hp]; exact h.total_pos hW
    exact le_trans (le_mul_of_one_le_left hpos.le (Real.one_le_exp (gaussKL_pos _ _ _ _ hp' hp).1)) himp
  · filter_upwards [hlim] with ω hω
    set V : ℕ → ℕ → Ω → ℝ := fun k i ω => Real.exp ((eta k ω)⁻¹ * J i ω) with hV
    have hcov : ∀ k j, wcov (sample θ (V k) k ω) j j = ((sample θ (V k) k ω).map
        (fun p => p.1 * (p.2 j - wmean (sample θ (V k) k ω) j) ^ 2)).sum / zOf (sample θ (V k) k ω) := by
      intro k j
      unfold wcov
      congr 3
      funext p
      ring
    have hq : ∀ j, Tendsto (fun k => wcov (sample θ (V k) k ω) j j) atTop (𝓝 (tiltedVar Pr θ W j)) := fun j => by
      rw [← hvar]; exact hω.2 j j
    refine ⟨fun k => ⟨wmean (sample θ (V k) k ω), fun j => Real.sqrt (wcov (sample θ (V k) k ω) j j)⟩, fun k hk => ?_, hω.1,
      fun j => (Real.continuous_sqrt.tendsto _).comp (hq j), fun δ hδ => ?_⟩
    · rw [repsUpdateDiag, reps_weights, exp_weights, (C58_scale _ (Real.exp_pos _) _ g ⟨0, 0⟩ ⟨0, 0, 0⟩ (fun _ => none)).1]
      have hz : ((((List.range k).map fun i => J i ω).map fun x => Real.exp ((eta k ω)⁻¹ * x)).zip ((List.range k).map fun i => θ i ω)) =
          sample θ (V k) k ω := by
        rw [List.map_map, List.zip_map']
        rfl
      rw [hz]
      simp only [hcov]
      obtain ⟨i, rfl⟩ : ∃ i, k = i + 2 := ⟨k - 2, by omega⟩
      have hl : sample θ (V (i + 2)) (i + 2) ω = [] ++ (V (i + 2) 0 ω, θ 0 ω) :: [] ++ (V (i + 2) 1 ω, θ 1 ω) ::
          ((List.range i).map fun l => (V (i + 2) (l + 2) ω, θ (l + 2) ω)) := by
        unfold sample
        rw [List.range_succ_eq_map, List.range_succ_eq_map]
        simp [Function.comp_def]
      obtain ⟨g', hg', _⟩ := C58_diag_wmle_partial g (sample θ (V (i + 2)) (i + 2) ω) _ _ _ _ _ hl (Real.exp_pos _)
        (Real.exp_pos _) (by
          intro p hp
          obtain ⟨i, _, rfl⟩ := List.mem_map.1 hp
          exact (Real.exp_pos _).le)
      unfold Diag.wmle at hg' ⊢
      simp only at hg' ⊢
      split at hg'
      · simp at hg'
      · next hc => rw [if_neg hc]
    · have hposk : ∀ᶠ k in atTop, ∀ j, 0 < wcov (sample θ (V k) k ω) j j :=
        eventually_all.2 fun j => (hq j).eventually_const_lt (hv j)
      have tkl : Tendsto (fun k => 1 / 2 * ∑ j, (wcov (sample θ (V k) k ω) j j / g.std j ^ 2 - 1 -
          Real.log (wcov (sample θ (V k) k ω) j j / g.std j ^ 2) + (wmean (sample θ (V k) k ω) j - g.mu j) ^ 2 / g.std j ^ 2)) atTop
          (𝓝 (1 / 2 * ∑ j, (tiltedVar Pr θ W j / g.std j ^ 2 - 1 -
          Real.log (tiltedVar Pr θ W j / g.std j ^ 2) + (tiltedMean Pr θ W j - g.mu j) ^ 2 / g.std j ^ 2))) := by
        refine (tendsto_finset_sum _ fun j _ => ?_).const_mul _
        have h1 := (hq j).div_const (g.std j ^ 2)
        have h2 := (((hω.1 j).sub_const (g.mu j)).pow 2).div_const (g.std j ^ 2)
        exact ((h1.sub_const 1).sub (h1.log (div_pos (hv j) (pow_pos (hs j) 2)).ne')).add h2
      rw [← hKL] at tkl
      filter_upwards [tkl.eventually_lt_const (show _ < eps + δ by linarith), hposk] with k hk hk2
      have hsqk : (fun j => Real.sqrt (wcov (sample θ (V k) k ω) j j) ^ 2) = fun j => wcov (sample θ (V k) k ω) j j :=
        funext fun j => Real.sq_sqrt (hk2 j).le
      rw [hsqk, gaussKL_diagonal _ _ _ _ hk2 (fun j => pow_pos (hs j) 2)]
      exact hk

end Diagonal

/-- The hypotheses of `C180_diag` hold in two dimensions. -/
example : ∃ (Pr : Measure (ℕ → Vec 2)) (_ : IsProbabilityMeasure Pr) (g : Diag 2) (f : Vec 2 → ℝ) (C eps : ℝ), g.std = ![1, 2] ∧
    (∀ j, 0 < g.std j) ∧ (∀ i (ω : ℕ → Vec 2), |Real.arctan (ω i 0)| ≤ Real.pi / 2) ∧
    Utilities Pr g.mu (diagonal fun k => g.std k ^ 2) 1⁻¹ f C (fun i ω => ω i) (fun i ω => Real.arctan (ω i 0)) ∧
    (¬ ∃ r, ∀ᵐ ω ∂Pr, Real.arctan (ω 0 0) = r) ∧ weightedKL Pr (fun ω => Real.arctan (ω 0 0)) 1 = eps ∧
    ∀ᵐ ω ∂Pr, Multipliers ω eps (fun i ω => Real.arctan (ω i 0)) (fun _ _ => 1) := by
  have hp := posDef_diagonal (![1, 2] : Vec 2) demo_std
  have hb : ∀ x : ℝ, |Real.arctan x| ≤ Real.pi / 2 := fun x => abs_le.2 ⟨(Real.neg_pi_div_two_lt_arctan x).le, (Real.arctan_lt_pi_div_two x).le⟩
  obtain ⟨Pr, h3, h4⟩ := utilities_exist ![1, -1] _ hp 1⁻¹ (by norm_num) (fun x => Real.arctan (x 0)) (by fun_prop) (Real.pi / 2)
    (fun x => (le_abs_self _).trans (hb _))
  have hn : ¬ ∃ r, ∀ᵐ ω ∂Pr, Real.arctan (ω 0 0) = r := by
    rintro ⟨r, hr⟩
    have e : ∫ ω, (ω 0 0 - Real.tan r) ^ 2 ∂Pr = 0 := by
      rw [integral_congr_ae (g := fun _ => 0)]
      · simp
      · filter_upwards [hr] with ω hω
        rw [← hω, Real.tan_arctan]
        simp
    have := (h4.integral_mul (fun x => (x 0 - Real.tan r) ^ 2) (by fun_prop) (hasExpect_sq hp 0 _)).2.2.1
    rw [e, mean_sq hp] at this
    have hd : 0 < (diagonal fun k : Fin 2 => (![1, 2] k : ℝ) ^ 2) 0 0 := hp.diag_pos
    nlinarith [sq_nonneg ((![1, -1] : Vec 2) 0 - Real.tan r)]
  refine ⟨Pr, h3, ⟨![1, -1], ![1, 2]⟩, _, _, _, rfl, demo_std, fun i ω => hb _, h4, hn, rfl, ?_⟩
  filter_upwards [diff_limit (eps := weightedKL Pr (fun ω => Real.arctan (ω 0 0)) 1) (by norm_num) (fun i ω => hb _) h4 1 one_pos] with ω hω
  refine ⟨fun _ => one_pos, ?_⟩
  simpa using hω

end Verif.Search.Pgpe
