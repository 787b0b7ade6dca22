/-
The limits of the updates of REPS, for multipliers that converge.
-/
import Verif.Search.LemmasReps

namespace Verif.Search.Pgpe

open Matrix MeasureTheory ProbabilityTheory Filter Topology

variable {n : ℕ}

section Bound

variable {Ω : Type} [MeasurableSpace Ω] {Pr : Measure Ω} [IsProbabilityMeasure Pr] {m : Vec n} {s : Matrix (Fin n) (Fin n) ℝ}
  {f : Vec n → ℝ} {C : ℝ} {θ : ℕ → Ω → Vec n} {J : ℕ → Ω → ℝ} {eta : ℕ → Ω → ℝ} {eta' eps B : ℝ}

theorem average_le (k : ℕ) (u : ℕ → ℝ) (K : ℝ) (hK : 0 ≤ K) (h : ∀ i, u i ≤ K) : average (List.range k) u ≤ K := by
  have : ((List.range k).map u).sum ≤ (List.range k).length * K := by
    induction List.range k with
    | nil => simp
    | cons a l ih =>
      simp only [List.map_cons, List.sum_cons, List.length_cons]
      push_cast
      linarith [h a]
  unfold average
  refine div_le_of_le_mul₀ (by positivity) hK ?_
  linarith

theorem average_bounded (u : ℕ → ℝ) (L : ℝ) (h : Tendsto (fun k => average (List.range k) u) atTop (𝓝 L)) :
    ∃ K, ∀ k, average (List.range k) u ≤ K := by
  obtain ⟨K, hK⟩ := h.bddAbove_range
  exact ⟨K, fun k => hK ⟨k, rfl⟩⟩

theorem integrable_log (h : Utilities Pr m s eta'⁻¹ f C θ J) (hB : ∀ i ω, |J i ω| ≤ B) :
    Integrable (fun ω => Real.log (Real.exp (eta'⁻¹ * J 0 ω)) * Real.exp (eta'⁻¹ * J 0 ω)) Pr := by
  have hm := (Real.measurable_log.comp (h.measurable_return 0)).aestronglyMeasurable (μ := Pr)
  refine (h.integrable_return 0).bdd_mul (c := |eta'⁻¹| * B) hm (ae_of_all _ fun ω => ?_)
  simp only [Function.comp_apply, Real.log_exp, Real.norm_eq_abs, abs_mul]
  exact mul_le_mul_of_nonneg_left (hB 0 ω) (abs_nonneg _)

/-- What the averages over the episodes of a run converge to. -/
theorem run_limits (hs : s.PosDef) (he : 0 < eta') (hB : ∀ i ω, |J i ω| ≤ B) (h : Utilities Pr m s eta'⁻¹ f C θ J)
    (hη : ∀ᵐ ω ∂Pr, Multipliers ω eps J eta ∧ Tendsto (fun k => eta k ω) atTop (𝓝 eta')) :
    ∀ W : ℕ → Ω → ℝ, W = (fun i ω => Real.exp (eta'⁻¹ * J i ω)) →
    (∀ᵐ ω ∂Pr,
      (∀ j, Tendsto (fun k => wmean (sample θ (fun i ω => Real.exp ((eta k ω)⁻¹ * J i ω)) k ω) j) atTop (𝓝 (tiltedMean Pr θ W j))) ∧
      ∀ a b, Tendsto (fun k => wcov (sample θ (fun i ω => Real.exp ((eta k ω)⁻¹ * J i ω)) k ω) a b) atTop (𝓝 (tiltedCov Pr θ W a b))) ∧
    eps = (∫ ω, Real.log (W 0 ω) * W 0 ω ∂Pr) / (∫ ω, W 0 ω ∂Pr) - Real.log (∫ ω, W 0 ω ∂Pr) := by
  rintro W hWd
  have iL := integrable_log h hB
  unfold Utilities at h
  rw [← hWd] at h
  have hW : ∀ i ω, W i ω = Real.exp (eta'⁻¹ * J i ω) := fun i ω => by rw [hWd]
  have hW0 : ∀ ω, 0 < W 0 ω := fun ω => by rw [hW]; exact Real.exp_pos _
  simp only [← hW] at iL
  have hB0 : 0 ≤ B := by
    obtain ⟨ω⟩ : Nonempty Ω := Pr.nonempty_of_neZero
    exact (abs_nonneg _).trans (hB 0 ω)
  have iW2 : Integrable (fun ω => W 0 ω * W 0 ω) Pr :=
    (h.integrable_return 0).mul_bdd (c := C) (h.measurable_return 0).aestronglyMeasurable
      (ae_of_all _ fun ω => by simpa using h.bounded 0 ω)
  have l0 := h.strongLaw (fun p => p.2) measurable_snd (h.integrable_return 0)
  have l00 := h.strongLaw (fun p => p.2 * p.2) (by fun_prop) iW2
  have lJ := h.strongLaw (fun p => Real.log p.2 * p.2) (by fun_prop) iL
  have l1 : ∀ᵐ ω ∂Pr, ∀ j, Tendsto (fun k => average (List.range k) (fun i => (θ i ω j - 0) * W i ω)) atTop
      (𝓝 (∫ ω, (θ 0 ω j - 0) * W 0 ω ∂Pr)) :=
    ae_all_iff.2 fun j => h.strongLaw (fun p => (p.1 j - 0) * p.2) (by fun_prop) (h.tilted_first hW0 hs j 0).1
  have l2 : ∀ᵐ ω ∂Pr, ∀ a b, Tendsto (fun k => average (List.range k) (fun i => (θ i ω a - 0) * (θ i ω b - 0) * W i ω)) atTop
      (𝓝 (∫ ω, (θ 0 ω a - 0) * (θ 0 ω b - 0) * W 0 ω ∂Pr)) :=
    ae_all_iff.2 fun a => ae_all_iff.2 fun b =>
      h.strongLaw (fun p => (p.1 a - 0) * (p.1 b - 0) * p.2) (by fun_prop) (h.tilted_cross hW0 hs a b 0 0).1
  have b1 : ∀ᵐ ω ∂Pr, ∀ j, Tendsto (fun k => average (List.range k) (fun i => |θ i ω j|)) atTop (𝓝 (∫ ω, |θ 0 ω j| ∂Pr)) :=
    ae_all_iff.2 fun j => h.strongLaw (fun p => |p.1 j|) (by fun_prop)
      (h.integral_mul (fun x => x j) (measurable_pi_apply j) (hasExpect_coord hs j)).1.abs
  have b2 : ∀ᵐ ω ∂Pr, ∀ a b, Tendsto (fun k => average (List.range k) (fun i => |(θ i ω a - 0) * (θ i ω b - 0)|)) atTop
      (𝓝 (∫ ω, |(θ 0 ω a - 0) * (θ 0 ω b - 0)| ∂Pr)) :=
    ae_all_iff.2 fun a => ae_all_iff.2 fun b => h.strongLaw (fun p => |(p.1 a - 0) * (p.1 b - 0)|) (by fun_prop)
      (h.integral_mul (fun x => (x a - 0) * (x b - 0)) (by fun_prop) (hasExpect_cross hs a b 0 0)).1.abs
  have hZ := h.total_pos hW0
  set Z := ∫ ω, W 0 ω ∂Pr with hZd
  set D := ∫ ω, Real.log (W 0 ω) * W 0 ω ∂Pr with hD
  have hinv : ∀ ω, Multipliers ω eps J eta ∧ Tendsto (fun k => eta k ω) atTop (𝓝 eta') → Tendsto (fun k => (eta k ω)⁻¹) atTop (𝓝 eta'⁻¹) := fun ω hω => hω.2.inv₀ he.ne'
  have hone : ∀ k, average (List.range k) (fun _ : ℕ => |(1 : ℝ)|) ≤ 1 := fun k => average_le k _ 1 (by norm_num) (fun _ => by simp)
  constructor
  · filter_upwards [l0, l00, l1, l2, b1, b2, hη] with ω h0 h00 h1 h2 hb1 hb2 hm
    have hb := hinv ω hm
    have hx : ∀ i, |J i ω| ≤ B := fun i => hB i ω
    simp only [hW] at h0 h00 h1 h2
    refine path_limit (fun i => θ i ω) (fun k i => Real.exp ((eta k ω)⁻¹ * J i ω)) Z (∫ ω, W 0 ω * W 0 ω ∂Pr) hZ.ne' _ _ ?_ ?_ (fun j => ?_)
      (fun a b => ?_)
    · have := drift (fun i => J i ω) (fun _ => 1) B 1 hx hone _ _ hb Z (by simpa only [one_mul, hZd, hW] using h0)
      simpa only [one_mul] using this
    · have hb2' : Tendsto (fun k => 2 * (eta k ω)⁻¹) atTop (𝓝 (2 * eta'⁻¹)) := hb.const_mul 2
      have e : ∀ b x : ℝ, Real.exp (b * x) * Real.exp (b * x) = 1 * Real.exp (2 * b * x) := by
        intro b x
        rw [one_mul, ← Real.exp_add]
        congr 1
        ring
      have := drift (fun i => J i ω) (fun _ => 1) B 1 hx hone _ _ hb2' (∫ ω, W 0 ω * W 0 ω ∂Pr) (by
        simp only [← e]
        simpa only [hW] using h00)
      simpa only [← e] using this
    · obtain ⟨K, hK⟩ := average_bounded _ _ (hb1 j)
      have hf := h1 j
      simp only [← hW] at hf
      rw [(h.tilted_first hW0 hs j 0).2] at hf
      simp only [sub_zero, hW] at hf
      have := drift (fun i => J i ω) (fun i => θ i ω j) B K hx hK _ _ hb _ hf
      simpa only [hZd, hW] using this
    · obtain ⟨K, hK⟩ := average_bounded _ _ (hb2 a b)
      have hf := h2 a b
      simp only [← hW] at hf
      rw [(h.tilted_cross hW0 hs a b 0 0).2] at hf
      simp only [sub_zero, hW] at hf hK
      have := drift (fun i => J i ω) (fun i => θ i ω a * θ i ω b) B K hx hK _ _ hb _ hf
      simpa only [hZd, hW] using this
  · obtain ⟨ω, h0, hJ, hm⟩ := (l0.and (lJ.and hη)).exists
    have hb := hinv ω hm
    have hx : ∀ i, |J i ω| ≤ B := fun i => hB i ω
    have d0 := drift (fun i => J i ω) (fun _ => 1) B 1 hx hone _ _ hb Z (by simpa only [one_mul, hZd, hW] using h0)
    simp only [one_mul] at d0
    have hJ' : Tendsto (fun k => average (List.range k) (fun i => J i ω * Real.exp (eta'⁻¹ * J i ω))) atTop (𝓝 (eta' * D)) := by
      refine (hJ.const_mul eta').congr fun k => ?_
      rw [← average_const_mul]
      congr 1
      funext i
      simp only [hW, Real.log_exp]
      field_simp
    have d1 := drift (fun i => J i ω) (fun i => J i ω) B B hx (fun k => average_le k _ B hB0 hx) _ _ hb _ hJ'
    have lim := ((d0.log hZ.ne').const_add eps).sub (d1.div (hm.2.mul d0) (mul_pos he hZ).ne')
    have hz : eps + Real.log Z - eta' * D / (eta' * Z) = 0 := by
      refine tendsto_nhds_unique (lim.congr' ?_) hm.1.stationary
      filter_upwards [eventually_gt_atTop 0] with k hk
      exact (repsDiff_eq eps (fun i => J i ω) k hk (eta k ω) (hm.1.pos k)).symm
    rw [mul_div_mul_left _ _ he.ne'] at hz
    linarith

theorem reps_weights (eta : ℝ) (J : List ℝ) : repsWeights eta J = rwrWeights eta⁻¹ J := by
  rw [repsWeights_eq_rwr, inv_inv]

/-- The update with a full covariance, for multipliers that converge. -/
theorem chol_reps (cholesky : Matrix (Fin n) (Fin n) ℝ → Option (Matrix (Fin n) (Fin n) ℝ)) (hc : IsCholesky cholesky)
    (hd : ∀ M, M.PosDef → (cholesky M).isSome) (g : Chol n) (hs : g.sigma.PosDef) (he : 0 < eta') (hB : ∀ i ω, |J i ω| ≤ B)
    (h : Utilities Pr g.mu g.sigma eta'⁻¹ f C θ J) (hη : ∀ᵐ ω ∂Pr, Multipliers ω eps J eta ∧ Tendsto (fun k => eta k ω) atTop (𝓝 eta')) :
    ∃ g' : Chol n, g'.sigma.PosDef ∧ gaussKL g'.mu g'.sigma g.mu g.sigma ≤ eps ∧
      performance g.mu g.sigma f ≤ performance g'.mu g'.sigma f ∧
      ∀ᵐ ω ∂Pr, ∃ new : ℕ → Chol n,
        (∀ᶠ k in atTop, repsUpdateChol cholesky g (eta k ω) ((List.range k).map fun i => J i ω) ((List.range k).map fun i => θ i ω) =
          some (new k)) ∧
        (∀ a, Tendsto (fun k => (new k).mu a) atTop (𝓝 (g'.mu a))) ∧
        (∀ a b, Tendsto (fun k => (new k).sigma a b) atTop (𝓝 (g'.sigma a b))) ∧
        ∀ δ, 0 < δ → ∀ᶠ k in atTop, gaussKL (new k).mu (new k).sigma g.mu g.sigma < eps + δ := by
  set W : ℕ → Ω → ℝ := fun i ω => Real.exp (eta'⁻¹ * J i ω) with hWd
  obtain ⟨hlim, heps⟩ := run_limits hs he hB h hη W hWd
  have iL : Integrable (fun ω => Real.log (W 0 ω) * W 0 ω) Pr := integrable_log h hB
  unfold Utilities at h
  rw [← hWd] at h
  have hW : ∀ ω, 0 < W 0 ω := fun ω => Real.exp_pos _
  have hp := h.tiltedCov_posDef hW hs
  obtain ⟨c, hcs⟩ := Option.isSome_iff_exists.1 (hd _ hp)
  have hsg : (⟨tiltedMean Pr θ W, c⟩ : Chol n).sigma = tiltedCov Pr θ W := (hc _ _ hcs).2.2
  have hkl : gaussKL (tiltedMean Pr θ W) (tiltedCov Pr θ W) g.mu g.sigma ≤ eps := by
    rw [heps]
    exact h.gibbs hW hs _ _ hp _ (h.chol_gain hW hs) iL
  refine ⟨⟨tiltedMean Pr θ W, c⟩, by rw [hsg]; exact hp, by rw [hsg]; exact hkl, ?_, ?_⟩
  · rw [hsg]
    have himp := h.improve hW hs _ _ hp _ (h.chol_gain hW hs)
    have hpos : 0 < performance g.mu g.sigma f := by rw [← h.total hs]; exact h.total_pos hW
    obtain ⟨k1, _⟩ := gaussKL_pos (tiltedMean Pr θ W) g.mu (tiltedCov Pr θ W) g.sigma hp hs
    exact le_trans (le_mul_of_one_le_left hpos.le (Real.one_le_exp k1)) himp
  · filter_upwards [hlim] with ω hω
    set V : ℕ → ℕ → Ω → ℝ := fun k i ω => Real.exp ((eta k ω)⁻¹ * J i ω) with hV
    have hev := eventually_posDef (fun k => wcov (sample θ (V k) k ω)) _ hp (fun k => by
      ext a b
      simp only [conjTranspose_apply, star_trivial, wcov]
      congr 3
      funext p
      ring) hω.2
    have hsig : ∀ᶠ k in atTop, (⟨wmean (sample θ (V k) k ω), (cholesky (wcov (sample θ (V k) k ω))).getD 0⟩ : Chol n).sigma =
        wcov (sample θ (V k) k ω) := by
      filter_upwards [hev] with k hk
      obtain ⟨e, he⟩ := Option.isSome_iff_exists.1 (hd _ hk)
      rw [he]
      exact (hc _ _ he).2.2
    have hcov : ∀ a b, Tendsto (fun k => (⟨wmean (sample θ (V k) k ω), (cholesky (wcov (sample θ (V k) k ω))).getD 0⟩ : Chol n).sigma a b)
        atTop (𝓝 (tiltedCov Pr θ W a b)) := by
      intro a b
      refine (hω.2 a b).congr' ?_
      filter_upwards [hsig] with k hk
      rw [hk]
    refine ⟨fun k => ⟨wmean (sample θ (V k) k ω), (cholesky (wcov (sample θ (V k) k ω))).getD 0⟩, ?_, hω.1,
      fun a b => by rw [hsg]; exact hcov a b, fun δ hδ => ?_⟩
    · filter_upwards [hev, eventually_ge_atTop 2] with k hk hk2
      rw [repsUpdateChol, reps_weights, exp_weights, (C58_scale _ (Real.exp_pos _) _ ⟨0, 0⟩ g ⟨0, 0, 0⟩ cholesky).2.1]
      have hz : ((((List.range k).map fun i => J i ω).map fun x => Real.exp ((eta k ω)⁻¹ * x)).zip ((List.range k).map fun i => θ i ω)) =
          sample θ (V k) k ω := by
        rw [List.map_map, List.zip_map']
        rfl
      rw [hz]
      obtain ⟨i, rfl⟩ : ∃ i, k = i + 2 := ⟨k - 2, by omega⟩
      have hl : sample θ (V (i + 2)) (i + 2) ω = [] ++ (V (i + 2) 0 ω, θ 0 ω) :: [] ++ (V (i + 2) 1 ω, θ 1 ω) ::
          ((List.range i).map fun l => (V (i + 2) (l + 2) ω, θ (l + 2) ω)) := by
        unfold sample
        rw [List.range_succ_eq_map, List.range_succ_eq_map]
        simp [Function.comp_def]
      obtain ⟨g', hg', _⟩ := C58_diag_wmle_partial ⟨0, 0⟩ (sample θ (V (i + 2)) (i + 2) ω) _ _ _ _ _ hl (Real.exp_pos _)
        (Real.exp_pos _) (by
          intro p hp
          obtain ⟨i, _, rfl⟩ := List.mem_map.1 hp
          exact (Real.exp_pos _).le)
      obtain ⟨e, he⟩ := Option.isSome_iff_exists.1 (hd _ hk)
      unfold Diag.wmle at hg'
      simp only at hg'
      split at hg'
      · simp at hg'
      · next hn =>
        unfold Chol.wmle
        rw [if_neg (fun hor => hn (hor.imp_right Or.inl))]
        show (cholesky (wcov (sample θ (V (i + 2)) (i + 2) ω))).map _ = _
        rw [he]
        rfl
    · have tm : Tendsto (fun k => wmean (sample θ (V k) k ω)) atTop (𝓝 (tiltedMean Pr θ W)) := tendsto_pi_nhds.2 hω.1
      have tc : Tendsto (fun k => wcov (sample θ (V k) k ω)) atTop (𝓝 (tiltedCov Pr θ W)) :=
        tendsto_pi_nhds.2 fun a => tendsto_pi_nhds.2 fun b => hω.2 a b
      have tdet : Tendsto (fun k => (wcov (sample θ (V k) k ω)).det) atTop (𝓝 (tiltedCov Pr θ W).det) :=
        ((Continuous.matrix_det continuous_id).tendsto _).comp tc
      have ttr : Tendsto (fun k => (g.sigma⁻¹ * wcov (sample θ (V k) k ω)).trace) atTop (𝓝 (g.sigma⁻¹ * tiltedCov Pr θ W).trace) :=
        ((Continuous.matrix_trace (Continuous.matrix_mul continuous_const continuous_id)).tendsto _).comp tc
      have tq : Tendsto (fun k => (g.mu - wmean (sample θ (V k) k ω)) ⬝ᵥ (g.sigma⁻¹ *ᵥ (g.mu - wmean (sample θ (V k) k ω)))) atTop
          (𝓝 ((g.mu - tiltedMean Pr θ W) ⬝ᵥ (g.sigma⁻¹ *ᵥ (g.mu - tiltedMean Pr θ W)))) := by
        have hcont : Continuous fun x : Vec n => (g.mu - x) ⬝ᵥ (g.sigma⁻¹ *ᵥ (g.mu - x)) := by
          unfold dotProduct mulVec
          unfold dotProduct
          fun_prop
        exact (hcont.tendsto _).comp tm
      have tkl := ((((ttr.sub_const (n : ℝ)).add_const (Real.log g.sigma.det)).sub (tdet.log hp.det_pos.ne')).add tq).const_mul (1 / 2)
      have hlt : 1 / 2 * ((g.sigma⁻¹ * tiltedCov Pr θ W).trace - n + Real.log g.sigma.det - Real.log (tiltedCov Pr θ W).det +
          (g.mu - tiltedMean Pr θ W) ⬝ᵥ (g.sigma⁻¹ *ᵥ (g.mu - tiltedMean Pr θ W))) < eps + δ := by
        have := hkl
        unfold gaussKL at this
        linarith
      filter_upwards [tkl.eventually_lt_const hlt, hsig] with k hk hk2
      rw [hk2]
      exact hk

/-- The update with a fixed covariance, for multipliers that converge. -/
theorem gauss_reps (mu : Vec n) (sigma : Matrix (Fin n) (Fin n) ℝ) (hs : sigma.PosDef) (g : Gauss n)
    (hg : Gauss.new mu sigma = some g) (he : 0 < eta') (hB : ∀ i ω, |J i ω| ≤ B)
    (h : Utilities Pr mu sigma eta'⁻¹ f C θ J) (hη : ∀ᵐ ω ∂Pr, Multipliers ω eps J eta ∧ Tendsto (fun k => eta k ω) atTop (𝓝 eta')) :
    ∃ mu' : Vec n, gaussKL mu' sigma mu sigma ≤ eps ∧ performance mu sigma f ≤ performance mu' sigma f ∧
      ∀ᵐ ω ∂Pr, ∃ new : ℕ → Gauss n,
        (∀ k, 0 < k → repsUpdate g (eta k ω) ((List.range k).map fun i => J i ω) ((List.range k).map fun i => θ i ω) = some (new k)) ∧
        (∀ k, (new k).sigma = sigma) ∧ (∀ a, Tendsto (fun k => (new k).mu a) atTop (𝓝 (mu' a))) ∧
        ∀ δ, 0 < δ → ∀ᶠ k in atTop, gaussKL (new k).mu sigma mu sigma < eps + δ := by
  have hg' : g = { mu := mu, sigma := sigma, invSigma := sigma⁻¹ } := by
    unfold Gauss.new at hg
    split at hg
    · simp at hg
    · simpa using hg.symm
  subst hg'
  set W : ℕ → Ω → ℝ := fun i ω => Real.exp (eta'⁻¹ * J i ω) with hWd
  obtain ⟨hlim, heps⟩ := run_limits hs he hB h hη W hWd
  have iL : Integrable (fun ω => Real.log (W 0 ω) * W 0 ω) Pr := integrable_log h hB
  unfold Utilities at h
  rw [← hWd] at h
  have hW : ∀ ω, 0 < W 0 ω := fun ω => Real.exp_pos _
  have hKL : ∀ x : Vec n, gaussKL x sigma mu sigma = 1 / 2 * ((x - mu) ⬝ᵥ (sigma⁻¹ *ᵥ (x - mu))) := by
    intro x
    have hq : (x - mu) ⬝ᵥ (sigma⁻¹ *ᵥ (x - mu)) = (mu - x) ⬝ᵥ (sigma⁻¹ *ᵥ (mu - x)) := by
      rw [← neg_sub mu x, neg_dotProduct, mulVec_neg, dotProduct_neg, neg_neg]
    rw [hq, gaussKL, Matrix.nonsing_inv_mul sigma (isUnit_iff_ne_zero.2 hs.det_pos.ne')]
    simp only [Matrix.trace_one, Fintype.card_fin]
    ring
  have hkl : gaussKL (tiltedMean Pr θ W) sigma mu sigma ≤ eps := by
    rw [heps, hKL]
    exact h.gibbs hW hs _ _ hs _ (h.gauss_gain hW hs) iL
  refine ⟨tiltedMean Pr θ W, hkl, ?_, ?_⟩
  · have himp := h.improve hW hs _ sigma hs _ (h.gauss_gain hW hs)
    have hpos : 0 < performance mu sigma f := by rw [← h.total hs]; exact h.total_pos hW
    refine le_trans (le_mul_of_one_le_left hpos.le (Real.one_le_exp ?_)) himp
    have : 0 ≤ (tiltedMean Pr θ W - mu) ⬝ᵥ (sigma⁻¹ *ᵥ (tiltedMean Pr θ W - mu)) := by
      simpa using hs.inv.posSemidef.dotProduct_mulVec_nonneg (tiltedMean Pr θ W - mu)
    positivity
  · filter_upwards [hlim] with ω hω
    set V : ℕ → ℕ → Ω → ℝ := fun k i ω => Real.exp ((eta k ω)⁻¹ * J i ω) with hV
    refine ⟨fun k => ⟨wmean (sample θ (V k) k ω), sigma, sigma⁻¹⟩, fun k hk => ?_, fun _ => rfl, hω.1, fun δ hδ => ?_⟩
    · rw [repsUpdate, reps_weights, exp_weights, (C58_scale _ (Real.exp_pos _) _ ⟨0, 0⟩ ⟨0, 0⟩ _ (fun _ => none)).2.2]
      have hz : ((((List.range k).map fun i => J i ω).map fun x => Real.exp ((eta k ω)⁻¹ * x)).zip ((List.range k).map fun i => θ i ω)) =
          sample θ (V k) k ω := by
        rw [List.map_map, List.zip_map']
        rfl
      rw [hz]
      refine if_neg ?_
      have : 0 < sumD (sample θ (V k) k ω) := by
        unfold sumD sample
        refine List.sum_pos _ ?_ (by simp; omega)
        intro x hx
        simp only [List.map_map, List.mem_map] at hx
        obtain ⟨i, _, rfl⟩ := hx
        exact Real.exp_pos _
      exact this.ne'
    · have tm : Tendsto (fun k => wmean (sample θ (V k) k ω)) atTop (𝓝 (tiltedMean Pr θ W)) := tendsto_pi_nhds.2 hω.1
      have hcont : Continuous fun x : Vec n => gaussKL x sigma mu sigma := by
        simp only [hKL]
        unfold dotProduct mulVec
        unfold dotProduct
        fun_prop
      exact ((hcont.tendsto _).comp tm).eventually_lt_const (by linarith)

end Bound

end Verif.Search.Pgpe
