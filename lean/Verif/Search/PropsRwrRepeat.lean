/-
Property C181: repeated updates of RWR settle.
-/
import Verif.Search.SpecRwrRepeat
import Verif.Search.PropsRwrChol

namespace Verif.Search.Pgpe

open Matrix MeasureTheory ProbabilityTheory Filter Topology

variable {n : ℕ}

/-- One update in the limit. -/
theorem limitUpdate_gain (cholesky : Matrix (Fin n) (Fin n) ℝ → Option (Matrix (Fin n) (Fin n) ℝ)) (hc : IsCholesky cholesky)
    (hd : ∀ M, M.PosDef → (cholesky M).isSome) (beta : ℝ) (f : Vec n → ℝ) (C : ℝ) (g g' : Chol n) (hs : g.sigma.PosDef)
    (h : LimitUpdate cholesky beta f C g g') :
    g'.sigma.PosDef ∧ 0 < performance g.mu g.sigma f ∧ performance g.mu g.sigma f ≤ C ∧
      Real.exp (gaussKL g'.mu g'.sigma g.mu g.sigma) * performance g.mu g.sigma f ≤ performance g'.mu g'.sigma f := by
  obtain ⟨Ω, _, Pr, _, θ, J, hu, hae⟩ := h
  obtain ⟨g1, hp, hlim, _, _, hgain⟩ := C178_chol cholesky hc hd g hs hu
  obtain ⟨ω, ⟨new, n1, n2, n3⟩, new', m1, m2, m3⟩ := (hae.and hlim).exists
  have heq : ∀ᶠ k in atTop, new k = new' k := by
    filter_upwards [n1, m1] with k h1 h2
    exact Option.some_injective _ (h1.symm.trans h2)
  have hmu : g'.mu = g1.mu := funext fun a => tendsto_nhds_unique_of_eventuallyEq (n2 a) (m2 a) (heq.mono fun k hk => by dsimp only; rw [hk])
  have hsg : g'.sigma = g1.sigma := by
    ext a b
    exact tendsto_nhds_unique_of_eventuallyEq (n3 a b) (m3 a b) (heq.mono fun k hk => by dsimp only; rw [hk])
  rw [hmu, hsg]
  have hW : ∀ ω, 0 < (fun i ω => Real.exp (beta * J i ω)) 0 ω := fun ω => Real.exp_pos _
  have hr : Rounds Pr g.mu g.sigma f C θ (fun i ω => Real.exp (beta * J i ω)) := hu
  have htot := hr.total hs
  refine ⟨hp, by rw [← htot]; exact hr.total_pos hW, ?_, hgain⟩
  rw [← htot]
  have := integral_mono (hr.integrable_return 0) (integrable_const C) fun ω => (le_abs_self _).trans (hr.bounded 0 ω)
  simpa using this

/-- C181. Let a sequence of distributions be such that each is the limit of an update of RWR of the one before, with the same `f` and a
`np.linalg.cholesky` that gives a Cholesky factor of every positive definite matrix. Then the expected exponential of `beta` times the return
never falls and converges, and the divergences of each distribution from the one before have a sum of at most the logarithm of the bound `C`
over the first of these expectations; in particular they tend to zero. -/
theorem C181_settles (cholesky : Matrix (Fin n) (Fin n) ℝ → Option (Matrix (Fin n) (Fin n) ℝ)) (hc : IsCholesky cholesky)
    (hd : ∀ M, M.PosDef → (cholesky M).isSome) (beta : ℝ) (f : Vec n → ℝ) (C : ℝ) (g : ℕ → Chol n) (hs : (g 0).sigma.PosDef)
    (h : ∀ k, LimitUpdate cholesky beta f C (g k) (g (k + 1))) :
    (∀ k, (g k).sigma.PosDef) ∧ Monotone (fun k => performance (g k).mu (g k).sigma f) ∧
    (∃ p ≤ C, Tendsto (fun k => performance (g k).mu (g k).sigma f) atTop (𝓝 p)) ∧
    (∀ K, ∑ k ∈ Finset.range K, gaussKL (g (k + 1)).mu (g (k + 1)).sigma (g k).mu (g k).sigma ≤
      Real.log (C / performance (g 0).mu (g 0).sigma f)) ∧
    Tendsto (fun k => gaussKL (g (k + 1)).mu (g (k + 1)).sigma (g k).mu (g k).sigma) atTop (𝓝 0) := by
  have hpd : ∀ k, (g k).sigma.PosDef := by
    intro k
    induction k with
    | zero => exact hs
    | succ k ih => exact (limitUpdate_gain cholesky hc hd beta f C _ _ ih (h k)).1
  have hg := fun k => limitUpdate_gain cholesky hc hd beta f C _ _ (hpd k) (h k)
  have hkl : ∀ k, 0 ≤ gaussKL (g (k + 1)).mu (g (k + 1)).sigma (g k).mu (g k).sigma := fun k =>
    (gaussKL_pos _ _ _ _ (hpd (k + 1)) (hpd k)).1
  have hmono : Monotone (fun k => performance (g k).mu (g k).sigma f) := monotone_nat_of_le_succ fun k =>
    (le_mul_of_one_le_left (hg k).2.1.le (Real.one_le_exp (hkl k))).trans (hg k).2.2.2
  have hlog : ∀ K, ∑ k ∈ Finset.range K, gaussKL (g (k + 1)).mu (g (k + 1)).sigma (g k).mu (g k).sigma ≤
      Real.log (performance (g K).mu (g K).sigma f) - Real.log (performance (g 0).mu (g 0).sigma f) := by
    intro K
    induction K with
    | zero => simp
    | succ K ih =>
      rw [Finset.sum_range_succ]
      have h1 := Real.log_le_log (mul_pos (Real.exp_pos _) (hg K).2.1) (hg K).2.2.2
      rw [Real.log_mul (Real.exp_pos _).ne' (hg K).2.1.ne', Real.log_exp] at h1
      linarith
  have hsum : ∀ K, ∑ k ∈ Finset.range K, gaussKL (g (k + 1)).mu (g (k + 1)).sigma (g k).mu (g k).sigma ≤
      Real.log (C / performance (g 0).mu (g 0).sigma f) := by
    intro K
    have hC : 0 < C := (hg 0).2.1.trans_le (hg 0).2.2.1
    rw [Real.log_div hC.ne' (hg 0).2.1.ne']
    have := Real.log_le_log (hg K).2.1 (hg K).2.2.1
    linarith [hlog K]
  refine ⟨hpd, hmono, ?_, hsum, ?_⟩
  · have hb : BddAbove (Set.range fun k => performance (g k).mu (g k).sigma f) := ⟨C, by rintro _ ⟨k, rfl⟩; exact (hg k).2.2.1⟩
    exact ⟨_, ciSup_le fun k => (hg k).2.2.1, tendsto_atTop_ciSup hmono hb⟩
  · exact (summable_of_sum_range_le hkl hsum).tendsto_atTop_zero

/-- Such sequences exist: for returns that depend on the parameters and are bounded from above, from every positive definite covariance. -/
theorem limitUpdates_exist (cholesky : Matrix (Fin n) (Fin n) ℝ → Option (Matrix (Fin n) (Fin n) ℝ)) (hc : IsCholesky cholesky)
    (hd : ∀ M, M.PosDef → (cholesky M).isSome) (beta : ℝ) (hb : 0 ≤ beta) (R : Vec n → ℝ) (hR : Measurable R) (c : ℝ) (hle : ∀ x, R x ≤ c)
    (g0 : Chol n) (hs : g0.sigma.PosDef) :
    ∃ g : ℕ → Chol n, g 0 = g0 ∧
      ∀ k, LimitUpdate cholesky beta (fun x => Real.exp (beta * R x)) (Real.exp (beta * c)) (g k) (g (k + 1)) := by
  have step : ∀ g : {g : Chol n // g.sigma.PosDef}, ∃ g' : {g : Chol n // g.sigma.PosDef},
      LimitUpdate cholesky beta (fun x => Real.exp (beta * R x)) (Real.exp (beta * c)) g.1 g'.1 := by
    rintro ⟨g, hg⟩
    obtain ⟨Pr, h1, h2⟩ := utilities_exist g.mu g.sigma hg beta hb R hR c hle
    obtain ⟨g', hp, hlim, _⟩ := C178_chol cholesky hc hd g hg h2
    exact ⟨⟨g', hp⟩, _, _, Pr, h1, _, _, h2, hlim⟩
  choose next hnext using step
  refine ⟨fun k => (next^[k] ⟨g0, hs⟩).1, rfl, fun k => ?_⟩
  simp only [Function.iterate_succ_apply']
  exact hnext _

/-- The hypotheses of `C181_settles` hold for returns that are not bounded from below and a covariance that is not diagonal. -/
example : ∃ (cholesky : Matrix (Fin 2) (Fin 2) ℝ → Option (Matrix (Fin 2) (Fin 2) ℝ)) (g : ℕ → Chol 2) (C : ℝ), IsCholesky cholesky ∧
    (∀ M, M.PosDef → (cholesky M).isSome) ∧ (g 0).chol = !![1, 0; 2, 3] ∧ (g 0).sigma.PosDef ∧
    ∀ k, LimitUpdate cholesky 3 (fun x => Real.exp (3 * (-(x 0) ^ 2 - (x 1) ^ 2))) C (g k) (g (k + 1)) := by
  obtain ⟨cholesky, h1, h2⟩ := cholesky_exists (n := 2)
  have hp : (⟨![1, -1], !![1, 0; 2, 3]⟩ : Chol 2).sigma.PosDef := posDef_chol _ (by simp [det_fin_two])
  obtain ⟨g, hg0, hg⟩ := limitUpdates_exist cholesky h1 h2 3 (by norm_num) (fun x => -(x 0) ^ 2 - (x 1) ^ 2) (by fun_prop) 0
    (fun x => by nlinarith [sq_nonneg (x 0), sq_nonneg (x 1)]) _ hp
  exact ⟨cholesky, g, _, h1, h2, by rw [hg0], by rw [hg0]; exact hp, hg⟩

end Verif.Search.Pgpe
