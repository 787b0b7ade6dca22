/-
Property C180: with many episodes the update of REPS keeps to the bound on the divergence.
-/
import Verif.Search.PropsReps

namespace Verif.Search.Pgpe

open Matrix MeasureTheory ProbabilityTheory Filter Topology

variable {n : ℕ}

/-- The divergence grows with the inverse of the multiplier. -/
theorem kl_order (b c zb zc db dc : ℝ) (hb : 0 < b) (hbc : b < c) (h1 : Real.log zc + (b - c) * (dc / zc) ≤ Real.log zb)
    (h2 : Real.log zb + (c - b) * (db / zb) ≤ Real.log zc) :
    b * (db / zb) - Real.log zb ≤ c * (dc / zc) - Real.log zc ∧
      (Real.log zc + (b - c) * (dc / zc) < Real.log zb → b * (db / zb) - Real.log zb < c * (dc / zc) - Real.log zc) := by
  have h3 : 0 ≤ (c - b) * (dc / zc - db / zb) := by linarith
  have h4 : 0 ≤ dc / zc - db / zb := by
    by_contra hn
    have := mul_neg_of_pos_of_neg (sub_pos.2 hbc) (not_le.1 hn)
    linarith
  have h5 := mul_nonneg hb.le h4
  constructor
  · linarith
  · intro h6
    linarith

/-- A tangent to the logarithm of the normaliser. -/
theorem tangent (zb zc dc b c : ℝ) (hzc : 0 < zc)
    (h : Real.exp ((b - c) * (dc / zc)) * ((1 - (b - c) * (dc / zc)) * zc + (b - c) * dc) ≤ zb) :
    Real.log zc + (b - c) * (dc / zc) ≤ Real.log zb ∧
      (Real.exp ((b - c) * (dc / zc)) * ((1 - (b - c) * (dc / zc)) * zc + (b - c) * dc) < zb →
        Real.log zc + (b - c) * (dc / zc) < Real.log zb) := by
  have e : (1 - (b - c) * (dc / zc)) * zc + (b - c) * dc = zc := by field_simp; ring
  rw [e] at h ⊢
  have e2 : Real.log zc + (b - c) * (dc / zc) = Real.log (Real.exp ((b - c) * (dc / zc)) * zc) := by
    rw [Real.log_mul (Real.exp_pos _).ne' hzc.ne', Real.log_exp, add_comm]
  have hp : 0 < Real.exp ((b - c) * (dc / zc)) * zc := mul_pos (Real.exp_pos _) hzc
  rw [e2]
  exact ⟨Real.log_le_log hp h, fun h => Real.log_lt_log hp h⟩

/-- The tangent below the exponential. -/
theorem exp_tangent (b c t x : ℝ) : Real.exp t * ((1 - t) * Real.exp (c * x) + (b - c) * (x * Real.exp (c * x))) ≤ Real.exp (b * x) ∧
    (Real.exp t * ((1 - t) * Real.exp (c * x) + (b - c) * (x * Real.exp (c * x))) = Real.exp (b * x) → (b - c) * x = t) := by
  have e : Real.exp (b * x) = Real.exp t * Real.exp (c * x) * Real.exp ((b - c) * x - t) := by
    rw [← Real.exp_add, ← Real.exp_add]; congr 1; ring
  have e2 : Real.exp t * ((1 - t) * Real.exp (c * x) + (b - c) * (x * Real.exp (c * x))) =
      Real.exp t * Real.exp (c * x) * (((b - c) * x - t) + 1) := by ring
  have hp : 0 < Real.exp t * Real.exp (c * x) := mul_pos (Real.exp_pos _) (Real.exp_pos _)
  rw [e, e2]
  refine ⟨mul_le_mul_of_nonneg_left (Real.add_one_le_exp _) hp.le, fun h => ?_⟩
  have h1 := mul_left_cancel₀ hp.ne' h
  by_contra hn
  have := Real.add_one_lt_exp (sub_ne_zero.2 hn)
  linarith

theorem average_mono (k : ℕ) (u v : ℕ → ℝ) (h : ∀ i, u i ≤ v i) : average (List.range k) u ≤ average (List.range k) v := by
  unfold average
  refine div_le_div_of_nonneg_right ?_ (by positivity)
  exact List.sum_le_sum fun i _ => h i

theorem average_exp_pos (k : ℕ) (hk : 0 < k) (x : ℕ → ℝ) (b : ℝ) : 0 < average (List.range k) (fun i => Real.exp (b * x i)) := by
  unfold average
  refine div_pos (List.sum_pos _ ?_ (by simp; omega)) (by simpa using hk)
  intro y hy
  obtain ⟨i, _, rfl⟩ := List.mem_map.1 hy
  exact Real.exp_pos _

/-- The derivative of the dual function grows with the multiplier. -/
theorem repsDiff_mono (eps : ℝ) (x : ℕ → ℝ) (k : ℕ) (hk : 0 < k) (eta eta' : ℝ) (he : 0 < eta) (hee : eta < eta') :
    repsDiff eps ((List.range k).map x) eta ≤ repsDiff eps ((List.range k).map x) eta' := by
  rw [repsDiff_eq eps x k hk eta he, repsDiff_eq eps x k hk eta' (he.trans hee)]
  have tan : ∀ b c : ℝ, Real.log (average (List.range k) (fun i => Real.exp (c * x i))) + (b - c) *
      (average (List.range k) (fun i => x i * Real.exp (c * x i)) / average (List.range k) (fun i => Real.exp (c * x i))) ≤
      Real.log (average (List.range k) (fun i => Real.exp (b * x i))) := by
    intro b c
    refine (tangent _ _ _ b c (average_exp_pos k hk x c) ?_).1
    set t := (b - c) * (average (List.range k) (fun i => x i * Real.exp (c * x i)) / average (List.range k) (fun i => Real.exp (c * x i)))
    refine le_trans (le_of_eq ?_) (average_mono k _ _ fun i => (exp_tangent b c t (x i)).1)
    rw [average_const_mul]
    congr 1
    have := average_sub_mul (List.range k) (fun i => (1 - t) * Real.exp (c * x i)) (fun i => x i * Real.exp (c * x i)) (-(b - c))
    rw [average_const_mul] at this
    simp only [neg_mul, sub_neg_eq_add] at this
    exact this.symm
  have hinv : eta'⁻¹ < eta⁻¹ := inv_strictAnti₀ he hee
  have := (kl_order eta'⁻¹ eta⁻¹ _ _ _ _ (inv_pos.2 (he.trans hee)) hinv (tan _ _) (tan _ _)).1
  rw [inv_mul_eq_div, inv_mul_eq_div, div_div, div_div] at this
  rw [mul_comm eta, mul_comm eta']
  linarith

section Converge

variable {Ω : Type} [MeasurableSpace Ω] {Pr : Measure Ω} [IsProbabilityMeasure Pr] {m : Vec n} {s : Matrix (Fin n) (Fin n) ℝ}
  {f : Vec n → ℝ} {C : ℝ} {θ : ℕ → Ω → Vec n} {J : ℕ → Ω → ℝ} {eta : ℕ → Ω → ℝ} {eta' eps B : ℝ}

theorem measurable_of_utilities (he : 0 < eta') (h : Utilities Pr m s eta'⁻¹ f C θ J) (i : ℕ) : Measurable (J i) := by
  have h1 := (Real.measurable_log.comp (h.measurable_return i)).const_mul eta'
  have e : J i = fun ω => eta' * (Real.log ∘ fun ω => Real.exp (eta'⁻¹ * J i ω)) ω := by
    funext ω
    simp only [Function.comp_apply, Real.log_exp]
    field_simp
  rw [e]
  exact h1

section Weighted

variable {X : Ω → ℝ} (hX : Measurable X) (hb : ∀ ω, |X ω| ≤ B)

include hX hb in
theorem integrable_exp (b : ℝ) : Integrable (fun ω => Real.exp (b * X ω)) Pr := by
  refine Integrable.of_bound (by fun_prop) (Real.exp (|b| * B)) (ae_of_all _ fun ω => ?_)
  rw [Real.norm_eq_abs, abs_of_pos (Real.exp_pos _)]
  refine Real.exp_le_exp.2 ((le_abs_self _).trans ?_)
  rw [abs_mul]
  exact mul_le_mul_of_nonneg_left (hb ω) (abs_nonneg _)

include hX hb in
theorem integrable_mul_exp (b : ℝ) : Integrable (fun ω => X ω * Real.exp (b * X ω)) Pr :=
  (integrable_exp hX hb b).bdd_mul (c := B) hX.aestronglyMeasurable (ae_of_all _ fun ω => hb ω)

include hX hb in
theorem weight_pos (b : ℝ) : 0 < ∫ ω, Real.exp (b * X ω) ∂Pr := by
  rw [integral_pos_iff_support_of_nonneg (fun ω => (Real.exp_pos _).le) (integrable_exp hX hb b)]
  have : Function.support (fun ω => Real.exp (b * X ω)) = Set.univ := Set.eq_univ_of_forall fun ω => (Real.exp_pos _).ne'
  rw [this]
  simp

include hX hb in
theorem tangent_integral (b c : ℝ) :
    Real.log (∫ ω, Real.exp (c * X ω) ∂Pr) + (b - c) * ((∫ ω, X ω * Real.exp (c * X ω) ∂Pr) / ∫ ω, Real.exp (c * X ω) ∂Pr) ≤
      Real.log (∫ ω, Real.exp (b * X ω) ∂Pr) ∧
    (b ≠ c → (¬ ∃ r, ∀ᵐ ω ∂Pr, X ω = r) →
      Real.log (∫ ω, Real.exp (c * X ω) ∂Pr) + (b - c) * ((∫ ω, X ω * Real.exp (c * X ω) ∂Pr) / ∫ ω, Real.exp (c * X ω) ∂Pr) <
        Real.log (∫ ω, Real.exp (b * X ω) ∂Pr)) := by
  have hz := weight_pos (Pr := Pr) hX hb c
  set t := (b - c) * ((∫ ω, X ω * Real.exp (c * X ω) ∂Pr) / ∫ ω, Real.exp (c * X ω) ∂Pr) with ht
  have i0 := integrable_exp (Pr := Pr) hX hb b
  have i1 := (integrable_exp (Pr := Pr) hX hb c).const_mul (1 - t)
  have i2 := (integrable_mul_exp (Pr := Pr) hX hb c).const_mul (b - c)
  have i12 : Integrable (fun ω => (1 - t) * Real.exp (c * X ω) + (b - c) * (X ω * Real.exp (c * X ω))) Pr := i1.add i2
  have i3 := i12.const_mul (Real.exp t)
  have e : ∫ ω, Real.exp t * ((1 - t) * Real.exp (c * X ω) + (b - c) * (X ω * Real.exp (c * X ω))) ∂Pr =
      Real.exp t * ((1 - t) * (∫ ω, Real.exp (c * X ω) ∂Pr) + (b - c) * ∫ ω, X ω * Real.exp (c * X ω) ∂Pr) := by
    rw [integral_const_mul, integral_add i1 i2, integral_const_mul, integral_const_mul]
  have hle := integral_mono i3 i0 fun ω => (exp_tangent b c t (X ω)).1
  rw [e] at hle
  have hT := tangent _ _ _ b c hz hle
  refine ⟨hT.1, fun hbc hn => hT.2 (lt_of_le_of_ne hle fun heq => hn ?_)⟩
  have hzero : ∫ ω, (Real.exp (b * X ω) - Real.exp t * ((1 - t) * Real.exp (c * X ω) + (b - c) * (X ω * Real.exp (c * X ω)))) ∂Pr = 0 := by
    rw [integral_sub i0 i3, e]
    exact sub_eq_zero.2 heq.symm
  have hae := (integral_eq_zero_iff_of_nonneg (fun ω => sub_nonneg.2 (exp_tangent b c t (X ω)).1) (i0.sub i3)).1 hzero
  refine ⟨t / (b - c), ?_⟩
  filter_upwards [hae] with ω hω
  have h1 := (exp_tangent b c t (X ω)).2 (sub_eq_zero.1 hω).symm
  rw [eq_div_iff (sub_ne_zero.2 hbc), ← h1]
  ring

include hX hb in
theorem weightedKL_eq (e : ℝ) :
    weightedKL Pr X e = e⁻¹ * ((∫ ω, X ω * Real.exp (e⁻¹ * X ω) ∂Pr) / ∫ ω, Real.exp (e⁻¹ * X ω) ∂Pr) -
      Real.log (∫ ω, Real.exp (e⁻¹ * X ω) ∂Pr) := by
  have hz := weight_pos (Pr := Pr) hX hb e⁻¹
  have hd : ∀ ω, X ω / e = e⁻¹ * X ω := fun ω => by rw [div_eq_mul_inv, mul_comm]
  unfold weightedKL
  simp only [hd]
  set Z := ∫ ω, Real.exp (e⁻¹ * X ω) ∂Pr with hZ
  have i1 := (integrable_mul_exp (Pr := Pr) hX hb e⁻¹).const_mul (e⁻¹ / Z)
  have i2 := (integrable_exp (Pr := Pr) hX hb e⁻¹).const_mul (Real.log Z / Z)
  have h1 : ∫ ω, Real.exp (e⁻¹ * X ω) / Z * Real.log (Real.exp (e⁻¹ * X ω) / Z) ∂Pr =
      ∫ ω, e⁻¹ / Z * (X ω * Real.exp (e⁻¹ * X ω)) - Real.log Z / Z * Real.exp (e⁻¹ * X ω) ∂Pr := by
    refine integral_congr_ae (ae_of_all _ fun ω => ?_)
    simp only
    rw [Real.log_div (Real.exp_pos _).ne' hz.ne', Real.log_exp]
    ring
  rw [h1, integral_sub i1 i2, integral_const_mul, integral_const_mul, ← hZ, div_mul_cancel₀ _ hz.ne']
  ring

include hX hb in
theorem weightedKL_strict (hn : ¬ ∃ r, ∀ᵐ ω ∂Pr, X ω = r) (e e' : ℝ) (he : 0 < e) (hee : e < e') : weightedKL Pr X e' < weightedKL Pr X e := by
  rw [weightedKL_eq hX hb, weightedKL_eq hX hb]
  have hinv : e'⁻¹ < e⁻¹ := inv_strictAnti₀ he hee
  exact (kl_order _ _ _ _ _ _ (inv_pos.2 (he.trans hee)) hinv (tangent_integral hX hb _ _).1 (tangent_integral hX hb _ _).1).2
    ((tangent_integral hX hb _ _).2 hinv.ne hn)

include hX hb in
theorem continuous_weight (u : Ω → ℝ) (hu : Measurable u) (K : ℝ) (hK : ∀ ω, |u ω| ≤ K) :
    Continuous fun b => ∫ ω, u ω * Real.exp (b * X ω) ∂Pr := by
  refine continuous_iff_continuousAt.2 fun b => ?_
  refine continuousAt_of_dominated (bound := fun _ => K * Real.exp ((|b| + 1) * B)) (Eventually.of_forall fun c => by fun_prop) ?_
    (integrable_const _) (ae_of_all _ fun ω => by fun_prop)
  filter_upwards [Metric.ball_mem_nhds b one_pos] with c hc
  refine ae_of_all _ fun ω => ?_
  rw [Real.norm_eq_abs, abs_mul, abs_of_pos (Real.exp_pos _)]
  refine mul_le_mul (hK ω) (Real.exp_le_exp.2 ?_) (Real.exp_pos _).le ((abs_nonneg _).trans (hK ω))
  refine (le_abs_self _).trans ?_
  rw [abs_mul]
  have h1 : |c| ≤ |b| + 1 := by
    rw [Metric.mem_ball, Real.dist_eq] at hc
    have := abs_sub_abs_le_abs_sub c b
    linarith
  exact mul_le_mul h1 (hb ω) (abs_nonneg _) (by positivity)

include hX hb in
theorem weightedKL_ivt (eps e : ℝ) (h0 : 0 < eps) (he : 0 < e) (hle : eps ≤ weightedKL Pr X e) : ∃ e', e ≤ e' ∧ weightedKL Pr X e' = eps := by
  have hB0 : 0 ≤ B := by
    obtain ⟨ω⟩ : Nonempty Ω := Pr.nonempty_of_neZero
    exact (abs_nonneg _).trans (hb ω)
  have c0 : Continuous fun b => ∫ ω, Real.exp (b * X ω) ∂Pr := by
    have := continuous_weight (Pr := Pr) hX hb (fun _ => 1) measurable_const 1 (fun _ => by simp)
    simpa only [one_mul] using this
  have c1 := continuous_weight (Pr := Pr) hX hb X hX B hb
  have hz : ∀ b, ∫ ω, Real.exp (b * X ω) ∂Pr ≠ 0 := fun b => (weight_pos (Pr := Pr) hX hb b).ne'
  have cK : Continuous fun b => b * ((∫ ω, X ω * Real.exp (b * X ω) ∂Pr) / ∫ ω, Real.exp (b * X ω) ∂Pr) -
      Real.log (∫ ω, Real.exp (b * X ω) ∂Pr) := (continuous_id.mul (c1.div c0 hz)).sub (c0.log hz)
  rw [weightedKL_eq hX hb] at hle
  have hmem := intermediate_value_Icc (inv_pos.2 he).le cK.continuousOn ⟨by simpa using h0.le, hle⟩
  obtain ⟨b, ⟨hb0, hb1⟩, hbe⟩ := hmem
  have hbpos : 0 < b := by
    refine lt_of_le_of_ne hb0 fun h => ?_
    subst h
    simp at hbe
    linarith
  refine ⟨b⁻¹, ?_, ?_⟩
  · rw [le_inv_comm₀ he hbpos]
    exact hb1
  · rw [weightedKL_eq hX hb, inv_inv]
    exact hbe

end Weighted

theorem diff_limit (he : 0 < eta') (hB : ∀ i ω, |J i ω| ≤ B) (h : Utilities Pr m s eta'⁻¹ f C θ J) (e : ℝ) (hpos : 0 < e) :
    ∀ᵐ ω ∂Pr, Tendsto (fun k => repsDiff eps ((List.range k).map fun i => J i ω) e) atTop (𝓝 (eps - weightedKL Pr (J 0) e)) := by
  have hX := measurable_of_utilities he h 0
  have hJ : ∀ i ω, eta' * Real.log (Real.exp (eta'⁻¹ * J i ω)) = J i ω := by
    intro i ω
    rw [Real.log_exp]
    field_simp
  have i0 := integrable_exp (Pr := Pr) hX (hB 0) e⁻¹
  have i1 := integrable_mul_exp (Pr := Pr) hX (hB 0) e⁻¹
  have hZ := weight_pos (Pr := Pr) hX (hB 0) e⁻¹
  have l0 := h.strongLaw (fun p => Real.exp (e⁻¹ * (eta' * Real.log p.2))) (by fun_prop) (by simpa only [hJ] using i0)
  have l1 := h.strongLaw (fun p => eta' * Real.log p.2 * Real.exp (e⁻¹ * (eta' * Real.log p.2))) (by fun_prop) (by simpa only [hJ] using i1)
  simp only [hJ] at l0 l1
  filter_upwards [l0, l1] with ω h0 h1
  have lim := ((h0.log hZ.ne').const_add eps).sub (h1.div (h0.const_mul e) (mul_pos hpos hZ).ne')
  rw [weightedKL_eq hX (hB 0)]
  have hv : eps + Real.log (∫ ω, Real.exp (e⁻¹ * J 0 ω) ∂Pr) - (∫ ω, J 0 ω * Real.exp (e⁻¹ * J 0 ω) ∂Pr) /
      (e * ∫ ω, Real.exp (e⁻¹ * J 0 ω) ∂Pr) = eps - (e⁻¹ * ((∫ ω, J 0 ω * Real.exp (e⁻¹ * J 0 ω) ∂Pr) /
      ∫ ω, Real.exp (e⁻¹ * J 0 ω) ∂Pr) - Real.log (∫ ω, Real.exp (e⁻¹ * J 0 ω) ∂Pr)) := by
    have := hpos.ne'
    have := hZ.ne'
    field_simp
    ring
  rw [hv] at lim
  refine lim.congr' ?_
  filter_upwards [eventually_gt_atTop 0] with k hk
  exact (repsDiff_eq eps (fun i => J i ω) k hk e hpos).symm

/-- C180 (multipliers). Let the returns be bounded and not almost surely constant, and let `eta'` be the multiplier for which the law of an
episode, weighted as REPS weights the episodes, has the divergence `eps` from the law itself. Then there is no other such multiplier, and
whatever the minimiser finds converges to it almost surely, if only the derivative of the dual function at what it finds tends to zero. -/
theorem C180_multipliers (he : 0 < eta') (hB : ∀ i ω, |J i ω| ≤ B) (h : Utilities Pr m s eta'⁻¹ f C θ J)
    (hn : ¬ ∃ r, ∀ᵐ ω ∂Pr, J 0 ω = r) (heps : weightedKL Pr (J 0) eta' = eps)
    (hη : ∀ᵐ ω ∂Pr, Multipliers ω eps J eta) :
    (∀ e, 0 < e → weightedKL Pr (J 0) e = eps → e = eta') ∧ ∀ᵐ ω ∂Pr, Tendsto (fun k => eta k ω) atTop (𝓝 eta') := by
  have hX := measurable_of_utilities he h 0
  have hstrict := weightedKL_strict (Pr := Pr) hX (hB 0) hn
  constructor
  · intro e hpos hkl
    rcases lt_trichotomy e eta' with hlt | heq | hgt
    · have := hstrict e eta' hpos hlt
      linarith
    · exact heq
    · have := hstrict eta' e he hgt
      linarith
  · have hq : ∀ᵐ ω ∂Pr, ∀ q : ℚ, (0 : ℝ) < q →
        Tendsto (fun k => repsDiff eps ((List.range k).map fun i => J i ω) q) atTop (𝓝 (eps - weightedKL Pr (J 0) q)) := by
      refine ae_all_iff.2 fun q => ?_
      by_cases hpos : (0 : ℝ) < q
      · filter_upwards [diff_limit he hB h q hpos] with ω hω _ using hω
      · exact ae_of_all _ fun ω hc => absurd hc hpos
    filter_upwards [hq, hη] with ω hω hm
    refine tendsto_order.2 ⟨fun a ha => ?_, fun a ha => ?_⟩
    · obtain ⟨q, hq1, hq2⟩ := exists_rat_btwn (max_lt ha he)
      have hq0 : (0 : ℝ) < q := (le_max_right _ _).trans_lt hq1
      have hlim := hω q hq0
      have hneg : eps - weightedKL Pr (J 0) q < 0 := by
        have := hstrict q eta' hq0 hq2
        linarith
      filter_upwards [hlim.eventually_lt hm.stationary hneg, eventually_gt_atTop 0] with k hk hk0
      by_contra hc
      have hlt : eta k ω < q := (not_lt.1 hc).trans_lt ((le_max_left _ _).trans_lt hq1)
      exact absurd (repsDiff_mono eps (fun i => J i ω) k hk0 _ _ (hm.pos k) hlt) (not_le.2 hk)
    · obtain ⟨q, hq1, hq2⟩ := exists_rat_btwn ha
      have hq0 : (0 : ℝ) < q := he.trans hq1
      have hlim := hω q hq0
      have hposv : 0 < eps - weightedKL Pr (J 0) q := by
        have := hstrict eta' q he hq1
        linarith
      filter_upwards [hm.stationary.eventually_lt hlim hposv, eventually_gt_atTop 0] with k hk hk0
      by_contra hc
      have hlt : (q : ℝ) < eta k ω := hq2.trans_le (not_lt.1 hc)
      exact absurd (repsDiff_mono eps (fun i => J i ω) k hk0 _ _ hq0 hlt) (not_le.2 hk)

/-- C180 (existence). There is such a multiplier for every positive `eps` up to the divergence for some other multiplier: the larger the
multiplier, the smaller the divergence, and it takes every value in between. -/
theorem C180_exists (X : Ω → ℝ) (hX : Measurable X) (hb : ∀ ω, |X ω| ≤ B) (hn : ¬ ∃ r, ∀ᵐ ω ∂Pr, X ω = r) :
    (∀ e e', 0 < e → e < e' → weightedKL Pr X e' < weightedKL Pr X e) ∧
      ∀ e eps, 0 < e → 0 < eps → eps ≤ weightedKL Pr X e → ∃ e', e ≤ e' ∧ weightedKL Pr X e' = eps :=
  ⟨fun e e' he hee => weightedKL_strict hX hb hn e e' he hee, fun e eps he h0 hle => weightedKL_ivt hX hb eps e h0 he hle⟩

/-- C180 (full covariance). Let REPS search with a Gaussian with a full covariance, for which `np.linalg.cholesky` gives a Cholesky factor of
every positive definite matrix, and let the returns and the multipliers be as above. As the number of episodes of an update grows, the
update succeeds from some number on, the mean and the covariance converge almost surely, and the divergence of the new distribution from
the old one exceeds `eps` by less than any given `δ`; in the limit it is at most `eps`, and the expected exponential of the return divided
by `eta'` is at least that of the old distribution. -/
theorem C180_chol (cholesky : Matrix (Fin n) (Fin n) ℝ → Option (Matrix (Fin n) (Fin n) ℝ)) (hc : IsCholesky cholesky)
    (hd : ∀ M, M.PosDef → (cholesky M).isSome) (g : Chol n) (hs : g.sigma.PosDef) (he : 0 < eta') (hB : ∀ i ω, |J i ω| ≤ B)
    (h : Utilities Pr g.mu g.sigma eta'⁻¹ f C θ J) (hn : ¬ ∃ r, ∀ᵐ ω ∂Pr, J 0 ω = r) (heps : weightedKL Pr (J 0) eta' = eps)
    (hη : ∀ᵐ ω ∂Pr, Multipliers ω eps J eta) :
    ∃ g' : Chol n, g'.sigma.PosDef ∧ gaussKL g'.mu g'.sigma g.mu g.sigma ≤ eps ∧
      performance g.mu g.sigma f ≤ performance g'.mu g'.sigma f ∧
      ∀ᵐ ω ∂Pr, ∃ new : ℕ → Chol n,
        (∀ᶠ k in atTop, repsUpdateChol cholesky g (eta k ω) ((List.range k).map fun i => J i ω) ((List.range k).map fun i => θ i ω) =
          some (new k)) ∧
        (∀ a, Tendsto (fun k => (new k).mu a) atTop (𝓝 (g'.mu a))) ∧
        (∀ a b, Tendsto (fun k => (new k).sigma a b) atTop (𝓝 (g'.sigma a b))) ∧
        ∀ δ, 0 < δ → ∀ᶠ k in atTop, gaussKL (new k).mu (new k).sigma g.mu g.sigma < eps + δ :=
  chol_reps cholesky hc hd g hs he hB h (hη.and (C180_multipliers he hB h hn heps hη).2)

/-- C180 (fixed covariance). The same with a Gaussian with a fixed positive definite covariance, whatever the number of episodes. -/
theorem C180_gauss (mu : Vec n) (sigma : Matrix (Fin n) (Fin n) ℝ) (hs : sigma.PosDef) (g : Gauss n)
    (hg : Gauss.new mu sigma = some g) (he : 0 < eta') (hB : ∀ i ω, |J i ω| ≤ B)
    (h : Utilities Pr mu sigma eta'⁻¹ f C θ J) (hn : ¬ ∃ r, ∀ᵐ ω ∂Pr, J 0 ω = r) (heps : weightedKL Pr (J 0) eta' = eps)
    (hη : ∀ᵐ ω ∂Pr, Multipliers ω eps J eta) :
    ∃ mu' : Vec n, gaussKL mu' sigma mu sigma ≤ eps ∧ performance mu sigma f ≤ performance mu' sigma f ∧
      ∀ᵐ ω ∂Pr, ∃ new : ℕ → Gauss n,
        (∀ k, 0 < k → repsUpdate g (eta k ω) ((List.range k).map fun i => J i ω) ((List.range k).map fun i => θ i ω) = some (new k)) ∧
        (∀ k, (new k).sigma = sigma) ∧ (∀ a, Tendsto (fun k => (new k).mu a) atTop (𝓝 (mu' a))) ∧
        ∀ δ, 0 < δ → ∀ᶠ k in atTop, gaussKL (new k).mu sigma mu sigma < eps + δ :=
  gauss_reps mu sigma hs g hg he hB h (hη.and (C180_multipliers he hB h hn heps hη).2)

end Converge

/-- The hypotheses of the three theorems hold in two dimensions, with a covariance that is not diagonal. -/
example : ∃ (cholesky : Matrix (Fin 2) (Fin 2) ℝ → Option (Matrix (Fin 2) (Fin 2) ℝ)) (Pr : Measure (ℕ → Vec 2)) (_ : IsProbabilityMeasure Pr)
    (g : Chol 2) (f : Vec 2 → ℝ) (C eps : ℝ), IsCholesky cholesky ∧ (∀ M, M.PosDef → (cholesky M).isSome) ∧ g.chol = !![1, 0; 2, 3] ∧
    g.sigma.PosDef ∧ (∀ i (ω : ℕ → Vec 2), |Real.arctan (ω i 0)| ≤ Real.pi / 2) ∧
    Utilities Pr g.mu g.sigma 1⁻¹ f C (fun i ω => ω i) (fun i ω => Real.arctan (ω i 0)) ∧
    (¬ ∃ r, ∀ᵐ ω ∂Pr, Real.arctan (ω 0 0) = r) ∧ weightedKL Pr (fun ω => Real.arctan (ω 0 0)) 1 = eps ∧ 0 < eps ∧
    ∀ᵐ ω ∂Pr, Multipliers ω eps (fun i ω => Real.arctan (ω i 0)) (fun _ _ => 1) := by
  obtain ⟨cholesky, h1, h2⟩ := cholesky_exists (n := 2)
  have hp : (⟨![1, -1], !![1, 0; 2, 3]⟩ : Chol 2).sigma.PosDef := posDef_chol _ (by simp [det_fin_two])
  have hb : ∀ x : ℝ, |Real.arctan x| ≤ Real.pi / 2 := fun x => abs_le.2 ⟨(Real.neg_pi_div_two_lt_arctan x).le, (Real.arctan_lt_pi_div_two x).le⟩
  obtain ⟨Pr, h3, h4⟩ := utilities_exist ![1, -1] _ hp 1⁻¹ (by norm_num) (fun x => Real.arctan (x 0)) (by fun_prop) (Real.pi / 2)
    (fun x => (le_abs_self _).trans (hb _))
  have hn : ¬ ∃ r, ∀ᵐ ω ∂Pr, Real.arctan (ω 0 0) = r := by
    rintro ⟨r, hr⟩
    have e : ∫ ω, (ω 0 0 - Real.tan r) ^ 2 ∂Pr = 0 := by
      rw [integral_congr_ae (g := fun _ => 0)]
      · simp
      · filter_upwards [hr] with ω hω
        rw [← hω, Real.tan_arctan]
        simp
    have := (h4.integral_mul (fun x => (x 0 - Real.tan r) ^ 2) (by fun_prop) (hasExpect_sq hp 0 _)).2.2.1
    rw [e, mean_sq hp] at this
    have hd : 0 < (⟨![1, -1], !![1, 0; 2, 3]⟩ : Chol 2).sigma 0 0 := hp.diag_pos
    nlinarith [sq_nonneg ((![1, -1] : Vec 2) 0 - Real.tan r)]
  have hm : Measurable fun ω : ℕ → Vec 2 => Real.arctan (ω 0 0) := by fun_prop
  refine ⟨cholesky, Pr, h3, _, _, _, _, h1, h2, rfl, hp, fun i ω => hb _, h4, hn, rfl, ?_, ?_⟩
  · have t := weightedKL_strict (Pr := Pr) hm (fun ω => hb _) hn 1 2 (by norm_num) (by norm_num)
    refine lt_of_le_of_lt ?_ t
    rw [weightedKL_eq hm (fun ω => hb _)]
    have := (tangent_integral (Pr := Pr) hm (fun ω => hb _) 0 2⁻¹).1
    simp only [zero_mul, Real.exp_zero, integral_const, probReal_univ, smul_eq_mul, mul_one, Real.log_one] at this
    linarith
  · filter_upwards [diff_limit (eps := weightedKL Pr (fun ω => Real.arctan (ω 0 0)) 1) (by norm_num) (fun i ω => hb _) h4 1 one_pos] with ω hω
    refine ⟨fun _ => one_pos, ?_⟩
    simpa using hω

end Verif.Search.Pgpe
