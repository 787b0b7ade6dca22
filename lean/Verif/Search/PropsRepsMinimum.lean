/-
Property C180: the dual function of REPS has a minimum when there are many episodes.
-/
import Verif.Search.PropsRepsMultiplier
import Mathlib.Analysis.Complex.ExponentialBounds

namespace Verif.Search.Pgpe

open Matrix MeasureTheory ProbabilityTheory Filter Topology

variable {n : ℕ}

theorem repsDiff_mono_list (eps : ℝ) (J : List ℝ) (hJ : J ≠ []) (e e' : ℝ) (he : 0 < e) (hee : e ≤ e') :
    repsDiff eps J e ≤ repsDiff eps J e' := by
  have hl : J = (List.range J.length).map (fun i => J.getD i 0) := by
    refine List.ext_getElem (by simp) fun i h1 h2 => ?_
    simp [h1]
  rcases hee.eq_or_lt with rfl | hlt
  · exact le_rfl
  · rw [hl]
    exact repsDiff_mono eps _ _ (List.length_pos_of_ne_nil hJ) e e' he hlt

/-- C180 (minimum). A positive number minimises the dual function over all positive numbers exactly if the derivative that REPS hands to the
minimiser vanishes there. -/
theorem C180_minimum (eps : ℝ) (J : List ℝ) (hJ : J ≠ []) (eta : ℝ) (he : 0 < eta) :
    (∀ e, 0 < e → repsDual eps J eta ≤ repsDual eps J e) ↔ repsDiff eps J eta = 0 := by
  have hder : ∀ e, 0 < e → HasDerivAt (repsDual eps J) (repsDiff eps J e) e := fun e h => C97_dual_gradient eps J hJ e h
  constructor
  · intro h
    refine IsLocalMin.hasDerivAt_eq_zero ?_ (hder eta he)
    filter_upwards [lt_mem_nhds he] with e h0 using h e h0
  · intro h0 e hpos
    rcases le_total e eta with hle | hle
    · have hanti : AntitoneOn (repsDual eps J) (Set.Icc e eta) := by
        refine antitoneOn_of_deriv_nonpos (convex_Icc _ _) (fun x hx => (hder x (hpos.trans_le hx.1)).continuousAt.continuousWithinAt)
          (fun x hx => ?_) fun x hx => ?_
        · rw [interior_Icc] at hx
          exact (hder x (hpos.trans hx.1)).differentiableAt.differentiableWithinAt
        · rw [interior_Icc] at hx
          rw [(hder x (hpos.trans hx.1)).deriv, ← h0]
          exact repsDiff_mono_list eps J hJ x eta (hpos.trans hx.1) hx.2.le
      exact hanti ⟨le_rfl, hle⟩ ⟨hle, le_rfl⟩ hle
    · have hmono : MonotoneOn (repsDual eps J) (Set.Icc eta e) := by
        refine monotoneOn_of_deriv_nonneg (convex_Icc _ _) (fun x hx => (hder x (he.trans_le hx.1)).continuousAt.continuousWithinAt)
          (fun x hx => ?_) fun x hx => ?_
        · rw [interior_Icc] at hx
          exact (hder x (he.trans hx.1)).differentiableAt.differentiableWithinAt
        · rw [interior_Icc] at hx
          rw [(hder x (he.trans hx.1)).deriv, ← h0]
          exact repsDiff_mono_list eps J hJ eta x he hx.1.le
      exact hmono ⟨le_rfl, hle⟩ ⟨hle, le_rfl⟩ hle

theorem average_continuous (k : ℕ) (F : ℕ → ℝ → ℝ) (S : Set ℝ) (hF : ∀ i, ContinuousOn (F i) S) :
    ContinuousOn (fun e => average (List.range k) (fun i => F i e)) S := by
  unfold average
  refine ContinuousOn.div_const ?_ _
  induction List.range k with
  | nil => simpa using continuousOn_const
  | cons a l ih =>
    simp only [List.map_cons, List.sum_cons]
    exact (hF a).add ih

theorem repsDiff_continuous (eps : ℝ) (x : ℕ → ℝ) (k : ℕ) (hk : 0 < k) :
    ContinuousOn (repsDiff eps ((List.range k).map x)) (Set.Ioi 0) := by
  have hinv : ContinuousOn (fun e : ℝ => e⁻¹) (Set.Ioi 0) := continuousOn_inv₀.mono fun e he => (ne_of_gt he : e ≠ 0)
  have c0 : ContinuousOn (fun e : ℝ => average (List.range k) (fun i => Real.exp (e⁻¹ * x i))) (Set.Ioi 0) :=
    average_continuous k (fun i e => Real.exp (e⁻¹ * x i)) _ fun i => (hinv.mul continuousOn_const).rexp
  have c1 : ContinuousOn (fun e : ℝ => average (List.range k) (fun i => x i * Real.exp (e⁻¹ * x i))) (Set.Ioi 0) :=
    average_continuous k (fun i e => x i * Real.exp (e⁻¹ * x i)) _ fun i => continuousOn_const.mul (hinv.mul continuousOn_const).rexp
  have hp := fun e : ℝ => average_exp_pos k hk x e⁻¹
  refine ContinuousOn.congr ?_ fun e he => repsDiff_eq eps x k hk e he
  exact (continuousOn_const.add (c0.log fun e _ => (hp e).ne')).sub (c1.div (continuousOn_id.mul c0) fun e he => (mul_pos he (hp e)).ne')

section Attained

variable {Ω : Type} [MeasurableSpace Ω] {Pr : Measure Ω} [IsProbabilityMeasure Pr] {m : Vec n} {s : Matrix (Fin n) (Fin n) ℝ}
  {f : Vec n → ℝ} {C : ℝ} {θ : ℕ → Ω → Vec n} {J : ℕ → Ω → ℝ} {eta' eps B : ℝ}

/-- C180 (attained). Almost surely, from some number of episodes on, the dual function has a minimum over the positive numbers, at a
distance of less than any given `δ` from `eta'`. -/
theorem C180_attained (he : 0 < eta') (hB : ∀ i ω, |J i ω| ≤ B) (h : Utilities Pr m s eta'⁻¹ f C θ J)
    (hn : ¬ ∃ r, ∀ᵐ ω ∂Pr, J 0 ω = r) (heps : weightedKL Pr (J 0) eta' = eps) (δ : ℝ) (hδ : 0 < δ) :
    ∀ᵐ ω ∂Pr, ∀ᶠ k in atTop, ∃ eta, 0 < eta ∧ |eta - eta'| < δ ∧
      ∀ e, 0 < e → repsDual eps ((List.range k).map fun i => J i ω) eta ≤ repsDual eps ((List.range k).map fun i => J i ω) e := by
  have hX := measurable_of_utilities he h 0
  have hstrict := weightedKL_strict (Pr := Pr) hX (hB 0) hn
  obtain ⟨a, ha1, ha2⟩ := exists_between (max_lt he (sub_lt_self eta' hδ))
  obtain ⟨c, hc1, hc2⟩ := exists_between (lt_add_of_pos_right eta' hδ)
  have ha0 : 0 < a := (le_max_left _ _).trans_lt ha1
  have ha3 : eta' - δ < a := (le_max_right _ _).trans_lt ha1
  filter_upwards [diff_limit (eps := eps) he hB h a ha0, diff_limit (eps := eps) he hB h c (he.trans hc1)] with ω h1 h2
  have n1 : eps - weightedKL Pr (J 0) a < 0 := by
    have := hstrict a eta' ha0 ha2
    linarith
  have n2 : 0 < eps - weightedKL Pr (J 0) c := by
    have := hstrict eta' c he hc1
    linarith
  filter_upwards [h1.eventually_lt_const n1, h2.eventually_const_lt n2, eventually_gt_atTop 0] with k k1 k2 hk
  have hcont := (repsDiff_continuous eps (fun i => J i ω) k hk).mono
    (fun e (hx : e ∈ Set.Icc a c) => (Set.mem_Ioi.2 (ha0.trans_le hx.1) : e ∈ Set.Ioi (0 : ℝ)))
  obtain ⟨e, ⟨he1, he2⟩, hz⟩ := intermediate_value_Icc (ha2.trans hc1).le hcont ⟨k1.le, k2.le⟩
  refine ⟨e, ha0.trans_le he1, abs_lt.2 ⟨by linarith, by linarith⟩, ?_⟩
  exact (C180_minimum eps _ (by simpa using hk.ne') e (ha0.trans_le he1)).2 hz

end Attained

/-- Both sides of `C180_minimum` hold for a positive bound; the hypotheses of `C180_attained` are those of `C180_multipliers`. -/
example : ∃ eps > 0, repsDiff eps [1, 0] 1 = 0 ∧ ∀ e, 0 < e → repsDual eps [1, 0] 1 ≤ repsDual eps [1, 0] e := by
  have hd : ∀ eps, repsDiff eps [1, 0] 1 = eps + repsDiff 0 [1, 0] 1 := fun eps => by simp only [repsDiff]; ring
  have h0 : repsDiff (-repsDiff 0 [1, 0] 1) [1, 0] 1 = 0 := by rw [hd]; ring
  refine ⟨-repsDiff 0 [1, 0] 1, ?_, h0, (C180_minimum _ _ (by simp) 1 one_pos).2 h0⟩
  have hv : repsDiff 0 [1, 0] 1 = Real.log ((1 + Real.exp (-1)) / 2) + Real.exp (-1) / (1 + Real.exp (-1)) := by
    have hp : (1 + Real.exp (-1)) ≠ 0 := by positivity
    simp only [repsDiff, avg, maxJ, List.map_cons, List.map_nil, List.sum_cons, List.sum_nil, List.length_cons, List.length_nil]
    norm_num
    field_simp
    ring
  have hu : Real.exp (-1) < 0.38 := by
    rw [Real.exp_neg, inv_lt_comm₀ (Real.exp_pos _) (by norm_num)]
    have := Real.exp_one_gt_d9
    norm_num at this ⊢
    linarith
  have hu0 := Real.exp_pos (-1)
  have hl := Real.log_le_sub_one_of_pos (show 0 < (1 + Real.exp (-1)) / 2 by positivity)
  rw [hv]
  have h3 : Real.exp (-1) / (1 + Real.exp (-1)) < (1 - Real.exp (-1)) / 2 := by
    rw [div_lt_div_iff₀ (by positivity) (by norm_num)]
    nlinarith
  linarith

end Verif.Search.Pgpe
