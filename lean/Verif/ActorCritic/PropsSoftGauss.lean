/-
Property C171: the policy of SAC has a density, with finite entropy, and reports its logarithm.
-/
import Verif.ActorCritic.LemmasSoft
import Verif.ActorCritic.PropsDensity
import Mathlib.MeasureTheory.Integral.Pi
import Mathlib.Analysis.SpecialFunctions.Trigonometric.Series

namespace Verif.ActorCritic.MaxEnt

open MeasureTheory ProbabilityTheory

noncomputable section

variable {d : ℕ}

/-- `compute_action_and_log_prob_t`: sac.py L94-105, for the mean `mu` and the standard deviation `sigma` of a state; `rsample` multiplies standard normal noise by the standard deviation and adds
the mean. `_eps_log_prob` (L50) is taken to be zero instead of 1e-6. -/
def gaussAct (minA maxA mu sigma n : Fin d → ℝ) : (Fin d → ℝ) × ℝ :=
  (squash minA maxA fun j => mu j + sigma j * n j, sacLogProb 0 mu sigma fun j => mu j + sigma j * n j)

/-- Lengths inside the limits, scaled as if the limits were -1 and 1. -/
def scaled (lo hi : ℝ) : Measure ℝ := ENNReal.ofReal (2 / (hi - lo)) • volume.restrict (Set.Ioo lo hi)

/-- Volumes inside the limits of the actions, scaled as if they were -1 and 1. -/
def box (minA maxA : Fin d → ℝ) : Measure (Fin d → ℝ) := Measure.pi fun j => scaled (minA j) (maxA j)

/-- The density of one component of the action, with respect to scaled lengths. -/
def density1 (lo hi mu sigma y : ℝ) : ℝ := Real.exp (actionLogDensity lo hi mu sigma y) * ((hi - lo) / 2)

/-- The density of the action. -/
def gaussDensity (minA maxA mu sigma a : Fin d → ℝ) : ℝ := ∏ j, density1 (minA j) (maxA j) (mu j) (sigma j) (a j)

instance (lo hi : ℝ) : IsFiniteMeasure (scaled lo hi) := by
  unfold scaled
  exact Measure.smul_finite _ ENNReal.ofReal_ne_top

instance (minA maxA : Fin d → ℝ) : IsFiniteMeasure (box minA maxA) := by unfold box; infer_instance

theorem tanh_measurable : Measurable Real.tanh := by
  have : Real.tanh = fun x => Real.sinh x / Real.cosh x := funext Real.tanh_eq_sinh_div_cosh
  rw [this]
  exact Real.measurable_sinh.div Real.measurable_cosh

theorem density1_measurable (lo hi mu sigma : ℝ) : Measurable (density1 lo hi mu sigma) := by
  have h : Measurable (unsquash1 lo hi) := by
    unfold unsquash1 Real.artanh
    fun_prop
  have ht := tanh_measurable
  unfold density1 actionLogDensity pushLogDensity normalLogProb
  have h2 : Measurable fun y => Real.tanh (unsquash1 lo hi y) := ht.comp h
  refine Measurable.mul_const (Measurable.exp ?_) _
  have h3 : Measurable fun y => Real.log |(1 - Real.tanh (unsquash1 lo hi y) ^ 2) * (1 / 2 * (hi - lo))| := by fun_prop
  refine Measurable.sub ?_ h3
  fun_prop

theorem density1_pos {lo hi : ℝ} (h : lo < hi) (mu sigma y : ℝ) : 0 < density1 lo hi mu sigma y := mul_pos (Real.exp_pos _) (by linarith)

theorem affine_law (mu : ℝ) {sigma : ℝ} : (gaussianReal 0 1).map (fun n => mu + sigma * n) = gaussianReal mu (varianceOf sigma) := by
  have h : (fun n : ℝ => mu + sigma * n) = (mu + ·) ∘ (sigma * ·) := rfl
  rw [h, ← Measure.map_map (by fun_prop) (by fun_prop), gaussianReal_map_const_mul, gaussianReal_map_const_add]
  congr 1
  · simp
  · apply NNReal.eq
    simp [varianceOf, sq_nonneg]

/-- One component has the density. -/
theorem law1 {lo hi : ℝ} (h : lo < hi) (mu : ℝ) {sigma : ℝ} (hs : 0 < sigma) :
    (gaussianReal 0 1).map (fun n => squash1 lo hi (mu + sigma * n)) = (scaled lo hi).withDensity fun y => ENNReal.ofReal (density1 lo hi mu sigma y) := by
  have hc : (fun n : ℝ => squash1 lo hi (mu + sigma * n)) = squash1 lo hi ∘ fun n => mu + sigma * n := rfl
  rw [hc, ← Measure.map_map (squash1_measurable lo hi) (by fun_prop), affine_law]
  have hm : Measurable fun y => ENNReal.ofReal (Real.exp (actionLogDensity lo hi mu sigma y)) := by
    have := (density1_measurable lo hi mu sigma).mul_const (2 / (hi - lo))
    have e : ∀ y, density1 lo hi mu sigma y * (2 / (hi - lo)) = Real.exp (actionLogDensity lo hi mu sigma y) := by
      intro y
      have : hi - lo ≠ 0 := by linarith
      unfold density1
      field_simp
    simp only [e] at this
    exact this.ennreal_ofReal
  ext B hB
  rw [Measure.map_apply (squash1_measurable lo hi) hB]
  have hd := C91_density lo hi mu sigma h hs B hB
  refine hd.trans ?_
  have hp : 0 < hi - lo := by linarith
  rw [withDensity_apply _ hB, scaled, Measure.restrict_smul, lintegral_smul_measure, Measure.restrict_restrict hB]
  have e : ∀ y, ENNReal.ofReal (density1 lo hi mu sigma y) = ENNReal.ofReal (Real.exp (actionLogDensity lo hi mu sigma y)) * ENNReal.ofReal ((hi - lo) / 2) :=
    fun y => ENNReal.ofReal_mul (Real.exp_pos _).le
  simp only [e]
  rw [lintegral_mul_const _ hm, smul_eq_mul, mul_left_comm, ← ENNReal.ofReal_mul (by positivity), show 2 / (hi - lo) * ((hi - lo) / 2) = 1 by field_simp, ENNReal.ofReal_one, mul_one]

theorem density1_integrable {lo hi : ℝ} (h : lo < hi) (mu : ℝ) {sigma : ℝ} (hs : 0 < sigma) : Integrable (density1 lo hi mu sigma) (scaled lo hi) := by
  refine ⟨(density1_measurable lo hi mu sigma).aestronglyMeasurable, ?_⟩
  rw [hasFiniteIntegral_iff_ofReal (ae_of_all _ fun y => (density1_pos h mu sigma y).le)]
  have e := congrArg (fun m => m Set.univ) (law1 h mu hs)
  rw [withDensity_apply _ MeasurableSet.univ, Measure.restrict_univ] at e
  rw [← e]
  exact measure_lt_top _ _

/-- The whole action has the density. -/
theorem law (minA maxA mu sigma : Fin d → ℝ) (h : ∀ j, minA j < maxA j) (hs : ∀ j, 0 < sigma j) :
    (Measure.pi fun _ : Fin d => gaussianReal 0 1).map (fun n => (gaussAct minA maxA mu sigma n).1) =
      (box minA maxA).withDensity fun a => ENNReal.ofReal (gaussDensity minA maxA mu sigma a) := by
  have hm : ∀ j, Measurable fun n => squash1 (minA j) (maxA j) (mu j + sigma j * n) := fun j => (squash1_measurable _ _).comp (by fun_prop)
  have e : (fun n : Fin d → ℝ => (gaussAct minA maxA mu sigma n).1) = fun n j => squash1 (minA j) (maxA j) (mu j + sigma j * n j) := rfl
  rw [e]
  haveI : ∀ j, IsProbabilityMeasure ((gaussianReal 0 1).map fun n => squash1 (minA j) (maxA j) (mu j + sigma j * n)) := fun j => Measure.isProbabilityMeasure_map (hm j).aemeasurable
  rw [Measure.pi_map_pi (fun j => (hm j).aemeasurable)]
  refine Measure.pi_eq fun B hB => ?_
  have hBm : MeasurableSet (Set.univ.pi B) := MeasurableSet.univ_pi hB
  have hi : ∀ j, Integrable (density1 (minA j) (maxA j) (mu j) (sigma j)) (scaled (minA j) (maxA j)) := fun j => density1_integrable (h j) _ (hs j)
  have hint : Integrable (gaussDensity minA maxA mu sigma) ((box minA maxA).restrict (Set.univ.pi B)) := (Integrable.fintype_prod_dep hi).restrict
  have hnn : ∀ a, 0 ≤ gaussDensity minA maxA mu sigma a := fun a => Finset.prod_nonneg fun j _ => (density1_pos (h j) _ _ _).le
  rw [withDensity_apply _ hBm, ← ofReal_integral_eq_lintegral_ofReal hint (ae_of_all _ hnn), box, Measure.restrict_pi_pi]
  unfold gaussDensity
  rw [integral_fintype_prod_eq_prod, ENNReal.ofReal_prod_of_nonneg fun j _ => integral_nonneg fun y => (density1_pos (h j) _ _ _).le]
  refine Finset.prod_congr rfl fun j _ => ?_
  rw [ofReal_integral_eq_lintegral_ofReal (hi j).restrict (ae_of_all _ fun y => (density1_pos (h j) _ _ _).le), law1 (h j) (mu j) (hs j), withDensity_apply _ (hB j)]

theorem log_gaussDensity (minA maxA mu sigma : Fin d → ℝ) (h : ∀ j, minA j < maxA j) (n : Fin d → ℝ) :
    (gaussAct minA maxA mu sigma n).2 = Real.log (gaussDensity minA maxA mu sigma (gaussAct minA maxA mu sigma n).1) := by
  have hp : ∀ j, 0 < maxA j - minA j := fun j => by linarith [h j]
  unfold gaussDensity
  rw [Real.log_prod fun j _ => (density1_pos (h j) _ _ _).ne']
  simp only [gaussAct]
  rw [(C91_logprob_partial 0 le_rfl minA maxA mu sigma _ h).1, ← Finset.sum_add_distrib]
  refine Finset.sum_congr rfl fun j _ => ?_
  have e : squash minA maxA (fun j => mu j + sigma j * n j) j = squash1 (minA j) (maxA j) (mu j + sigma j * n j) := rfl
  rw [e, density1, Real.log_mul (Real.exp_pos _).ne' (by have := hp j; positivity), Real.log_exp, actionLogDensity, unsquash_squash (h j)]
  congr 2
  ring

theorem log_cosh_bound (z : ℝ) : |Real.log (1 - Real.tanh z ^ 2 + 0)| ≤ z ^ 2 := by
  have hc := Real.cosh_pos z
  have e : 1 - Real.tanh z ^ 2 + 0 = (Real.cosh z ^ 2)⁻¹ := by
    rw [Real.tanh_eq_sinh_div_cosh, div_pow, add_zero, ← one_div, eq_div_iff (by positivity)]
    field_simp
    rw [Real.cosh_sq']
    ring
  rw [e, Real.log_inv, abs_neg, Real.log_pow, abs_mul, abs_of_nonneg (Real.log_nonneg (Real.one_le_cosh z))]
  have := Real.log_le_log hc (Real.cosh_le_exp_half_sq z)
  rw [Real.log_exp] at this
  simp only [Nat.cast_ofNat, abs_of_pos (two_pos : (0 : ℝ) < 2)]
  linarith

theorem logProb_integrable (mu sigma : Fin d → ℝ) : Integrable (fun n : Fin d → ℝ => sacLogProb 0 mu sigma fun j => mu j + sigma j * n j) (Measure.pi fun _ : Fin d => gaussianReal 0 1) := by
  have h2 : Integrable (fun x : ℝ => x ^ 2) (gaussianReal 0 1) := (memLp_id_gaussianReal' 2 (by norm_num)).integrable_sq
  have h1 : Integrable (fun x : ℝ => x) (gaussianReal 0 1) := (memLp_id_gaussianReal' 2 (by norm_num)).integrable (by norm_num)
  have ht := tanh_measurable
  have ha : ∀ j, Integrable (fun x : ℝ => normalLogProb (mu j) (sigma j) (mu j + sigma j * x)) (gaussianReal 0 1) := by
    intro j
    have e : (fun x : ℝ => normalLogProb (mu j) (sigma j) (mu j + sigma j * x)) =
        fun x => -(sigma j ^ 2 / (2 * sigma j ^ 2)) * x ^ 2 + (-Real.log (sigma j) - Real.log (Real.sqrt (2 * Real.pi))) := by
      funext x
      unfold normalLogProb
      ring
    rw [e]
    exact (h2.const_mul _).add (integrable_const _)
  have hb : ∀ j, Integrable (fun x : ℝ => Real.log (1 - Real.tanh (mu j + sigma j * x) ^ 2 + 0)) (gaussianReal 0 1) := by
    intro j
    have hq : Integrable (fun x : ℝ => (mu j + sigma j * x) ^ 2) (gaussianReal 0 1) := by
      have : (fun x : ℝ => (mu j + sigma j * x) ^ 2) = fun x => mu j ^ 2 + 2 * mu j * sigma j * x + sigma j ^ 2 * x ^ 2 := by funext x; ring
      rw [this]
      exact ((integrable_const _).add (h1.const_mul _)).add (h2.const_mul _)
    refine hq.mono' ?_ (ae_of_all _ fun x => ?_)
    · have : Measurable fun x : ℝ => Real.tanh (mu j + sigma j * x) := ht.comp (by fun_prop)
      exact (((this.pow_const 2).const_sub 1).add_const 0).log.aestronglyMeasurable
    · have hz := log_cosh_bound (mu j + sigma j * x)
      rw [Real.norm_eq_abs]
      exact hz
  have hs1 : Integrable (fun n : Fin d → ℝ => ∑ j, normalLogProb (mu j) (sigma j) (mu j + sigma j * n j)) (Measure.pi fun _ : Fin d => gaussianReal 0 1) :=
    integrable_finset_sum _ fun j _ => integrable_comp_eval (μ := fun _ : Fin d => gaussianReal 0 1) (i := j) (f := fun x => normalLogProb (mu j) (sigma j) (mu j + sigma j * x)) (ha j)
  have hs2 : Integrable (fun n : Fin d → ℝ => ∑ j, Real.log (1 - Real.tanh (mu j + sigma j * n j) ^ 2 + 0)) (Measure.pi fun _ : Fin d => gaussianReal 0 1) :=
    integrable_finset_sum _ fun j _ => integrable_comp_eval (μ := fun _ : Fin d => gaussianReal 0 1) (i := j) (f := fun x => Real.log (1 - Real.tanh (mu j + sigma j * x) ^ 2 + 0)) (hb j)
  exact hs1.sub hs2

/-- C171. The policy of SAC (but for the stabilising constant): with respect to volumes scaled to limits of -1 and 1 its actions have a density, with finite entropy, and the log-probability that
it returns with an action is the logarithm of the density of the action. -/
theorem C171_policy {S : Type} (minA maxA : Fin d → ℝ) (h : ∀ j, minA j < maxA j) (mu sigma : S → Fin d → ℝ) (hs : ∀ s j, 0 < sigma s j) :
    IsPolicy (box minA maxA) (fun s => gaussDensity minA maxA (mu s) (sigma s)) ∧
    Draws (box minA maxA) (Measure.pi fun _ : Fin d => gaussianReal 0 1) (fun n s => gaussAct minA maxA (mu s) (sigma s) n) (fun s => gaussDensity minA maxA (mu s) (sigma s)) ∧
    box minA maxA Set.univ = 2 ^ d := by
  have hm : ∀ s, Measurable (gaussDensity minA maxA (mu s) (sigma s)) := fun s =>
    Finset.measurable_prod _ fun j _ => (density1_measurable _ _ _ _).comp (measurable_pi_apply j)
  have hnn : ∀ s a, 0 ≤ gaussDensity minA maxA (mu s) (sigma s) a := fun s a => Finset.prod_nonneg fun j _ => (density1_pos (h j) _ _ _).le
  have hi : ∀ s, Integrable (gaussDensity minA maxA (mu s) (sigma s)) (box minA maxA) := fun s => Integrable.fintype_prod_dep fun j => density1_integrable (h j) _ (hs s j)
  have hact : ∀ s, Measurable fun n => (gaussAct minA maxA (mu s) (sigma s) n).1 := fun s =>
    measurable_pi_lambda _ fun j => (squash1_measurable (minA j) (maxA j)).comp (by fun_prop)
  have hlaw := fun s => law minA maxA (mu s) (sigma s) h (hs s)
  refine ⟨⟨hm, hnn, fun s => ?_, fun s => ?_⟩, ⟨hact, hlaw, fun s => ae_of_all _ fun n => log_gaussDensity minA maxA (mu s) (sigma s) h n⟩, ?_⟩
  · have e := congrArg (fun m => m Set.univ) (hlaw s)
    rw [withDensity_apply _ MeasurableSet.univ, Measure.restrict_univ, Measure.map_apply (hact s) MeasurableSet.univ, Set.preimage_univ, measure_univ] at e
    rw [integral_eq_lintegral_of_nonneg_ae (ae_of_all _ (hnn s)) (hi s).1, ← e, ENNReal.toReal_one]
  · have hl := logProb_integrable (mu s) (sigma s)
    have h1 : Integrable (fun a => Real.log (gaussDensity minA maxA (mu s) (sigma s) a)) ((Measure.pi fun _ : Fin d => gaussianReal 0 1).map fun n => (gaussAct minA maxA (mu s) (sigma s) n).1) := by
      rw [integrable_map_measure (hm s).log.aestronglyMeasurable (hact s).aemeasurable]
      refine hl.congr (ae_of_all _ fun n => ?_)
      exact log_gaussDensity minA maxA (mu s) (sigma s) h n
    rw [hlaw s, integrable_withDensity_iff_integrable_smul' (hm s).ennreal_ofReal (ae_of_all _ fun a => ENNReal.ofReal_lt_top)] at h1
    refine h1.congr (ae_of_all _ fun a => ?_)
    simp only [smul_eq_mul]
    rw [ENNReal.toReal_ofReal (hnn s a)]
  · unfold box
    rw [Measure.pi_univ]
    have : ∀ j, scaled (minA j) (maxA j) Set.univ = 2 := by
      intro j
      have hp : 0 < maxA j - minA j := by linarith [h j]
      rw [scaled, Measure.smul_apply, Measure.restrict_apply_univ, Real.volume_Ioo, smul_eq_mul, ← ENNReal.ofReal_mul (by positivity), div_mul_cancel₀ _ hp.ne', ENNReal.ofReal_ofNat]
    simp [this]

-- C171_policy: two components, limits -2 and 2.
example : box (fun _ : Fin 2 => -2) (fun _ => 2) Set.univ = 4 := by
  have := (C171_policy (S := Unit) (fun _ : Fin 2 => (-2 : ℝ)) (fun _ => 2) (fun _ => by norm_num) (fun _ _ => 0) (fun _ _ => 1) (fun _ _ => one_pos)).2.2
  rw [this]
  norm_num

end

end Verif.ActorCritic.MaxEnt
