/-
Property C91, continued: the values that are summed are logarithms of probability densities, in the sense of measure theory.
-/
import Verif.ActorCritic.PropsPPO
import Mathlib.Probability.Distributions.Gaussian.Real
import Mathlib.MeasureTheory.Function.JacobianOneDim
import Mathlib.MeasureTheory.Constructions.Pi

namespace Verif.ActorCritic

open MeasureTheory ProbabilityTheory

noncomputable section

/-- The variance of a normal distribution with standard deviation `sigma`. -/
def varianceOf (sigma : ℝ) : NNReal := (sigma ^ 2).toNNReal

theorem varianceOf_ne {sigma : ℝ} (h : 0 < sigma) : varianceOf sigma ≠ 0 := by
  unfold varianceOf
  rw [Ne, Real.toNNReal_eq_zero, not_le]
  positivity

/-- C91. The log-probability of the normal distribution is the logarithm of its density. -/
theorem C91_normal (mu sigma x : ℝ) (h : 0 < sigma) : Real.exp (normalLogProb mu sigma x) = gaussianPDFReal mu (varianceOf sigma) x := by
  have hv : ((varianceOf sigma : NNReal) : ℝ) = sigma ^ 2 := Real.coe_toNNReal _ (sq_nonneg _)
  have hpi : 0 < Real.sqrt (2 * Real.pi) := Real.sqrt_pos.2 (by positivity)
  unfold normalLogProb gaussianPDFReal
  rw [hv, sub_sub, ← Real.log_mul h.ne' hpi.ne', Real.exp_sub, Real.exp_log (by positivity), Real.sqrt_mul (x := 2 * Real.pi) (by positivity) (sigma ^ 2),
    Real.sqrt_sq h.le, div_eq_inv_mul, mul_comm sigma]

example : (0 : ℝ) < 1 / 2 := by norm_num

/-- The action of one component: `squash`. -/
def squash1 (lo hi r : ℝ) : ℝ := squash (d := 1) (fun _ => lo) (fun _ => hi) (fun _ => r) 0

/-- The sample that gives an action. -/
def unsquash1 (lo hi y : ℝ) : ℝ := Real.artanh ((y - 1 / 2 * (hi + lo)) / (1 / 2 * (hi - lo)))

/-- The log-density of an action strictly between the limits, by the rule for a change of variables. -/
def actionLogDensity (lo hi mu sigma y : ℝ) : ℝ :=
  pushLogDensity (normalLogProb mu sigma (unsquash1 lo hi y)) ((1 - Real.tanh (unsquash1 lo hi y) ^ 2) * (1 / 2 * (hi - lo)))

theorem unsquash_squash {lo hi : ℝ} (h : lo < hi) (r : ℝ) : unsquash1 lo hi (squash1 lo hi r) = r := by
  have : 1 / 2 * (hi - lo) ≠ 0 := by have := sub_pos.2 h; positivity
  unfold unsquash1 squash1 squash
  rw [add_sub_cancel_right, mul_div_cancel_right₀ _ this, Real.artanh_tanh]

theorem squash1_range {lo hi : ℝ} (h : lo < hi) : Set.range (squash1 lo hi) = Set.Ioo lo hi := by
  have hp : 0 < 1 / 2 * (hi - lo) := by have := sub_pos.2 h; positivity
  ext y
  constructor
  · rintro ⟨r, rfl⟩
    have h1 := Real.neg_one_lt_tanh r
    have h2 := Real.tanh_lt_one r
    unfold squash1 squash
    exact ⟨by nlinarith, by nlinarith⟩
  · rintro ⟨h1, h2⟩
    refine ⟨unsquash1 lo hi y, ?_⟩
    unfold squash1 squash unsquash1
    rw [Real.tanh_artanh ⟨by rw [lt_div_iff₀ hp]; linarith, by rw [div_lt_iff₀ hp]; linarith⟩, div_mul_cancel₀ _ hp.ne']
    ring

theorem squash1_measurable (lo hi : ℝ) : Measurable (squash1 lo hi) := by
  have : Continuous (squash1 lo hi) := continuous_iff_continuousAt.2 (fun x => (squash_deriv lo hi x).continuousAt)
  exact this.measurable

/-- C91. The rule for a change of variables gives the density of the action: the probability that a component of the action lies in a set is the
integral of the exponential of the log-density over the part of the set strictly between the limits. -/
theorem C91_density (lo hi mu sigma : ℝ) (h : lo < hi) (hs : 0 < sigma) (B : Set ℝ) (hB : MeasurableSet B) :
    gaussianReal mu (varianceOf sigma) {r | squash1 lo hi r ∈ B} =
      ∫⁻ y in B ∩ Set.Ioo lo hi, ENNReal.ofReal (Real.exp (actionLogDensity lo hi mu sigma y)) := by
  have hinj : Function.Injective (squash1 lo hi) := fun x y e => by
    rw [← unsquash_squash h x, e, unsquash_squash h y]
  have himg : B ∩ Set.Ioo lo hi = squash1 lo hi '' {r | squash1 lo hi r ∈ B} := by
    rw [← squash1_range h]
    exact Set.image_preimage_eq_inter_range.symm
  have hp : 0 < 1 / 2 * (hi - lo) := by have := sub_pos.2 h; positivity
  rw [himg, lintegral_image_eq_lintegral_abs_deriv_mul (f := squash1 lo hi) (s := {r | squash1 lo hi r ∈ B}) (squash1_measurable lo hi hB)
    (f' := fun x => (1 - Real.tanh x ^ 2) * (1 / 2 * (hi - lo))) (fun x _ => (squash_deriv lo hi x).hasDerivWithinAt) hinj.injOn,
    gaussianReal_apply mu (varianceOf_ne hs)]
  refine lintegral_congr (fun x => ?_)
  unfold actionLogDensity pushLogDensity gaussianPDF
  rw [unsquash_squash h, ← C91_normal mu sigma x hs]
  have hd : 0 < |(1 - Real.tanh x ^ 2) * (1 / 2 * (hi - lo))| := by
    have := Real.tanh_sq_lt_one x
    exact abs_pos.2 (mul_pos (by linarith) hp).ne'
  rw [← ENNReal.ofReal_mul hd.le, Real.exp_sub, Real.exp_log hd]
  congr 1
  exact (mul_div_cancel₀ _ hd.ne').symm

/-- C91. The same for whole actions, whose components are independent: the probability of a box. -/
theorem C91_density_box {d : ℕ} (minA maxA mu sigma : Fin d → ℝ) (h : ∀ j, minA j < maxA j) (hs : ∀ j, 0 < sigma j) (B : Fin d → Set ℝ)
    (hB : ∀ j, MeasurableSet (B j)) :
    Measure.pi (fun j => gaussianReal (mu j) (varianceOf (sigma j))) {raw | ∀ j, squash minA maxA raw j ∈ B j} =
      ∏ j, ∫⁻ y in B j ∩ Set.Ioo (minA j) (maxA j), ENNReal.ofReal (Real.exp (actionLogDensity (minA j) (maxA j) (mu j) (sigma j) y)) := by
  have e : {raw : Fin d → ℝ | ∀ j, squash minA maxA raw j ∈ B j} = Set.univ.pi (fun j => {r | squash1 (minA j) (maxA j) r ∈ B j}) := by
    ext raw
    simp [squash1, squash]
  rw [e, Measure.pi_pi]
  exact Finset.prod_congr rfl (fun j _ => C91_density _ _ _ _ (h j) (hs j) _ (hB j))

example : ∃ (minA maxA sigma : Fin 2 → ℝ), (∀ j, minA j < maxA j) ∧ (∀ j, 0 < sigma j) ∧ minA ≠ 0 :=
  ⟨fun _ => -1, fun _ => 1, fun _ => 1, fun _ => by norm_num, fun _ => one_pos, fun h => by have := congrFun h 0; norm_num at this⟩

/-- C91 (part). For actions between -1 and 1 the value returned with an action is the sum of the log-densities of its components, but for the stabilising constant. -/
theorem C91_unit_partial {d : ℕ} (mu sigma raw : Fin d → ℝ) :
    sacLogProb 0 mu sigma raw = ∑ j, actionLogDensity (-1) 1 (mu j) (sigma j) (squash (fun _ => -1) (fun _ => 1) raw j) := by
  have h := (C91_logprob_partial 0 le_rfl (fun _ => -1) (fun _ => 1) mu sigma raw (fun _ => by norm_num)).1
  rw [h]
  have h1 : ∑ j : Fin d, Real.log (1 / 2 * (1 - -1)) = 0 := by norm_num
  rw [h1, add_zero]
  refine Finset.sum_congr rfl (fun j _ => ?_)
  have := unsquash_squash (lo := -1) (hi := 1) (by norm_num) (raw j)
  unfold actionLogDensity
  have e : squash (fun _ => -1) (fun _ => 1) raw j = squash1 (-1) 1 (raw j) := rfl
  rw [e, this]

end

end Verif.ActorCritic
