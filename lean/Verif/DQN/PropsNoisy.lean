/-
C122: noisy networks.
-/
import Verif.DQN.ModelNoisy
import Mathlib.Probability.Independence.Integration
import Mathlib.Analysis.SpecialFunctions.Integrals.Basic
import Mathlib.Tactic.Linarith
import Mathlib.Tactic.NormNum
import Mathlib.Tactic.Ring
import Mathlib.Tactic.FieldSimp

namespace Verif.DQN.Noisy

open MeasureTheory ProbabilityTheory

noncomputable section

/-! ### Specification -/

/-- The layer without noise: weights and bias are the means. -/
def meanOutput {m n : ℕ} (l : Layer m n) (x : Fin m → ℝ) (i : Fin n) : ℝ :=
  ∑ j, l.muW i j * x j + match l.bias with
    | none => 0
    | some (mu, _) => mu i

/-- The layer with noise that is multiplied by zero. -/
def Quiet {m n : ℕ} (l : Layer m n) : Prop := (∀ i j, l.sigmaW i j = 0) ∧ ∀ mu sigma, l.bias = some (mu, sigma) → ∀ i, sigma i = 0

/-- The draws of one call of `torch.rand`: uniform in the unit interval. -/
def IsUniform {Ω : Type} [MeasurableSpace Ω] (P : Measure Ω) (u : Ω → ℝ) : Prop :=
  Measurable u ∧ P.map u = volume.restrict (Set.Ico 0 1)

/-- The draws of one forward pass: all uniform, and the two factors of every entry independent. -/
structure Draws {Ω : Type} [MeasurableSpace Ω] (P : Measure Ω) {m n : ℕ} (out : Fin n → Ω → ℝ) (inn : Fin m → Ω → ℝ) : Prop where
  out_uniform : ∀ i, IsUniform P (out i)
  in_uniform : ∀ j, IsUniform P (inn j)
  indep : ∀ i j, IndepFun (out i) (inn j) P

/-! ### Noise -/

theorem noise_nonneg {x : ℝ} (h : 0 ≤ x) : noise x = Real.sqrt x := by
  unfold noise
  rcases h.lt_or_eq with h | rfl
  · simp [h, abs_of_pos h]
  · simp

theorem noise_neg (x : ℝ) : noise (-x) = -noise x := by
  unfold noise
  simp [Left.sign_neg]

/-! ### Properties that hold for every draw -/

/-- **C122.** Without noise the layer is the linear layer of the means, whatever is drawn. -/
theorem C122_quiet {m n : ℕ} (l : Layer m n) (h : Quiet l) (eo : Fin n → ℝ) (ei : Fin m → ℝ) (x : Fin m → ℝ) (i : Fin n) :
    l.forward eo ei x i = meanOutput l x i := by
  unfold Layer.forward meanOutput
  have e : ∑ j, x j * (l.muW i j + l.sigmaW i j * (noise (eo i) * noise (ei j))) = ∑ j, l.muW i j * x j := by
    apply Finset.sum_congr rfl
    intro j _
    rw [h.1 i j]
    ring
  simp only [e]
  rcases hb : l.bias with _ | ⟨mu, sigma⟩
  · simp
  · simp [h.2 mu sigma hb i]

/-- **C122.** For given draws the layer is affine in its input: exploration by a noisy network is consistent over the states of a batch. -/
theorem C122_affine {m n : ℕ} (l : Layer m n) (eo : Fin n → ℝ) (ei : Fin m → ℝ) (x y : Fin m → ℝ) (a : ℝ) (i : Fin n) :
    l.forward eo ei (fun j => a * x j + (1 - a) * y j) i = a * l.forward eo ei x i + (1 - a) * l.forward eo ei y i := by
  unfold Layer.forward
  have e : ∑ j, (a * x j + (1 - a) * y j) * (l.muW i j + l.sigmaW i j * (noise (eo i) * noise (ei j))) =
      a * ∑ j, x j * (l.muW i j + l.sigmaW i j * (noise (eo i) * noise (ei j))) +
      (1 - a) * ∑ j, y j * (l.muW i j + l.sigmaW i j * (noise (eo i) * noise (ei j))) := by
    rw [Finset.mul_sum, Finset.mul_sum, ← Finset.sum_add_distrib]
    apply Finset.sum_congr rfl
    intro j _
    ring
  simp only [e]
  rcases l.bias with _ | ⟨mu, sigma⟩
  · rfl
  · simp only
    ring

/-- **C122.** All the rows of a batch see the same draws: equal rows get equal values, and the result has one row for each. -/
theorem C122_batch {m n : ℕ} (l : Layer m n) (eo : Fin n → ℝ) (ei : Fin m → ℝ) (xs : List (Fin m → ℝ)) :
    (l.forwardBatch eo ei xs).length = xs.length ∧ ∀ i j (hi : i < (l.forwardBatch eo ei xs).length) (hj : j < (l.forwardBatch eo ei xs).length)
      (hi' : i < xs.length) (hj' : j < xs.length), xs[i] = xs[j] → (l.forwardBatch eo ei xs)[i] = (l.forwardBatch eo ei xs)[j] := by
  refine ⟨by simp [Layer.forwardBatch], fun i j hi hj hi' hj' h => ?_⟩
  simp [Layer.forwardBatch, h]

/-- **C122.** The initial weights are in the interval of half-width `1 / √inputs`, the noise has the size `coeff / √inputs`, for all draws. -/
theorem C122_init (m n : ℕ) (hm : 0 < m) (coeff : ℝ) (withBias : Bool) (uW : Fin n → Fin m → ℝ) (uB : Fin n → ℝ)
    (hW : ∀ i j, uW i j ∈ Set.Ico (0 : ℝ) 1) (hB : ∀ i, uB i ∈ Set.Ico (0 : ℝ) 1) :
    (∀ i j, |(init m n coeff withBias uW uB).muW i j| ≤ 1 / Real.sqrt m ∧ (init m n coeff withBias uW uB).sigmaW i j = coeff / Real.sqrt m) ∧
    (withBias = false → (init m n coeff withBias uW uB).bias = none) ∧
    (withBias = true → ∃ mu sigma, (init m n coeff withBias uW uB).bias = some (mu, sigma) ∧ ∀ i, |mu i| ≤ 1 / Real.sqrt m ∧ sigma i = coeff / Real.sqrt m) := by
  have hs : (m : ℝ) ^ (0.5 : ℝ) = Real.sqrt m := by
    rw [Real.sqrt_eq_rpow]
    norm_num
  have hpos : 0 < Real.sqrt m := Real.sqrt_pos.2 (by exact_mod_cast hm)
  have hb : ∀ u ∈ Set.Ico (0 : ℝ) 1, |uniform (1 / Real.sqrt m) u| ≤ 1 / Real.sqrt m := by
    intro u hu
    have h1 : 0 < 1 / Real.sqrt m := by positivity
    have h2 : 0 ≤ u * (1 / Real.sqrt m) := mul_nonneg hu.1 h1.le
    have h3 : u * (1 / Real.sqrt m) ≤ 1 * (1 / Real.sqrt m) := mul_le_mul_of_nonneg_right hu.2.le h1.le
    unfold uniform
    rw [abs_le]
    constructor <;> linarith
  refine ⟨fun i j => ⟨?_, ?_⟩, fun h => ?_, fun h => ?_⟩
  · show |uniform (1 / (m : ℝ) ^ (0.5 : ℝ)) (uW i j)| ≤ _
    rw [hs]
    exact hb _ (hW i j)
  · show coeff / (m : ℝ) ^ (0.5 : ℝ) = _
    rw [hs]
  · simp [init, h]
  · refine ⟨fun i => uniform (1 / (m : ℝ) ^ (0.5 : ℝ)) (uB i), fun _ => coeff / (m : ℝ) ^ (0.5 : ℝ), by simp only [init, h, if_true], fun i => ⟨?_, ?_⟩⟩
    · show |uniform (1 / (m : ℝ) ^ (0.5 : ℝ)) (uB i)| ≤ _
      rw [hs]
      exact hb _ (hB i)
    · show coeff / (m : ℝ) ^ (0.5 : ℝ) = _
      rw [hs]

/-! ### The noise has no zero mean -/

theorem integral_noise : ∫ x in Set.Ico (0 : ℝ) 1, noise x = 2 / 3 := by
  have e : ∫ x in Set.Ico (0 : ℝ) 1, noise x = ∫ x in Set.Ico (0 : ℝ) 1, x ^ ((1 : ℝ) / 2) := by
    apply setIntegral_congr_fun measurableSet_Ico
    intro x hx
    simp only
    rw [noise_nonneg hx.1, Real.sqrt_eq_rpow]
  rw [e, integral_Ico_eq_integral_Ioo, ← integral_Ioc_eq_integral_Ioo, ← intervalIntegral.integral_of_le zero_le_one, integral_rpow (Or.inl (by norm_num))]
  norm_num

theorem measurable_noise : Measurable noise := by
  unfold noise
  apply Measurable.mul
  · have : (fun x : ℝ => ((SignType.sign x : SignType) : ℝ)) = fun x => if 0 < x then 1 else if x < 0 then -1 else 0 := by
      funext x
      rcases lt_trichotomy x 0 with h | h | h
      · simp [h, not_lt.2 h.le]
      · simp [h]
      · simp [h]
    rw [this]
    apply Measurable.ite measurableSet_Ioi measurable_const
    exact Measurable.ite measurableSet_Iio measurable_const measurable_const
  · exact (continuous_abs.measurable).sqrt

variable {Ω : Type} [MeasurableSpace Ω] {P : Measure Ω} [IsProbabilityMeasure P]

theorem expect_noise {u : Ω → ℝ} (h : IsUniform P u) : ∫ ω, noise (u ω) ∂P = 2 / 3 := by
  rw [← integral_noise, ← h.2, integral_map h.1.aemeasurable measurable_noise.aestronglyMeasurable]

theorem integrable_noise {u : Ω → ℝ} (h : IsUniform P u) : Integrable (fun ω => noise (u ω)) P := by
  by_contra hn
  have := expect_noise h
  rw [integral_undef hn] at this
  norm_num at this

theorem expect_product {u v : Ω → ℝ} (hu : IsUniform P u) (hv : IsUniform P v) (h : IndepFun u v P) :
    Integrable (fun ω => noise (u ω) * noise (v ω)) P ∧ ∫ ω, noise (u ω) * noise (v ω) ∂P = 4 / 9 := by
  have hi : IndepFun (fun ω => noise (u ω)) (fun ω => noise (v ω)) P := h.comp measurable_noise measurable_noise
  have := hi.integral_mul_eq_mul_integral (integrable_noise hu).aestronglyMeasurable (integrable_noise hv).aestronglyMeasurable
  refine ⟨hi.integrable_mul (integrable_noise hu) (integrable_noise hv), ?_⟩
  have e : ∫ ω, noise (u ω) * noise (v ω) ∂P = (∫ ω, noise (u ω) ∂P) * ∫ ω, noise (v ω) ∂P := this
  rw [e, expect_noise hu, expect_noise hv]
  norm_num

/-- **C122 (refuted): the noise has mean zero.** The expected output is that of weights raised by 4/9 of the noise weights and of a bias raised by 2/3 of the noise bias:
the draws are uniform in the unit interval, so the noise is never negative. -/
theorem C122_mean_refuted {m n : ℕ} (l : Layer m n) (out : Fin n → Ω → ℝ) (inn : Fin m → Ω → ℝ) (h : Draws P out inn) (x : Fin m → ℝ) (i : Fin n) :
    ∫ ω, l.forward (fun i => out i ω) (fun j => inn j ω) x i ∂P =
      meanOutput l x i + 4 / 9 * ∑ j, l.sigmaW i j * x j + 2 / 3 * (match l.bias with
        | none => 0
        | some (_, sigma) => sigma i) := by
  have hj : ∀ j, Integrable (fun ω => x j * (l.muW i j + l.sigmaW i j * (noise (out i ω) * noise (inn j ω)))) P := by
    intro j
    apply Integrable.const_mul
    apply (integrable_const _).add
    exact ((expect_product (h.out_uniform i) (h.in_uniform j) (h.indep i j)).1).const_mul _
  have ej : ∀ j, ∫ ω, x j * (l.muW i j + l.sigmaW i j * (noise (out i ω) * noise (inn j ω))) ∂P = l.muW i j * x j + 4 / 9 * (l.sigmaW i j * x j) := by
    intro j
    have hp := expect_product (h.out_uniform i) (h.in_uniform j) (h.indep i j)
    rw [integral_const_mul, integral_add (integrable_const _) (hp.1.const_mul _), integral_const_mul, hp.2]
    simp
    ring
  have el : ∫ ω, ∑ j, x j * (l.muW i j + l.sigmaW i j * (noise (out i ω) * noise (inn j ω))) ∂P = ∑ j, l.muW i j * x j + 4 / 9 * ∑ j, l.sigmaW i j * x j := by
    rw [integral_finset_sum _ (fun j _ => hj j), Finset.sum_congr rfl (fun j _ => ej j), Finset.sum_add_distrib, Finset.mul_sum]
  unfold Layer.forward meanOutput
  rcases l.bias with _ | ⟨mu, sigma⟩
  · simp only
    rw [el]
    ring
  · simp only
    have hb : Integrable (fun ω => mu i + sigma i * noise (out i ω)) P :=
      (integrable_const _).add ((integrable_noise (h.out_uniform i)).const_mul _)
    rw [integral_add (integrable_finset_sum _ (fun j _ => hj j)) hb, el,
      integral_add (integrable_const _) ((integrable_noise (h.out_uniform i)).const_mul _), integral_const_mul, expect_noise (h.out_uniform i)]
    simp
    ring

/-- The hypotheses can be met: two independent uniform draws, for one input and one output. -/
theorem draws_exist : ∃ (Ω : Type) (_ : MeasurableSpace Ω) (P : Measure Ω) (_ : IsProbabilityMeasure P) (out inn : Fin 1 → Ω → ℝ), Draws P out inn := by
  have hU : IsProbabilityMeasure (volume.restrict (Set.Ico (0 : ℝ) 1)) := ⟨by simp⟩
  refine ⟨ℝ × ℝ, inferInstance, (volume.restrict (Set.Ico (0 : ℝ) 1)).prod (volume.restrict (Set.Ico (0 : ℝ) 1)), inferInstance,
    fun _ => Prod.fst, fun _ => Prod.snd, ⟨fun _ => ⟨measurable_fst, ?_⟩, fun _ => ⟨measurable_snd, ?_⟩, fun _ _ => ?_⟩⟩
  · exact measurePreserving_fst.map_eq
  · exact measurePreserving_snd.map_eq
  · exact indepFun_prod (X := id) (Y := id) measurable_id measurable_id

/-- So the expected value of an action differs from the value without noise as soon as the noise of its bias is positive and its features are not negative. -/
theorem C122_bias_refuted {m n : ℕ} (l : Layer m n) (out : Fin n → Ω → ℝ) (inn : Fin m → Ω → ℝ) (h : Draws P out inn) (x : Fin m → ℝ) (hx : ∀ j, 0 ≤ x j)
    (hW : ∀ i j, 0 ≤ l.sigmaW i j) (mu sigma : Fin n → ℝ) (hb : l.bias = some (mu, sigma)) (i : Fin n) (hs : 0 < sigma i) :
    meanOutput l x i < ∫ ω, l.forward (fun i => out i ω) (fun j => inn j ω) x i ∂P := by
  rw [C122_mean_refuted l out inn h x i, hb]
  have : 0 ≤ ∑ j, l.sigmaW i j * x j := Finset.sum_nonneg fun j _ => mul_nonneg (hW i j) (hx j)
  simp only
  linarith

/-- Indeed no draw ever lowers the value of an action, if the features are not negative, as after a rectifier, and the noise weights are not negative, as initially. -/
theorem C122_one_sided_refuted {m n : ℕ} (l : Layer m n) (eo : Fin n → ℝ) (ei : Fin m → ℝ) (ho : ∀ i, eo i ∈ Set.Ico (0 : ℝ) 1) (hi : ∀ j, ei j ∈ Set.Ico (0 : ℝ) 1)
    (x : Fin m → ℝ) (hx : ∀ j, 0 ≤ x j) (hW : ∀ i j, 0 ≤ l.sigmaW i j) (hB : ∀ mu sigma, l.bias = some (mu, sigma) → ∀ i, 0 ≤ sigma i) (i : Fin n) :
    meanOutput l x i ≤ l.forward eo ei x i := by
  have hn : ∀ u ∈ Set.Ico (0 : ℝ) 1, 0 ≤ noise u := fun u hu => by rw [noise_nonneg hu.1]; exact Real.sqrt_nonneg _
  have e : ∑ j, l.muW i j * x j ≤ ∑ j, x j * (l.muW i j + l.sigmaW i j * (noise (eo i) * noise (ei j))) := by
    apply Finset.sum_le_sum
    intro j _
    have := mul_nonneg (hx j) (mul_nonneg (hW i j) (mul_nonneg (hn _ (ho i)) (hn _ (hi j))))
    nlinarith [this]
  unfold Layer.forward meanOutput
  rcases hb : l.bias with _ | ⟨mu, sigma⟩
  · simpa using e
  · have := mul_nonneg (hB mu sigma hb i) (hn _ (ho i))
    simp only
    linarith

/-- Two predictions of the same state differ in general: the noise is drawn at every call, also for the target network and in evaluation. -/
theorem C122_repeat_refuted {m n : ℕ} (l : Layer m n) (mu sigma : Fin n → ℝ) (hb : l.bias = some (mu, sigma)) (i : Fin n) (hs : sigma i ≠ 0) (x : Fin m → ℝ) :
    ∃ eo eo' : Fin n → ℝ, ∃ ei : Fin m → ℝ, (∀ i, eo i ∈ Set.Ico (0 : ℝ) 1) ∧ (∀ i, eo' i ∈ Set.Ico (0 : ℝ) 1) ∧ (∀ j, ei j ∈ Set.Ico (0 : ℝ) 1) ∧
      l.forward eo ei x i ≠ l.forward eo' ei x i := by
  refine ⟨fun _ => 0, fun _ => 1 / 4, fun _ => 0, fun _ => by norm_num, fun _ => by norm_num, fun _ => by norm_num, ?_⟩
  have h0 : noise 0 = 0 := by simp [noise]
  have h4 : noise (1 / 4) = 1 / 2 := by
    rw [noise_nonneg (by norm_num), show (1 : ℝ) / 4 = (1 / 2) ^ 2 by norm_num, Real.sqrt_sq (by norm_num)]
  unfold Layer.forward
  simp only [hb, h0, h4, mul_zero, add_zero]
  intro h
  apply hs
  linarith

/-- **C122.** `_noise` is odd and its square is the size of its argument: with draws of mean zero it would keep mean zero. -/
theorem C122_noise (x : ℝ) : noise (-x) = -noise x ∧ noise x ^ 2 = |x| := by
  refine ⟨noise_neg x, ?_⟩
  unfold noise
  rw [mul_pow, Real.sq_sqrt (abs_nonneg x)]
  rcases lt_trichotomy x 0 with h | h | h
  · simp [h]
  · simp [h]
  · simp [h]

/-- A layer without bias works, but cannot be printed. -/
theorem C122_print_refuted {m n : ℕ} (l : Layer m n) (h : l.bias = none) : l.extraRepr = none := by
  simp [Layer.extraRepr, h]

/-- **C122.** The agent uses a noisy network whose features come from the given network; all other parameters are those given. -/
theorem C122_params {V : Type} (noisy : V) (given : String → Option V) :
    agentParams noisy given "network" = some noisy ∧ agentParams noisy given "features_network" = given "network" ∧
    ∀ k, k ≠ "network" → k ≠ "features_network" → agentParams noisy given k = given k := by
  refine ⟨by simp [agentParams], by simp [agentParams], fun k h1 h2 => by simp [agentParams, h1, h2]⟩

/-- A layer with two inputs and two outputs that meets the hypotheses of the theorems above. -/
def sample : Layer 2 2 := ⟨fun _ _ => 1, fun _ _ => 0.5, some (fun _ => 0, fun _ => 0.5)⟩

example : meanOutput sample (fun _ => 1) 0 ≤ sample.forward (fun _ => 0.3) (fun _ => 0.7) (fun _ => 1) 0 :=
  C122_one_sided_refuted sample _ _ (fun _ => by norm_num) (fun _ => by norm_num) _ (fun _ => by norm_num) (fun _ _ => by norm_num [sample])
    (fun mu sigma h i => by simp [sample] at h; rw [← h.2]; norm_num) 0

end

end Verif.DQN.Noisy
