/-
Properties C61, C91 and C92: the clipped surrogate, the policy and temperature of SAC, the standardised advantages.
-/
import Verif.ActorCritic.PropsTarget
import Mathlib.Analysis.SpecialFunctions.Artanh
import Mathlib.Analysis.SpecialFunctions.ExpDeriv
import Mathlib.Analysis.Calculus.Deriv.Add
import Mathlib.Analysis.Calculus.Deriv.Mul

namespace Verif.ActorCritic

/-! ### C61: the clipped surrogate -/

/-- C61. The objective of a sample never exceeds the unclipped surrogate. -/
theorem C61_pessimistic (eps ratio adv : ℝ) : surrogate eps ratio adv ≤ ratio * adv := min_le_left _ _

/-- C61. It equals the unclipped surrogate while the ratio is in the clipping range. -/
theorem C61_inside (eps ratio adv : ℝ) (h1 : 1 - eps ≤ ratio) (h2 : ratio ≤ 1 + eps) :
    surrogate eps ratio adv = ratio * adv := by
  simp [surrogate, clampRatio, max_eq_left h1, min_eq_left h2]

theorem clamp_high {eps ratio : ℝ} (he : 0 ≤ eps) (h : 1 + eps ≤ ratio) : clampRatio eps ratio = 1 + eps := by
  rw [clampRatio, max_eq_left (by linarith), min_eq_right h]

theorem clamp_low {eps ratio : ℝ} (he : 0 ≤ eps) (h : ratio ≤ 1 - eps) : clampRatio eps ratio = 1 - eps := by
  rw [clampRatio, max_eq_right h, min_eq_left (by linarith)]

/-- C61. Once the ratio has left the range in the direction that improves the surrogate, the objective does not change any more. -/
theorem C61_flat (eps adv : ℝ) (he : 0 ≤ eps) (r r' : ℝ)
    (h : (0 ≤ adv ∧ 1 + eps ≤ r ∧ 1 + eps ≤ r') ∨ (adv ≤ 0 ∧ r ≤ 1 - eps ∧ r' ≤ 1 - eps)) :
    surrogate eps r adv = surrogate eps r' adv := by
  unfold surrogate
  rcases h with ⟨ha, h1, h2⟩ | ⟨ha, h1, h2⟩
  · rw [clamp_high he h1, clamp_high he h2, min_eq_right (mul_le_mul_of_nonneg_right h1 ha),
      min_eq_right (mul_le_mul_of_nonneg_right h2 ha)]
  · rw [clamp_low he h1, clamp_low he h2, min_eq_right (mul_le_mul_of_nonpos_right h1 ha),
      min_eq_right (mul_le_mul_of_nonpos_right h2 ha)]

/-- C61. In the direction that worsens the surrogate nothing is clipped. -/
theorem C61_worsening (eps adv : ℝ) (he : 0 ≤ eps) (r : ℝ)
    (h : (0 ≤ adv ∧ r ≤ 1 - eps) ∨ (adv ≤ 0 ∧ 1 + eps ≤ r)) : surrogate eps r adv = r * adv := by
  unfold surrogate
  rcases h with ⟨ha, h1⟩ | ⟨ha, h1⟩
  · rw [clamp_low he h1, min_eq_left (mul_le_mul_of_nonneg_right h1 ha)]
  · rw [clamp_high he h1, min_eq_left (mul_le_mul_of_nonpos_right h1 ha)]

/-- An advantage of three and a ratio that has fallen to a half: the gain is not clipped. -/
example : surrogate 0.2 (1 / 2) 3 = 3 / 2 := by rw [C61_worsening 0.2 3 (by norm_num) (1 / 2) (.inl ⟨by norm_num, by norm_num⟩)]; norm_num

theorem sum_le_sum {X : Type} (l : List X) (f g : X → ℝ) (h : ∀ x ∈ l, f x ≤ g x) :
    (l.map f).sum ≤ (l.map g).sum := by
  induction l with
  | nil => simp
  | cons x l ih =>
    simp only [List.map_cons, List.sum_cons]
    have := h x (by simp)
    have := ih (fun y hy => h y (List.mem_cons_of_mem _ hy))
    linarith

/-- C61. The loss of a minibatch is never below the loss without clipping (the negated surrogate of TRPO), and equals it if all ratios are
in the range. -/
theorem C61_batch (eps entCoeff entropy : ℝ) (batch : List Sample) :
    -trpoLoss entCoeff entropy batch ≤ ppoLoss eps entCoeff entropy batch ∧
      ((∀ s ∈ batch, 1 - eps ≤ s.ratio ∧ s.ratio ≤ 1 + eps) →
        ppoLoss eps entCoeff entropy batch = -trpoLoss entCoeff entropy batch) := by
  constructor
  · have : meanOf (batch.map (fun s => surrogate eps s.ratio s.adv)) ≤ meanOf (batch.map (fun s => s.ratio * s.adv)) := by
      unfold meanOf
      simp only [List.length_map]
      exact div_le_div_of_nonneg_right (sum_le_sum _ _ _ (fun s _ => C61_pessimistic _ _ _)) (by positivity)
    unfold ppoLoss trpoLoss
    linarith
  · intro h
    have : batch.map (fun s => surrogate eps s.ratio s.adv) = batch.map (fun s => s.ratio * s.adv) :=
      List.map_congr_left (fun s hs => C61_inside _ _ _ (h s hs).1 (h s hs).2)
    unfold ppoLoss trpoLoss
    rw [this]
    ring

/-- C61. Before the first step of an epoch, when the policy still is the old one, the objective of a sample has the slope of the policy
gradient: its advantage. -/
theorem C61_gradient (eps old adv : ℝ) (he : 0 < eps) :
    HasDerivAt (fun l => surrogate eps (Sample.ratio ⟨l, old, adv⟩) adv) adv old := by
  have h1 : HasDerivAt (fun l => Real.exp (l - old) * adv) adv old := by
    have := ((hasDerivAt_id old).sub_const old).exp.mul_const adv
    simpa using this
  refine h1.congr_of_eventuallyEq ?_
  have hc : ContinuousAt (fun l => Real.exp (l - old)) old := by fun_prop
  have hmem : Set.Ioo (1 - eps) (1 + eps) ∈ nhds (Real.exp (old - old)) := by
    rw [sub_self, Real.exp_zero]
    exact Ioo_mem_nhds (by linarith) (by linarith)
  filter_upwards [hc.preimage_mem_nhds hmem] with l hl
  exact C61_inside _ _ _ hl.1.le hl.2.le

/-- C61. Beyond the range in the improving direction the slope is zero. -/
theorem C61_no_gradient (eps old adv l : ℝ) (he : 0 ≤ eps)
    (h : (0 ≤ adv ∧ 1 + eps < Real.exp (l - old)) ∨ (adv ≤ 0 ∧ Real.exp (l - old) < 1 - eps)) :
    HasDerivAt (fun l => surrogate eps (Sample.ratio ⟨l, old, adv⟩) adv) 0 l := by
  have hc : ContinuousAt (fun l => Real.exp (l - old)) l := by fun_prop
  refine (hasDerivAt_const l (surrogate eps (Real.exp (l - old)) adv)).congr_of_eventuallyEq ?_
  rcases h with ⟨ha, h1⟩ | ⟨ha, h1⟩
  · filter_upwards [hc.preimage_mem_nhds (Ioi_mem_nhds h1)] with m hm
    exact C61_flat _ _ he _ _ (Or.inl ⟨ha, le_of_lt hm, h1.le⟩)
  · filter_upwards [hc.preimage_mem_nhds (Iio_mem_nhds h1)] with m hm
    exact C61_flat _ _ he _ _ (Or.inr ⟨ha, le_of_lt hm, h1.le⟩)

example : surrogate (1 / 5) 3 2 = surrogate (1 / 5) 7 2 ∧ surrogate (1 / 5) 3 2 = 12 / 5 :=
  ⟨C61_flat _ _ (by norm_num) _ _ (Or.inl (by norm_num)), by simp only [surrogate, clampRatio]; norm_num⟩

/-- The gradient of A2C: with advantages that do not depend on the policy, the loss of a sample has slope `- adv`. -/
theorem a2c_gradient (entCoeff entropy old adv l : ℝ) :
    HasDerivAt (fun l => a2cLoss entCoeff entropy [⟨l, old, adv⟩]) (-adv) l := by
  have h : (fun l => a2cLoss entCoeff entropy [⟨l, old, adv⟩]) = fun l => -(l * adv) + entCoeff * (-entropy) := by
    funext l; simp [a2cLoss, meanOf]
  rw [h]
  have := (((hasDerivAt_id l).mul_const adv).neg).add_const (entCoeff * (-entropy))
  simpa using this

/-! ### C91: the policy of SAC -/

variable {d : ℕ}

/-- C91. Every action drawn by the policy lies strictly inside the bounds of the action space. -/
theorem C91_bounds (minA maxA raw : Fin d → ℝ) (j : Fin d) (h : minA j < maxA j) :
    minA j < squash minA maxA raw j ∧ squash minA maxA raw j < maxA j := by
  have h1 := Real.tanh_lt_one (raw j)
  have h2 := Real.neg_one_lt_tanh (raw j)
  unfold squash
  constructor <;> nlinarith

/-- C91. Every action strictly inside the bounds is reached by exactly one sample of the normal distribution. -/
theorem C91_reach (minA maxA a : Fin d → ℝ) (h : ∀ j, minA j < a j ∧ a j < maxA j) :
    ∃! raw, squash minA maxA raw = a := by
  have hd : ∀ j, 0 < maxA j - minA j := fun j => by linarith [(h j).1, (h j).2]
  have key : ∀ (raw : Fin d → ℝ), squash minA maxA raw = a ↔
      ∀ j, Real.tanh (raw j) = (2 * a j - (maxA j + minA j)) / (maxA j - minA j) := by
    intro raw
    rw [funext_iff]
    refine forall_congr' (fun j => ?_)
    unfold squash
    rw [eq_div_iff (hd j).ne']
    constructor <;> intro e <;> linarith
  have hin : ∀ j, (2 * a j - (maxA j + minA j)) / (maxA j - minA j) ∈ Set.Ioo (-1 : ℝ) 1 := by
    intro j
    constructor
    · rw [lt_div_iff₀ (hd j)]; linarith [(h j).1]
    · rw [div_lt_iff₀ (hd j)]; linarith [(h j).2]
  refine ⟨fun j => Real.artanh ((2 * a j - (maxA j + minA j)) / (maxA j - minA j)), ?_, ?_⟩
  · exact (key _).2 (fun j => Real.tanh_artanh (hin j))
  · intro raw hr
    replace hr := (key raw).1 hr
    funext j
    rw [← hr j, Real.artanh_tanh]

example : ∃! raw, squash (fun _ : Fin 2 => -2) (fun _ => 2) raw = ![1, -1] := C91_reach _ _ _ (by intro j; fin_cases j <;> norm_num)

/-- C91. The standard deviation of the policy lies between the exponentials of the configured bounds, whatever the network returns. -/
theorem C91_sigma (logMin logMax : ℝ) (h : logMin ≤ logMax) (logSigma : Fin d → ℝ) (j : Fin d) :
    Real.exp logMin ≤ sacSigma logMin logMax logSigma j ∧ sacSigma logMin logMax logSigma j ≤ Real.exp logMax := by
  obtain ⟨h1, h2⟩ := clip_mem (logSigma j) logMin logMax h
  exact ⟨Real.exp_le_exp.2 h1, Real.exp_le_exp.2 h2⟩

example (logSigma : Fin 3 → ℝ) : Real.exp (-20) ≤ sacSigma (-20) 2 logSigma 1 := (C91_sigma (-20) 2 (by norm_num) logSigma 1).1

theorem tanh_deriv (x : ℝ) : HasDerivAt Real.tanh (1 - Real.tanh x ^ 2) x := by
  have hc : Real.cosh x ≠ 0 := (Real.cosh_pos x).ne'
  have h := (Real.hasDerivAt_sinh x).div (Real.hasDerivAt_cosh x) hc
  have e : (fun y => Real.sinh y / Real.cosh y) = Real.tanh := by
    funext y; rw [Real.tanh_eq_sinh_div_cosh]
  have e2 : (Real.sinh / Real.cosh) = Real.tanh := e
  rw [e2] at h
  have e3 : (Real.cosh x * Real.cosh x - Real.sinh x * Real.sinh x) / Real.cosh x ^ 2 = 1 - Real.tanh x ^ 2 := by
    rw [Real.tanh_eq_sinh_div_cosh]
    field_simp
  rw [e3] at h
  exact h

/-- The log-density of the action `f raw` (one component), when `raw` has log-density `logp` and `f` has slope `slope`. -/
noncomputable def pushLogDensity (logp slope : ℝ) : ℝ := logp - Real.log |slope|

/-- The slope of the squashing function. -/
theorem squash_deriv (minA maxA x : ℝ) :
    HasDerivAt (fun r => squash (d := 1) (fun _ => minA) (fun _ => maxA) (fun _ => r) 0)
      ((1 - Real.tanh x ^ 2) * (1 / 2 * (maxA - minA))) x := by
  unfold squash
  exact ((tanh_deriv x).mul_const _).add_const _

/-- C91 (part). The returned value is the log-density of the normalised action (the one in (-1, 1)), up to the constant that
stabilises the logarithm: it differs from the log-density of the returned action by the logarithms of the half-widths of the action
space, and the constant only lowers it. -/
theorem C91_logprob_partial (eps : ℝ) (he : 0 ≤ eps) (minA maxA mu sigma raw : Fin d → ℝ) (h : ∀ j, minA j < maxA j) :
    sacLogProb 0 mu sigma raw =
      (∑ j, pushLogDensity (normalLogProb (mu j) (sigma j) (raw j))
        ((1 - Real.tanh (raw j) ^ 2) * (1 / 2 * (maxA j - minA j)))) + ∑ j, Real.log (1 / 2 * (maxA j - minA j)) ∧
    sacLogProb eps mu sigma raw ≤ sacLogProb 0 mu sigma raw ∧
    sacLogProb 0 mu sigma raw - sacLogProb eps mu sigma raw ≤ ∑ j, eps / (1 - Real.tanh (raw j) ^ 2) := by
  have hp : ∀ j, 0 < 1 - Real.tanh (raw j) ^ 2 := fun j => by linarith [Real.tanh_sq_lt_one (raw j)]
  refine ⟨?_, ?_, ?_⟩
  · unfold sacLogProb pushLogDensity
    simp only [add_zero]
    rw [← Finset.sum_sub_distrib, ← Finset.sum_add_distrib]
    refine Finset.sum_congr rfl (fun j _ => ?_)
    have h2 : 0 < 1 / 2 * (maxA j - minA j) := by have := h j; linarith
    rw [abs_of_pos (mul_pos (hp j) h2), Real.log_mul (hp j).ne' h2.ne']
    ring
  · unfold sacLogProb
    simp only [add_zero]
    have : ∑ j, Real.log (1 - Real.tanh (raw j) ^ 2) ≤ ∑ j, Real.log (1 - Real.tanh (raw j) ^ 2 + eps) :=
      Finset.sum_le_sum (fun j _ => Real.log_le_log (hp j) (by linarith))
    linarith
  · unfold sacLogProb
    simp only [add_zero]
    have : ∑ j, Real.log (1 - Real.tanh (raw j) ^ 2 + eps) - ∑ j, Real.log (1 - Real.tanh (raw j) ^ 2) ≤
        ∑ j, eps / (1 - Real.tanh (raw j) ^ 2) := by
      rw [← Finset.sum_sub_distrib]
      refine Finset.sum_le_sum (fun j _ => ?_)
      rw [← Real.log_div (by have := hp j; positivity) (hp j).ne']
      have := Real.log_le_sub_one_of_pos (x := (1 - Real.tanh (raw j) ^ 2 + eps) / (1 - Real.tanh (raw j) ^ 2))
        (by have := hp j; positivity)
      refine this.trans (le_of_eq ?_)
      have := (hp j).ne'
      field_simp
      ring
    linarith

/-- C91 fails: for an action space of half-width 2 the returned value is not the log-density of the returned action, even without the
stabilising constant. -/
theorem C91_logprob_refuted : ∃ (minA maxA mu sigma raw : Fin 1 → ℝ), (∀ j, minA j < maxA j) ∧ (∀ j, 0 < sigma j) ∧
    sacLogProb 0 mu sigma raw ≠ ∑ j, pushLogDensity (normalLogProb (mu j) (sigma j) (raw j))
      ((1 - Real.tanh (raw j) ^ 2) * (1 / 2 * (maxA j - minA j))) := by
  refine ⟨fun _ => -2, fun _ => 2, fun _ => 0, fun _ => 1, fun _ => 0, fun _ => by norm_num, fun _ => by norm_num, ?_⟩
  rw [(C91_logprob_partial 0 le_rfl (fun _ => -2) (fun _ => 2) _ _ _ (fun _ => by norm_num)).1]
  intro h
  have h2 : (0 : ℝ) < Real.log (1 / 2 * (2 - -2)) := Real.log_pos (by norm_num)
  rw [add_eq_left, Finset.sum_const, Finset.card_univ, Fintype.card_fin, one_smul] at h
  linarith

/-- C91. The temperature follows the entropy: the slope of its loss is negative (a gradient step raises the temperature) exactly if
the estimated entropy `- mean log_prob` is below the target, and positive exactly if it is above; for both forms of the loss. -/
theorem C91_temperature (useLog : Bool) (target : ℝ) (logProbs : List ℝ) (hn : logProbs ≠ []) (logAlpha : ℝ) :
    ∃ slope, HasDerivAt (alphaLoss useLog target logProbs) slope logAlpha ∧
      (slope < 0 ↔ -meanOf logProbs < target) ∧ (0 < slope ↔ target < -meanOf logProbs) := by
  have hlen : (0 : ℝ) < (logProbs.length : ℝ) := by
    have := List.length_pos_iff.2 hn
    exact_mod_cast this
  have hm : ∀ c : ℝ, meanOf (logProbs.map (fun l => c * (l + target))) = c * (meanOf logProbs + target) := by
    intro c
    have : ∀ l : List ℝ, (l.map (fun x => c * (x + target))).sum = c * (l.sum + l.length * target) := by
      intro l
      induction l with
      | nil => simp
      | cons x l ih => simp only [List.map_cons, List.sum_cons, ih, List.length_cons]; push_cast; ring
    unfold meanOf
    rw [this, List.length_map]
    field_simp
  cases useLog with
  | true =>
    refine ⟨-(meanOf logProbs + target), ?_, ?_, ?_⟩
    · have e : alphaLoss true target logProbs = fun a => -(a * (meanOf logProbs + target)) := by
        funext a
        simp only [alphaLoss, if_true, hm]
      rw [e]
      have := ((hasDerivAt_id logAlpha).mul_const (meanOf logProbs + target)).fun_neg
      rw [one_mul] at this
      exact this
    · constructor <;> intro h <;> linarith
    · constructor <;> intro h <;> linarith
  | false =>
    refine ⟨-(Real.exp logAlpha * (meanOf logProbs + target)), ?_, ?_, ?_⟩
    · have e : alphaLoss false target logProbs = fun a => -(Real.exp a * (meanOf logProbs + target)) := by
        funext a
        simp [alphaLoss, hm]
      rw [e]
      exact ((Real.hasDerivAt_exp logAlpha).mul_const (meanOf logProbs + target)).neg
    · have := Real.exp_pos logAlpha
      constructor
      · intro h
        have : 0 < Real.exp logAlpha * (meanOf logProbs + target) := by linarith
        have := pos_of_mul_pos_right this (Real.exp_pos logAlpha).le
        linarith
      · intro h
        have : 0 < Real.exp logAlpha * (meanOf logProbs + target) := mul_pos this (by linarith)
        linarith
    · have := Real.exp_pos logAlpha
      constructor
      · intro h
        have h' : 0 < Real.exp logAlpha * (-(meanOf logProbs + target)) := by linarith
        have := pos_of_mul_pos_right h' (Real.exp_pos logAlpha).le
        linarith
      · intro h
        have : 0 < Real.exp logAlpha * (-(meanOf logProbs + target)) := mul_pos this (by linarith)
        linarith

example : ∃ slope, HasDerivAt (alphaLoss false (defaultEntropy 2) [1, 2]) slope 0 ∧
    (slope < 0 ↔ -meanOf [1, 2] < defaultEntropy 2) ∧ (0 < slope ↔ defaultEntropy 2 < -meanOf [1, 2]) :=
  C91_temperature false _ _ (by simp) 0

/-- C91, the default: with `target_entropy=None` and an action space with `d` components, the temperature rises (its loss falls with it) exactly when the estimated entropy is
below `-d`, and falls exactly when it is above. -/
theorem C91_default_target (useLog : Bool) (d : ℕ) (logProbs : List ℝ) (hl : logProbs ≠ []) (logAlpha : ℝ) :
    ∃ slope, HasDerivAt (alphaLoss useLog (defaultEntropy d) logProbs) slope logAlpha ∧
      (slope < 0 ↔ -meanOf logProbs < -(d : ℝ)) ∧ (0 < slope ↔ -(d : ℝ) < -meanOf logProbs) :=
  C91_temperature useLog _ _ hl logAlpha

-- With two components and log-probabilities 1 and 2 the estimated entropy is -1.5: the temperature falls.
example : -(2 : ℝ) < -meanOf [1, 2] := by norm_num [meanOf]

/-! ### C92: standardised advantages -/

theorem sum_sub_mean (l : List ℝ) (hn : l ≠ []) : (l.map (fun x => x - meanOf l)).sum = 0 := by
  have : ∀ (m : ℝ) (l : List ℝ), (l.map (fun x => x - m)).sum = l.sum - l.length * m := by
    intro m l
    induction l with
    | nil => simp
    | cons x l ih => simp only [List.map_cons, List.sum_cons, ih, List.length_cons]; push_cast; ring
  have hlen : (l.length : ℝ) ≠ 0 := by simpa using hn
  rw [this, meanOf]
  field_simp
  ring

theorem sum_div (c : ℝ) (f : ℝ → ℝ) (l : List ℝ) : (l.map (fun x => f x / c)).sum = (l.map f).sum / c := by
  induction l with
  | nil => simp
  | cons x l ih => simp only [List.map_cons, List.sum_cons, ih]; ring

theorem std_some (l : List ℝ) (h : 2 ≤ l.length) :
    ∃ s, torchStd l = some s ∧ 0 ≤ s ∧ s ^ 2 * ((l.length : ℝ) - 1) = (l.map (fun x => (x - meanOf l) ^ 2)).sum := by
  refine ⟨_, if_neg (by omega), Real.sqrt_nonneg _, ?_⟩
  have h1 : (0 : ℝ) < (l.length : ℝ) - 1 := by
    have : (2 : ℝ) ≤ l.length := by exact_mod_cast h
    linarith
  have h2 : 0 ≤ (l.map (fun x => (x - meanOf l) ^ 2)).sum :=
    List.sum_nonneg (by
      intro y hy
      obtain ⟨x, _, rfl⟩ := List.mem_map.1 hy
      positivity)
  rw [Real.sq_sqrt (div_nonneg h2 h1.le)]
  field_simp

/-- C92 (part). With at least two samples, the standardised advantages exist, are as many as the samples, have mean zero and a sample
variance of at most one, and keep the order of the samples. Missing: batches of one sample, see `C92_refuted`. -/
theorem C92_standardise_partial (l : List ℝ) (h : 2 ≤ l.length) :
    ∃ out, standardise l = some out ∧ out.length = l.length ∧ meanOf out = 0 ∧
      (out.map (fun x => (x - meanOf out) ^ 2)).sum ≤ (l.length : ℝ) - 1 ∧
      ∀ (i j : ℕ) x y x' y', l[i]? = some x → l[j]? = some y → out[i]? = some x' → out[j]? = some y' →
        (x < y ↔ x' < y') := by
  obtain ⟨s, hs, hs0, hvar⟩ := std_some l h
  have hn : l ≠ [] := by intro hc; subst hc; simp at h
  have hpos : (0 : ℝ) < s + 1 / 100000000 := by positivity
  have hmean : meanOf (l.map (fun x => (x - meanOf l) / (s + 1 / 100000000))) = 0 := by
    have := sum_div (s + 1 / 100000000) (fun x => x - meanOf l) l
    rw [meanOf, this, sum_sub_mean l hn]
    simp
  refine ⟨l.map (fun x => (x - meanOf l) / (s + 1 / 100000000)), by simp [standardise, hs], by simp, hmean, ?_, ?_⟩
  · rw [hmean, List.map_map]
    have e : ((fun x : ℝ => (x - 0) ^ 2) ∘ fun x => (x - meanOf l) / (s + 1 / 100000000)) =
        fun x => (x - meanOf l) ^ 2 / (s + 1 / 100000000) ^ 2 := by
      funext x; simp [div_pow]
    rw [e, sum_div _ (fun x => (x - meanOf l) ^ 2), ← hvar, div_le_iff₀ (by positivity)]
    have h1 : (0 : ℝ) ≤ (l.length : ℝ) - 1 := by
      have : (2 : ℝ) ≤ l.length := by exact_mod_cast h
      linarith
    have h2 : s ^ 2 ≤ (s + 1 / 100000000) ^ 2 := by
      apply pow_le_pow_left₀ hs0; linarith
    nlinarith
  · intro i j x y x' y' hx hy hx' hy'
    simp only [List.getElem?_map, hx, Option.map_some, Option.some.injEq] at hx'
    simp only [List.getElem?_map, hy, Option.map_some, Option.some.injEq] at hy'
    subst hx' hy'
    rw [div_lt_div_iff_of_pos_right hpos]
    constructor <;> intro <;> linarith

/-- C92. Equal advantages become zero. -/
theorem C92_constant (c : ℝ) (n : ℕ) (h : 2 ≤ n) : standardise (List.replicate n c) = some (List.replicate n 0) := by
  have hm : meanOf (List.replicate n c) = c := by
    have : (n : ℝ) ≠ 0 := by positivity
    simp [meanOf]
    field_simp
  obtain ⟨s, hs, hs0, _⟩ := std_some (List.replicate n c) (by simpa using h)
  simp [standardise, hs, hm]

/-- C92 fails: for a batch with one sample the standardised advantage is not a number. -/
theorem C92_refuted (x : ℝ) : standardise [x] = none := by simp [standardise, torchStd]

example : ∃ out, standardise [1, 2, 6] = some out ∧ out.length = 3 ∧ meanOf out = 0 := by
  obtain ⟨out, h1, h2, h3, _⟩ := C92_standardise_partial [1, 2, 6] (by simp)
  exact ⟨out, h1, h2, h3⟩

end Verif.ActorCritic
