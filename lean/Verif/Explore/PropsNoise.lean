/-
C101, continued: the distribution of the exploration noise, if `randn` gives independent standard normal numbers.
-/
import Verif.Explore.Props
import Mathlib.Probability.Distributions.Gaussian.Real
import Mathlib.Probability.Independence.InfinitePi

namespace Verif.Explore

open Finset MeasureTheory ProbabilityTheory

open scoped NNReal

variable {Ω : Type} [mΩ : MeasurableSpace Ω] {P : Measure Ω} [IsProbabilityMeasure P]

theorem scaled_normal {X : Ω → ℝ} (hX : Measurable X) {m : ℝ} {v : ℝ≥0} (h : P.map X = gaussianReal m v) (c : ℝ) :
    P.map (fun ω => c * X ω) = gaussianReal (c * m) (.mk (c ^ 2) (sq_nonneg _) * v) := by
  have : (fun ω => c * X ω) = (fun x => c * x) ∘ X := rfl
  rw [this, ← Measure.map_map (measurable_const_mul c) hX, h, gaussianReal_map_const_mul]

/-- A combination of independent standard normal numbers is normal. -/
theorem combined_normal {x : ℕ → Ω → ℝ} (hx : ∀ i, Measurable (x i)) (hlaw : ∀ i, P.map (x i) = gaussianReal 0 1)
    (hind : iIndepFun x P) (w : ℕ → ℝ) (N : ℕ) :
    ∃ v : ℝ≥0, (v : ℝ) = ∑ i ∈ range N, w i ^ 2 ∧ P.map (fun ω => ∑ i ∈ range N, w i * x i ω) = gaussianReal 0 v := by
  induction N with
  | zero =>
    refine ⟨0, by simp, ?_⟩
    simp only [range_zero, sum_empty, gaussianReal_zero_var]
    rw [Measure.map_const, measure_univ, one_smul]
  | succ N ih =>
    obtain ⟨v, hv, hs⟩ := ih
    refine ⟨v + .mk (w N ^ 2) (sq_nonneg _) * 1, by rw [sum_range_succ, ← hv]; simp, ?_⟩
    have hi : IndepFun (fun ω => ∑ i ∈ range N, w i * x i ω) (fun ω => w N * x N ω) P := by
      have h1 : iIndepFun (fun i ω => w i * x i ω) P := hind.comp (fun i y => w i * y) (fun i => measurable_const_mul (w i))
      have h2 := h1.indepFun_finsetSum_of_notMem (fun i => (hx i).const_mul (w i)) (s := range N) (i := N) (by simp)
      have e : (∑ j ∈ range N, fun ω => w j * x j ω) = fun ω => ∑ j ∈ range N, w j * x j ω := by
        funext ω; rw [Finset.sum_apply]
      rw [e] at h2
      exact h2
    have := gaussianReal_add_gaussianReal_of_indepFun hi hs (scaled_normal (hx N) (hlaw N) (w N))
    rw [mul_zero, add_zero] at this
    rw [← this]
    congr 1
    funext ω
    rw [sum_range_succ, Pi.add_apply]

/-- C101: the law of the exploration noise. In an episode that starts with the noise `x0` and meets any states whatsoever, the `k`-th action
minus the mean of its state is a normal random number; its mean is `x0` damped by `1 - theta dt` per step, and its variance is
the sum of the variances `sigma^2 dt` of all the numbers drawn, each damped by the square of that factor per step. -/
theorem C101_ou_law {S : Type} {n : ℕ} (p : OU S n) (hdt : 0 ≤ p.dt) (x0 : Vec n) (states : ℕ → Ω → S) (xi : ℕ → Ω → Vec n) (j : Fin n)
    (hx : ∀ i, Measurable (fun ω => xi i ω j)) (hlaw : ∀ i, P.map (fun ω => xi i ω j) = gaussianReal 0 1)
    (hind : iIndepFun (fun i ω => xi i ω j) P) (k : ℕ) :
    ∃ v : ℝ≥0, (v : ℝ) = p.sigma j ^ 2 * p.dt * ∑ i ∈ range (k + 1), ((1 - p.theta * p.dt) ^ 2) ^ i ∧
      P.map (fun ω => (p.actions x0 ((List.range (k + 1)).map (fun i => (states i ω, xi i ω)))).getD k 0 j - p.mu (states k ω) j) =
        gaussianReal ((1 - p.theta * p.dt) ^ (k + 1) * x0 j) v := by
  set r := 1 - p.theta * p.dt with hr
  obtain ⟨v, hv, hs⟩ := combined_normal hx hlaw hind (fun i => p.sigma j * Real.sqrt p.dt * r ^ (k - i)) (k + 1)
  refine ⟨v, ?_, ?_⟩
  · rw [hv, mul_sum, ← sum_range_reflect]
    refine sum_congr rfl (fun i hi => ?_)
    have : k - (k + 1 - 1 - i) = i := by have := mem_range.1 hi; omega
    rw [this, mul_pow, mul_pow, Real.sq_sqrt hdt]
    ring
  · have e : (fun ω => (p.actions x0 ((List.range (k + 1)).map (fun i => (states i ω, xi i ω)))).getD k 0 j - p.mu (states k ω) j) =
        (fun y => r ^ (k + 1) * x0 j + y) ∘ fun ω => ∑ i ∈ range (k + 1), p.sigma j * Real.sqrt p.dt * r ^ (k - i) * xi i ω j := by
      funext ω
      obtain ⟨hl, ha⟩ := C101_ou p x0 ((List.range (k + 1)).map (fun i => (states i ω, xi i ω)))
      have hk : k < ((List.range (k + 1)).map (fun i => (states i ω, xi i ω))).length := by simp
      have hsome := List.getElem?_eq_getElem (l := p.actions x0 ((List.range (k + 1)).map (fun i => (states i ω, xi i ω)))) (i := k)
        (by rw [hl]; exact hk)
      have := ha k hk _ hsome j
      rw [List.getD_eq_getElem?_getD, hsome, Option.getD_some, this]
      simp only [List.getElem_map, List.getElem_range, Function.comp]
      rw [add_sub_cancel_left, ← hr, mul_sum]
      congr 1
      refine sum_congr rfl (fun i hi => ?_)
      have hi' := mem_range.1 hi
      rw [List.getD_eq_getElem?_getD, List.getElem?_map, List.getElem?_map, List.getElem?_range hi']
      simp only [Option.map_some, Option.getD_some]
      ring
    rw [e, ← Measure.map_map (measurable_const_add _) (by
      refine Finset.measurable_fun_sum _ (fun i _ => ?_)
      exact (hx i).const_mul _), hs, gaussianReal_map_const_add, zero_add]

/-- The noise of long episodes: mean and variance of `C101_ou_law` tend to those of the stationary process, if the step is small enough. -/
theorem C101_ou_stationary {S : Type} {n : ℕ} (p : OU S n) (hdt : 0 < p.dt) (hth : 0 < p.theta) (hst : p.theta * p.dt < 2) (x0 : Vec n)
    (j : Fin n) :
    Filter.Tendsto (fun k : ℕ => (1 - p.theta * p.dt) ^ (k + 1) * x0 j) Filter.atTop (nhds 0) ∧
    Filter.Tendsto (fun k : ℕ => p.sigma j ^ 2 * p.dt * ∑ i ∈ range (k + 1), ((1 - p.theta * p.dt) ^ 2) ^ i) Filter.atTop
      (nhds (p.sigma j ^ 2 / (p.theta * (2 - p.theta * p.dt)))) := by
  have hpos : 0 < p.theta * p.dt := mul_pos hth hdt
  have hr : |1 - p.theta * p.dt| < 1 := by rw [abs_lt]; constructor <;> linarith
  have hr2 : (1 - p.theta * p.dt) ^ 2 < 1 := by
    have := abs_lt.1 hr
    nlinarith
  constructor
  · have := ((tendsto_pow_atTop_nhds_zero_of_abs_lt_one hr).comp (Filter.tendsto_add_atTop_nat 1)).mul_const (x0 j)
    simpa using this
  · have h := (hasSum_geometric_of_lt_one (sq_nonneg (1 - p.theta * p.dt)) hr2).tendsto_sum_nat
    have h2 := (h.comp (Filter.tendsto_add_atTop_nat 1)).const_mul (p.sigma j ^ 2 * p.dt)
    have e : p.sigma j ^ 2 / (p.theta * (2 - p.theta * p.dt)) = p.sigma j ^ 2 * p.dt * (1 - (1 - p.theta * p.dt) ^ 2)⁻¹ := by
      have h3 : 1 - (1 - p.theta * p.dt) ^ 2 = p.dt * (p.theta * (2 - p.theta * p.dt)) := by ring
      rw [h3]
      have : p.theta * (2 - p.theta * p.dt) ≠ 0 := (mul_pos hth (by linarith)).ne'
      field_simp
    rw [e]
    exact h2

/-- Standard normal numbers, as many as needed. -/
noncomputable def normals : Measure (ℕ → ℝ) := Measure.infinitePi (fun _ => gaussianReal 0 1)

instance : IsProbabilityMeasure normals := by unfold normals; infer_instance

/-- The hypotheses are met: states that depend on the noise, and the usual constants. -/
example : ∃ (p : OU ℝ 1) (states : ℕ → (ℕ → ℝ) → ℝ) (xi : ℕ → (ℕ → ℝ) → Vec 1), 0 < p.dt ∧ 0 < p.theta ∧ p.theta * p.dt < 2 ∧
    (∀ i, Measurable (fun ω => xi i ω 0)) ∧ (∀ i, normals.map (fun ω => xi i ω 0) = gaussianReal 0 1) ∧
    iIndepFun (fun i ω => xi i ω 0) normals :=
  ⟨⟨fun _ _ => 0, fun _ => 2 / 10, 15 / 100, 1 / 100, none⟩, fun i ω => ω i, fun i ω _ => ω i, by norm_num, by norm_num, by norm_num,
    fun i => measurable_pi_apply i, fun i => Measure.infinitePi_map_eval (fun _ => gaussianReal 0 1) i,
    iIndepFun_infinitePi (X := fun _ x => x) (fun _ => measurable_id)⟩

/-- C101: the law of one component of an action of `ClippedGaussianPolicy`: the normal law of the sample `mu + L xi`, whose variance is the
diagonal entry of `L Lᵀ`, with all the mass outside the range moved to the bounds. -/
theorem C101_clipped_law {S : Type} {n : ℕ} (p : ClippedGaussian S n) (h : ∀ j, p.low j ≤ p.high j) (s : S) (xi : Ω → Vec n) (j : Fin n)
    (hx : ∀ i, Measurable (fun ω => xi ω i)) (hlaw : ∀ i, P.map (fun ω => xi ω i) = gaussianReal 0 1)
    (hind : iIndepFun (fun i ω => xi ω i) P) :
    ∃ v : ℝ≥0, (v : ℝ) = (p.cholSigma * p.cholSigma.transpose) j j ∧ ∀ T : Set ℝ, MeasurableSet T →
      P {ω | p.drawAction s (xi ω) j ∈ T} =
        gaussianReal (p.mu s j) v (T ∩ Set.Ioo (p.low j) (p.high j)) +
        gaussianReal (p.mu s j) v {y | y ≤ p.low j ∧ p.low j ∈ T ∨ p.high j ≤ y ∧ p.low j < y ∧ p.high j ∈ T} := by
  obtain ⟨v, hv, hs⟩ : ∃ v : ℝ≥0, (v : ℝ) = (p.cholSigma * p.cholSigma.transpose) j j ∧
      P.map (fun ω => ∑ i, p.cholSigma j i * xi ω i) = gaussianReal 0 v := by
    have key : ∀ s : Finset (Fin n), ∃ v : ℝ≥0, (v : ℝ) = ∑ i ∈ s, p.cholSigma j i ^ 2 ∧
        P.map (fun ω => ∑ i ∈ s, p.cholSigma j i * xi ω i) = gaussianReal 0 v := by
      intro s
      induction s using Finset.induction_on with
      | empty =>
        refine ⟨0, by simp, ?_⟩
        simp only [sum_empty, gaussianReal_zero_var]
        rw [Measure.map_const, measure_univ, one_smul]
      | insert a s ha ih =>
        obtain ⟨v, hv, hs⟩ := ih
        refine ⟨.mk (p.cholSigma j a ^ 2) (sq_nonneg _) * 1 + v, by rw [sum_insert ha, ← hv]; simp, ?_⟩
        have hi : IndepFun (fun ω => p.cholSigma j a * xi ω a) (fun ω => ∑ i ∈ s, p.cholSigma j i * xi ω i) P := by
          have h1 : iIndepFun (fun i ω => p.cholSigma j i * xi ω i) P :=
            hind.comp (fun i y => p.cholSigma j i * y) (fun i => measurable_const_mul _)
          have h2 := (h1.indepFun_finsetSum_of_notMem (fun i => (hx i).const_mul _) ha).symm
          have e : (∑ i ∈ s, fun ω => p.cholSigma j i * xi ω i) = fun ω => ∑ i ∈ s, p.cholSigma j i * xi ω i := by
            funext ω; rw [Finset.sum_apply]
          rw [e] at h2
          exact h2
        have := gaussianReal_add_gaussianReal_of_indepFun hi (scaled_normal (hx a) (hlaw a) _) hs
        rw [mul_zero, add_zero] at this
        rw [← this]
        congr 1
        funext ω
        rw [sum_insert ha, Pi.add_apply]
    obtain ⟨v, hv, hs⟩ := key univ
    refine ⟨v, ?_, hs⟩
    rw [hv, Matrix.mul_apply]
    exact sum_congr rfl (fun i _ => by rw [Matrix.transpose_apply, sq])
  refine ⟨v, hv, fun T hT => ?_⟩
  have hmeas : Measurable (fun ω => ∑ i, p.cholSigma j i * xi ω i) := Finset.measurable_fun_sum _ (fun i _ => (hx i).const_mul _)
  have hraw : P.map (fun ω => p.mu s j + ∑ i, p.cholSigma j i * xi ω i) = gaussianReal (p.mu s j) v := by
    have e : (fun ω => p.mu s j + ∑ i, p.cholSigma j i * xi ω i) = (fun y => p.mu s j + y) ∘ fun ω => ∑ i, p.cholSigma j i * xi ω i := rfl
    rw [e, ← Measure.map_map (measurable_const_add _) hmeas, hs, gaussianReal_map_const_add, zero_add]
  have hclip : Measurable (fun y => clip y (p.low j) (p.high j)) := by
    unfold clip
    exact (measurable_id.max measurable_const).min measurable_const
  have e1 : P {ω | p.drawAction s (xi ω) j ∈ T} = gaussianReal (p.mu s j) v {y | clip y (p.low j) (p.high j) ∈ T} := by
    have hm : Measurable (fun ω => p.mu s j + ∑ i, p.cholSigma j i * xi ω i) := hmeas.const_add _
    rw [← hraw]
    exact (Measure.map_apply hm (hclip hT)).symm
  have e2 : {y | clip y (p.low j) (p.high j) ∈ T} = (T ∩ Set.Ioo (p.low j) (p.high j)) ∪
      {y | y ≤ p.low j ∧ p.low j ∈ T ∨ p.high j ≤ y ∧ p.low j < y ∧ p.high j ∈ T} := by
    have hj := h j
    ext y
    simp only [Set.mem_setOf_eq, Set.mem_union, Set.mem_inter_iff, Set.mem_Ioo]
    rcases le_or_gt y (p.low j) with h1 | h1
    · have : clip y (p.low j) (p.high j) = p.low j := by rw [clip, max_eq_right h1, min_eq_left hj]
      rw [this]
      constructor
      · intro hT; exact Or.inr (Or.inl ⟨h1, hT⟩)
      · rintro (⟨-, h2, -⟩ | ⟨-, hT⟩ | ⟨-, h2, -⟩)
        · linarith
        · exact hT
        · linarith
    · rcases lt_or_ge y (p.high j) with h2 | h2
      · have : clip y (p.low j) (p.high j) = y := by rw [clip, max_eq_left h1.le, min_eq_left h2.le]
        rw [this]
        constructor
        · intro hT; exact Or.inl ⟨hT, h1, h2⟩
        · rintro (⟨hT, -⟩ | ⟨h3, -⟩ | ⟨h3, -⟩)
          · exact hT
          · linarith
          · linarith
      · have : clip y (p.low j) (p.high j) = p.high j := by rw [clip, max_eq_left h1.le, min_eq_right h2]
        rw [this]
        constructor
        · intro hT; exact Or.inr (Or.inr ⟨h2, h1, hT⟩)
        · rintro (⟨-, -, h3⟩ | ⟨h3, -⟩ | ⟨-, -, hT⟩)
          · linarith
          · linarith
          · exact hT
  have hTm : MeasurableSet (T ∩ Set.Ioo (p.low j) (p.high j)) := hT.inter measurableSet_Ioo
  rw [e1, e2, measure_union' ?_ hTm]
  rw [Set.disjoint_left]
  rintro y ⟨-, h1, h2⟩ h3
  rcases h3 with ⟨h3, -⟩ | ⟨h3, -⟩
  · exact absurd h1 (by simpa using h3)
  · exact absurd h2 (by simpa using h3)

example : ∃ (p : ClippedGaussian ℕ 2) (xi : (ℕ → ℝ) → Vec 2), (∀ j, p.low j ≤ p.high j) ∧ (∀ i, Measurable (fun ω => xi ω i)) ∧
    (∀ i, normals.map (fun ω => xi ω i) = gaussianReal 0 1) ∧ iIndepFun (fun (i : Fin 2) ω => xi ω i) normals :=
  ⟨⟨fun _ _ => 0, 1, fun _ => -1, fun _ => 1⟩, fun ω i => ω i, fun _ => by norm_num, fun i => measurable_pi_apply _,
    fun i => Measure.infinitePi_map_eval (fun _ => gaussianReal 0 1) _,
    (iIndepFun_infinitePi (X := fun (_ : ℕ) x => x) (fun _ => measurable_id)).precomp (g := fun i : Fin 2 => (i : ℕ)) Fin.val_injective⟩

end Verif.Explore
