/-
Lemmas for C180: averages with weights that change with the number of episodes.
-/
import Verif.Search.PropsRwrChol
import Verif.Search.SpecReps

namespace Verif.Search.Pgpe

open Matrix MeasureTheory ProbabilityTheory Filter Topology

variable {n : ℕ}

theorem abs_average_le (k : ℕ) (u v : ℕ → ℝ) (h : ∀ i, |u i| ≤ v i) :
    |average (List.range k) u| ≤ average (List.range k) v := by
  have : |((List.range k).map u).sum| ≤ ((List.range k).map v).sum := by
    induction List.range k with
    | nil => simp
    | cons a l ih =>
      simp only [List.map_cons, List.sum_cons]
      exact (abs_add_le _ _).trans (add_le_add (h a) ih)
  unfold average
  rw [abs_div, abs_of_nonneg (a := ((List.range k).length : ℝ)) (by positivity)]
  gcongr

theorem average_const_mul (k : ℕ) (c : ℝ) (u : ℕ → ℝ) :
    average (List.range k) (fun i => c * u i) = c * average (List.range k) u := by
  have := average_sub_mul (List.range k) (fun _ => 0) u (-c)
  simp only [zero_sub, neg_mul, neg_neg] at this
  rw [this]
  simp [average]

/-- The weights for a converging sequence of multipliers give the same limits as those for its limit. -/
theorem drift (x y : ℕ → ℝ) (B K : ℝ) (hx : ∀ i, |x i| ≤ B) (hy : ∀ k, average (List.range k) (fun i => |y i|) ≤ K) (b : ℕ → ℝ) (b' : ℝ)
    (hb : Tendsto b atTop (𝓝 b')) (L : ℝ)
    (hL : Tendsto (fun k => average (List.range k) (fun i => y i * Real.exp (b' * x i))) atTop (𝓝 L)) :
    Tendsto (fun k => average (List.range k) (fun i => y i * Real.exp (b k * x i))) atTop (𝓝 L) := by
  have hB : 0 ≤ B := (abs_nonneg _).trans (hx 0)
  have hz : Tendsto (fun k => average (List.range k) (fun i => y i * Real.exp (b k * x i) - 1 * (y i * Real.exp (b' * x i)))) atTop (𝓝 0) := by
    have h0 : Tendsto (fun k => Real.exp (|b'| * B) * (Real.exp (|b k - b'| * B) - 1) * K) atTop (𝓝 0) := by
      have h1 : Tendsto (fun k => |b k - b'| * B) atTop (𝓝 0) := by
        have := ((hb.sub_const b').abs).mul_const B
        simpa using this
      have h2 := (((Real.continuous_exp.tendsto _).comp h1).sub_const 1).const_mul (Real.exp (|b'| * B)) |>.mul_const K
      simpa using h2
    refine squeeze_zero_norm (fun k => ?_) h0
    have hnn : 0 ≤ Real.exp (|b'| * B) * (Real.exp (|b k - b'| * B) - 1) :=
      mul_nonneg (Real.exp_pos _).le (sub_nonneg.2 (Real.one_le_exp (by positivity)))
    refine (abs_average_le k _ (fun i => Real.exp (|b'| * B) * (Real.exp (|b k - b'| * B) - 1) * |y i|) fun i => ?_).trans ?_
    · have e : y i * Real.exp (b k * x i) - 1 * (y i * Real.exp (b' * x i)) =
          Real.exp (b' * x i) * (Real.exp ((b k - b') * x i) - 1) * y i := by
        have : Real.exp (b k * x i) = Real.exp (b' * x i) * Real.exp ((b k - b') * x i) := by
          rw [← Real.exp_add]; congr 1; ring
        rw [this]; ring
      rw [e, abs_mul, abs_mul, abs_of_pos (Real.exp_pos _)]
      have h1 : Real.exp (b' * x i) ≤ Real.exp (|b'| * B) := by
        refine Real.exp_le_exp.2 ((le_abs_self _).trans ?_)
        rw [abs_mul]
        exact mul_le_mul_of_nonneg_left (hx i) (abs_nonneg _)
      have h2 : |Real.exp ((b k - b') * x i) - 1| ≤ Real.exp (|b k - b'| * B) - 1 := by
        have h3 : |(b k - b') * x i| ≤ |b k - b'| * B := by
          rw [abs_mul]
          exact mul_le_mul_of_nonneg_left (hx i) (abs_nonneg _)
        have h4 : Real.exp ((b k - b') * x i) ≤ Real.exp (|b k - b'| * B) := Real.exp_le_exp.2 ((le_abs_self _).trans h3)
        have h5 : (b k - b') * x i + 1 ≤ Real.exp ((b k - b') * x i) := Real.add_one_le_exp _
        have h6 : |b k - b'| * B + 1 ≤ Real.exp (|b k - b'| * B) := Real.add_one_le_exp _
        have h7 := neg_abs_le ((b k - b') * x i)
        rw [abs_le]
        constructor <;> linarith
      exact mul_le_mul_of_nonneg_right (mul_le_mul h1 h2 (abs_nonneg _) (Real.exp_pos _).le) (abs_nonneg _)
    · rw [average_const_mul]
      exact mul_le_mul_of_nonneg_left (hy k) hnn
  have := hz.add hL
  simp only [zero_add] at this
  refine this.congr fun k => ?_
  rw [average_sub_mul]
  ring

/-- The fits along one run, for weights that depend on the number of episodes. -/
theorem path_limit (t : ℕ → Vec n) (w : ℕ → ℕ → ℝ) (Z Q : ℝ) (hZ : Z ≠ 0) (μ : Vec n) (S : Matrix (Fin n) (Fin n) ℝ)
    (h1 : Tendsto (fun k => average (List.range k) (w k)) atTop (𝓝 Z))
    (h0 : Tendsto (fun k => average (List.range k) (fun i => w k i * w k i)) atTop (𝓝 Q))
    (hm : ∀ j, Tendsto (fun k => average (List.range k) (fun i => t i j * w k i)) atTop (𝓝 (μ j * Z)))
    (hc : ∀ a b, Tendsto (fun k => average (List.range k) (fun i => t i a * t i b * w k i)) atTop (𝓝 ((S a b + μ a * μ b) * Z))) :
    (∀ j, Tendsto (fun k => wmean (sample (fun i (_ : Unit) => t i) (fun i _ => w k i) k ()) j) atTop (𝓝 (μ j))) ∧
    ∀ a b, Tendsto (fun k => wcov (sample (fun i (_ : Unit) => t i) (fun i _ => w k i) k ()) a b) atTop (𝓝 (S a b)) := by
  have hmean : ∀ j, Tendsto (fun k => wmean (sample (fun i (_ : Unit) => t i) (fun i _ => w k i) k ()) j) atTop (𝓝 (μ j)) := by
    intro j
    have := (hm j).div h1 hZ
    rw [mul_div_cancel_right₀ _ hZ] at this
    refine this.congr' ?_
    filter_upwards [eventually_gt_atTop 0] with k hk
    have : (k : ℝ) ≠ 0 := by exact_mod_cast hk.ne'
    simp only [wmean, sumD, sum_sample]
    rw [mul_div_mul_left _ _ this]
    show average _ _ / average _ _ = _
    congr 2
    funext i
    ring
  refine ⟨hmean, fun a b => ?_⟩
  have hk : Tendsto (fun k : ℕ => (k : ℝ)⁻¹) atTop (𝓝 0) := tendsto_inv_atTop_nhds_zero_nat
  have num := (((hc a b).sub ((hmean b).mul (hm a))).sub ((hmean a).mul (hm b))).add (((hmean a).mul (hmean b)).mul h1)
  have den := h1.sub ((hk.mul h0).div h1 hZ)
  have lim := num.div den (by simpa using hZ)
  have hv : ((S a b + μ a * μ b) * Z - μ b * (μ a * Z) - μ a * (μ b * Z) + μ a * μ b * Z) / (Z - 0 * Q / Z) = S a b := by
    field_simp
    ring
  rw [hv] at lim
  refine lim.congr' ?_
  filter_upwards [eventually_gt_atTop 0] with k hk
  have hk0 : (k : ℝ) ≠ 0 := by exact_mod_cast hk.ne'
  unfold wcov
  set l := sample (fun i (_ : Unit) => t i) (fun i _ => w k i) k () with hl
  set c := wmean l a
  set d := wmean l b
  have e1 : (l.map (fun p => p.1 * (p.2 a - c) * (p.2 b - d))).sum =
      k * (average (List.range k) (fun i => t i a * t i b * w k i) - d * average (List.range k) (fun i => t i a * w k i) -
        c * average (List.range k) (fun i => t i b * w k i) + c * d * average (List.range k) (w k)) := by
    have ew : average (List.range k) (w k) = average (List.range k) (fun i => w k i) := rfl
    rw [hl, sum_sample, ← average_sub_mul, ← average_sub_mul, ← sub_neg_eq_add, ← neg_mul, ew, ← average_sub_mul]
    congr 2
    funext i
    ring
  have e2 : zOf l = k * (average (List.range k) (w k) -
      (k : ℝ)⁻¹ * average (List.range k) (fun i => w k i * w k i) / average (List.range k) (w k)) := by
    simp only [hl, zOf, sumD, sumD2, sum_sample]
    rw [mul_sub, mul_div_mul_left _ _ hk0]
    congr 1
    rw [← mul_div_assoc, ← mul_assoc, mul_inv_cancel₀ hk0, one_mul]
    congr 2
    funext i
    ring
  rw [e1, e2, mul_div_mul_left _ _ hk0]
  rfl

/-- The derivative of the dual function without the shift by the largest return. -/
theorem repsDiff_eq (eps : ℝ) (x : ℕ → ℝ) (k : ℕ) (hk : 0 < k) (eta : ℝ) (he : 0 < eta) :
    repsDiff eps ((List.range k).map x) eta = eps + Real.log (average (List.range k) (fun i => Real.exp (eta⁻¹ * x i))) -
      average (List.range k) (fun i => x i * Real.exp (eta⁻¹ * x i)) / (eta * average (List.range k) (fun i => Real.exp (eta⁻¹ * x i))) := by
  set M := maxJ ((List.range k).map x) with hM
  set A := average (List.range k) (fun i => Real.exp (eta⁻¹ * x i)) with hA
  set D := average (List.range k) (fun i => x i * Real.exp (eta⁻¹ * x i)) with hD
  have hApos : 0 < A := by
    rw [hA]
    unfold average
    refine div_pos (List.sum_pos _ ?_ (by simp; omega)) (by simpa using hk)
    intro y hy
    obtain ⟨i, _, rfl⟩ := List.mem_map.1 hy
    exact Real.exp_pos _
  have hav : ∀ F : ℝ → ℝ, avg (((List.range k).map x).map F) = average (List.range k) (fun i => F (x i)) := by
    intro F
    simp [avg, average, Function.comp_def]
  have hw : ∀ i, Real.exp ((x i - M) / eta) = Real.exp (-(M / eta)) * Real.exp (eta⁻¹ * x i) := by
    intro i
    rw [← Real.exp_add]
    congr 1
    field_simp
    ring
  have e1 : avg (((List.range k).map x).map (fun y => Real.exp ((y - M) / eta))) = Real.exp (-(M / eta)) * A := by
    rw [hav]
    simp only [hw]
    rw [average_const_mul]
  have e2 : avg (((List.range k).map x).map (fun y => Real.exp ((y - M) / eta) * (y - M))) = Real.exp (-(M / eta)) * (D - M * A) := by
    rw [hav]
    simp only [hw]
    rw [hD, hA, ← average_sub_mul, ← average_const_mul]
    congr 1
    funext i
    ring
  unfold repsDiff
  simp only
  rw [← hM, e1, e2, Real.log_mul (Real.exp_pos _).ne' hApos.ne', Real.log_exp]
  have h1 := (Real.exp_pos (-(M / eta))).ne'
  have h2 := hApos.ne'
  have h3 := he.ne'
  field_simp
  ring

section Gibbs

variable {Ω : Type} [MeasurableSpace Ω] {Pr : Measure Ω} [IsProbabilityMeasure Pr] {m : Vec n} {s : Matrix (Fin n) (Fin n) ℝ}
  {f : Vec n → ℝ} {C : ℝ} {θ : ℕ → Ω → Vec n} {W : ℕ → Ω → ℝ}

/-- The gain in the log-likelihood is at most the divergence of the weighted law from the law of the episodes. -/
theorem Rounds.gibbs (h : Rounds Pr m s f C θ W) (hW : ∀ ω, 0 < W 0 ω) (hs : s.PosDef) (m' : Vec n) (s' : Matrix (Fin n) (Fin n) ℝ)
    (hs' : s'.PosDef) (a : ℝ)
    (ha : ∫ ω, (logPdf (θ 0 ω) m' s' - logPdf (θ 0 ω) m s) * W 0 ω ∂Pr = a * ∫ ω, W 0 ω ∂Pr)
    (hi : Integrable (fun ω => Real.log (W 0 ω) * W 0 ω) Pr) :
    a ≤ (∫ ω, Real.log (W 0 ω) * W 0 ω ∂Pr) / (∫ ω, W 0 ω ∂Pr) - Real.log (∫ ω, W 0 ω ∂Pr) := by
  have hl : HasExpect m s (fun x => logPdf x m' s' - logPdf x m s) := by
    have h1 := (normal_log m m' s s' hs).1
    have h2 := (mean_mul m s (-1) _ (normal_log m m s s hs).1).1
    have h3 := (mean_add m s _ _ h1 h2).1
    refine h3.congr (ae_of_all _ fun x => by simp only; ring)
  have hee : ∀ x : Vec n, Real.exp (logPdf x m s) * Real.exp (logPdf x m' s' - logPdf x m s) = Real.exp (logPdf x m' s') * 1 := by
    intro x
    rw [mul_one, ← Real.exp_add]
    congr 1
    ring
  have he : HasExpect m s (fun x => Real.exp (logPdf x m' s' - logPdf x m s)) :=
    (normal_one m' s' hs' 1).1.congr (ae_of_all _ fun x => (hee x).symm)
  have hone : mean m s (fun x => Real.exp (logPdf x m' s' - logPdf x m s)) = 1 := by
    rw [← (normal_one m' s' hs' 1).2]
    unfold mean
    exact integral_congr_ae (ae_of_all _ fun x => hee x)
  have hml : Measurable (fun x => logPdf x m' s' - logPdf x m s) := (measurable_logPdf' m' s').sub (measurable_logPdf' m s)
  obtain ⟨_, i1, _, _⟩ := h.integral_mul _ hml hl
  obtain ⟨i2, _, e2, _⟩ := h.integral_mul _ hml.exp he
  rw [hone] at e2
  have i3 := h.integrable_return 0
  have hZ := h.total_pos hW
  set Z := ∫ ω, W 0 ω ∂Pr with hZd
  have iA : Integrable (fun ω => (logPdf (θ 0 ω) m' s' - logPdf (θ 0 ω) m s) * W 0 ω - Real.log (W 0 ω) * W 0 ω) Pr := i1.sub hi
  have iB : Integrable (fun ω => ((logPdf (θ 0 ω) m' s' - logPdf (θ 0 ω) m s) * W 0 ω - Real.log (W 0 ω) * W 0 ω) +
      (Real.log Z + 1) * W 0 ω) Pr := iA.add (i3.const_mul _)
  have key := integral_mono iB (i2.const_mul Z) fun ω => by
    simp only
    set l := logPdf (θ 0 ω) m' s' - logPdf (θ 0 ω) m s
    have hw := hW ω
    have h1 : l - Real.log (W 0 ω / Z) + 1 ≤ Real.exp (l - Real.log (W 0 ω / Z)) := Real.add_one_le_exp _
    rw [Real.exp_sub, Real.exp_log (div_pos hw hZ), Real.log_div hw.ne' hZ.ne'] at h1
    have h2 : Real.exp l / (W 0 ω / Z) * W 0 ω = Z * Real.exp l := by field_simp
    have h3 := mul_le_mul_of_nonneg_right h1 hw.le
    rw [h2] at h3
    linarith
  rw [integral_add iA (i3.const_mul _), integral_sub i1 hi, integral_const_mul, integral_const_mul, ha, e2, ← hZd] at key
  rw [← sub_nonneg]
  have h4 : (∫ ω, Real.log (W 0 ω) * W 0 ω ∂Pr) / Z - Real.log Z - a = ((∫ ω, Real.log (W 0 ω) * W 0 ω ∂Pr) - Z * Real.log Z - a * Z) / Z := by
    field_simp
  rw [h4]
  exact div_nonneg (by linarith) hZ.le

end Gibbs

end Verif.Search.Pgpe
