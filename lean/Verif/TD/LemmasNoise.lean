/-
Probabilistic part of the convergence of tabular stochastic approximation: a sum of centred increments with summable
squares converges almost surely, and with it the tables.
-/
import Verif.TD.LemmasAverage
import Mathlib.Probability.Martingale.Convergence
import Mathlib.MeasureTheory.Function.ConditionalExpectation.PullOut

namespace Verif.TD

open Filter Topology MeasureTheory

variable {Ω : Type} [mΩ : MeasurableSpace Ω] {μ : Measure Ω} [IsProbabilityMeasure μ] {ℱ : Filtration ℕ mΩ}

theorem integrable_of_le {f : Ω → ℝ} (hf : StronglyMeasurable f) (K : ℝ) (hK : ∀ ω, |f ω| ≤ K) : Integrable f μ :=
  Integrable.of_bound hf.aestronglyMeasurable K (Eventually.of_forall (fun ω => by simpa using hK ω))

/-- Centred increments, each known one step later, with bounded sum of squares: their sum converges almost surely. -/
theorem noise_sum_converges {d : ℕ → Ω → ℝ} {C : ℝ} (hm : ∀ n, StronglyMeasurable[ℱ (n + 1)] (d n))
    (hc : ∀ n, μ[d n | ℱ n] =ᵐ[μ] 0) (hC : ∀ N ω, ∑ k ∈ Finset.range N, (d k ω) ^ 2 ≤ C) :
    ∀ᵐ ω ∂μ, ∃ l, Tendsto (fun n => ∑ k ∈ Finset.range n, d k ω) atTop (𝓝 l) := by
  have hdm : ∀ n, StronglyMeasurable (d n) := fun n => (hm n).mono (ℱ.le _)
  have hK : ∀ n ω, |d n ω| ≤ Real.sqrt C := by
    intro n ω
    apply Real.abs_le_sqrt
    refine le_trans ?_ (hC (n + 1) ω)
    rw [Finset.sum_range_succ]
    have := Finset.sum_nonneg (fun k (_ : k ∈ Finset.range n) => sq_nonneg (d k ω))
    linarith
  set M : ℕ → Ω → ℝ := fun n ω => ∑ k ∈ Finset.range n, d k ω with hM
  have hMn : ∀ n, StronglyMeasurable[ℱ n] (M n) := by
    intro n
    refine Finset.stronglyMeasurable_fun_sum _ (fun k hk => ?_)
    exact (hm k).mono (ℱ.mono (by have := Finset.mem_range.1 hk; omega))
  have hMm : ∀ n, StronglyMeasurable (M n) := fun n => (hMn n).mono (ℱ.le _)
  have hMK : ∀ n ω, |M n ω| ≤ n * Real.sqrt C := by
    intro n ω
    refine (Finset.abs_sum_le_sum_abs _ _).trans ?_
    refine (Finset.sum_le_sum (fun k _ => hK k ω)).trans ?_
    simp
  have hMi : ∀ n, Integrable (M n) μ := fun n => integrable_of_le (hMm n) _ (hMK n)
  have hdi : ∀ n, Integrable (d n) μ := fun n => integrable_of_le (hdm n) _ (hK n)
  have hmart : Martingale M ℱ μ := by
    refine martingale_of_condExp_sub_eq_zero_nat hMn hMi (fun n => ?_)
    have : M (n + 1) - M n = d n := by
      funext ω; simp [hM, Finset.sum_range_succ]
    rw [this]; exact hc n
  have hMd : ∀ n, Integrable (M n * d n) μ := fun n =>
    integrable_of_le ((hMm n).mul (hdm n)) (n * Real.sqrt C * Real.sqrt C) (fun ω => by
      rw [Pi.mul_apply, abs_mul]
      exact mul_le_mul (hMK n ω) (hK n ω) (abs_nonneg _) (by positivity))
  have hMd0 : ∀ n, ∫ ω, M n ω * d n ω ∂μ = 0 := by
    intro n
    have h1 := condExp_mul_of_stronglyMeasurable_left (hMn n) (hMd n) (hdi n)
    have h2 : ∫ ω, (M n * d n) ω ∂μ = ∫ ω, (μ[M n * d n | ℱ n]) ω ∂μ := (integral_condExp (ℱ.le n)).symm
    have h3 : μ[M n * d n | ℱ n] =ᵐ[μ] 0 := by
      filter_upwards [h1, hc n] with ω h h'
      rw [h, Pi.mul_apply, h']; simp
    calc _ = ∫ ω, (M n * d n) ω ∂μ := rfl
      _ = _ := h2
      _ = 0 := by rw [integral_congr_ae h3]; simp
  have hsq : ∀ n, Integrable (fun ω => M n ω ^ 2) μ := fun n =>
    integrable_of_le ((hMm n).pow 2) ((n * Real.sqrt C) ^ 2) (fun ω => by
      rw [abs_of_nonneg (sq_nonneg _), ← sq_abs (M n ω)]
      exact pow_le_pow_left₀ (abs_nonneg _) (hMK n ω) 2)
  have hdsq : ∀ n, Integrable (fun ω => d n ω ^ 2) μ := fun n =>
    integrable_of_le ((hdm n).pow 2) (Real.sqrt C ^ 2) (fun ω => by
      rw [abs_of_nonneg (sq_nonneg _), ← sq_abs (d n ω)]
      exact pow_le_pow_left₀ (abs_nonneg _) (hK n ω) 2)
  have hM2 : ∀ n, ∫ ω, M n ω ^ 2 ∂μ = ∫ ω, ∑ k ∈ Finset.range n, d k ω ^ 2 ∂μ := by
    intro n
    induction n with
    | zero => simp [hM]
    | succ n ih =>
      have e : ∀ ω, M (n + 1) ω ^ 2 = M n ω ^ 2 + 2 * (M n ω * d n ω) + d n ω ^ 2 := by
        intro ω; simp only [hM, Finset.sum_range_succ]; ring
      have i1 : Integrable (fun ω => 2 * (M n ω * d n ω)) μ := (hMd n).const_mul 2
      have i2 : Integrable (fun ω => M n ω ^ 2 + 2 * (M n ω * d n ω)) μ := (hsq n).add i1
      have i3 : Integrable (fun ω => ∑ k ∈ Finset.range n, d k ω ^ 2) μ := integrable_finsetSum _ (fun k _ => hdsq k)
      simp only [e, Finset.sum_range_succ]
      rw [integral_add i2 (hdsq n), integral_add (hsq n) i1, integral_const_mul, hMd0 n, ih, integral_add i3 (hdsq n)]
      ring
  have hM2C : ∀ n, ∫ ω, M n ω ^ 2 ∂μ ≤ C := by
    intro n
    rw [hM2]
    have i3 : Integrable (fun ω => ∑ k ∈ Finset.range n, d k ω ^ 2) μ := integrable_finsetSum _ (fun k _ => hdsq k)
    refine (integral_mono i3 (integrable_const C) (fun ω => hC n ω)).trans ?_
    simp
  refine hmart.submartingale.exists_ae_tendsto_of_bdd (R := Real.toNNReal ((1 + C) / 2)) (fun n => ?_)
  rw [eLpNorm_one_eq_lintegral_enorm, ← ofReal_integral_norm_eq_lintegral_enorm (hMi n)]
  refine ENNReal.ofReal_le_ofReal ?_
  have i4 : Integrable (fun ω => (1 + M n ω ^ 2) / 2) μ := ((integrable_const 1).add (hsq n)).div_const 2
  refine (integral_mono (hMi n).norm i4 (fun ω => ?_)).trans ?_
  · have := sq_nonneg (|M n ω| - 1)
    have h2 := sq_abs (M n ω)
    show |M n ω| ≤ (1 + M n ω ^ 2) / 2
    nlinarith
  · rw [integral_div, integral_add (integrable_const 1) (hsq n)]
    simp only [integral_const, probReal_univ, smul_eq_mul, one_mul]
    linarith [hM2C n]

variable {I Y : Type} [Fintype I] [DecidableEq I] [Fintype Y] [DecidableEq Y]

/-- A table `x` whose entry `i n` is moved with rate `a n` towards the random target `G (x n) (i n) (y n)`, where the outcome
`y n` has the probabilities `p (i n)` given the past: it converges almost surely to the fixed point of the
mean target in the entries `L`, which must all be updated often enough. -/
theorem table_converges {x : ℕ → Ω → I → ℝ} {x0 xs : I → ℝ} {G : (I → ℝ) → I → Y → ℝ} {p : I → Y → ℝ}
    {i : ℕ → Ω → I} {y : ℕ → Ω → Y} {a : ℕ → Ω → ℝ} {L : I → Prop} {γ B C : ℝ} (hγ0 : 0 ≤ γ) (hγ1 : γ < 1)
    (hi : ∀ n j, MeasurableSet[ℱ n] {ω | i n ω = j}) (hy : ∀ n o, MeasurableSet[ℱ (n + 1)] {ω | y n ω = o})
    (ha : ∀ n, StronglyMeasurable[ℱ n] (a n)) (h0 : ∀ n ω, 0 ≤ a n ω) (h1 : ∀ n ω, a n ω ≤ 1)
    (hp : ∀ n o, μ[Set.indicator {ω | y n ω = o} (fun _ => (1 : ℝ)) | ℱ n] =ᵐ[μ] fun ω => p (i n ω) o)
    (hp0 : ∀ j o, 0 ≤ p j o) (hp1 : ∀ j, ∑ o, p j o = 1)
    (hG : ∀ j o, Measurable (fun v => G v j o))
    (hB0 : ∀ j, |x0 j| ≤ B) (hGB : ∀ v, (∀ j, |v j| ≤ B) → ∀ j o, |G v j o| ≤ B)
    (hx0 : ∀ ω, x 0 ω = x0)
    (hx : ∀ n ω j, x (n + 1) ω j =
      if j = i n ω then x n ω j + a n ω * (G (x n ω) j (y n ω) - x n ω j) else x n ω j)
    (hF : ∀ (v : I → ℝ) (D : ℝ), 0 ≤ D → (∀ j, L j → |v j - xs j| ≤ D) → ∀ j, L j → |∑ o, p j o * G v j o - xs j| ≤ γ * D)
    (hC : ∀ j N ω, ∑ k ∈ Finset.range N, (if i k ω = j then a k ω else 0) ^ 2 ≤ C)
    (hdiv : ∀ᵐ ω ∂μ, ∀ j, L j → Tendsto (fun n => ∑ k ∈ Finset.range n, if i k ω = j then a k ω else 0) atTop atTop) :
    ∀ᵐ ω ∂μ, ∀ j, L j → Tendsto (fun n => x n ω j) atTop (𝓝 (xs j)) := by
  classical
  have hbound : ∀ n ω j, |x n ω j| ≤ B := by
    intro n ω
    induction n with
    | zero => rw [hx0]; exact hB0
    | succ n ih =>
      intro j
      rw [hx]
      split
      · have e : x n ω j + a n ω * (G (x n ω) j (y n ω) - x n ω j) =
          (1 - a n ω) * x n ω j + a n ω * G (x n ω) j (y n ω) := by ring
        rw [e]
        refine (abs_add_le _ _).trans ?_
        rw [abs_mul, abs_mul, abs_of_nonneg (h0 n ω), abs_of_nonneg (by linarith [h1 n ω] : 0 ≤ 1 - a n ω)]
        have h2 := mul_le_mul_of_nonneg_left (ih j) (by linarith [h1 n ω] : 0 ≤ 1 - a n ω)
        have h3 := mul_le_mul_of_nonneg_left (hGB _ ih j (y n ω)) (h0 n ω)
        linarith
      · exact ih j
  have hind : ∀ n j, Measurable[ℱ n] (fun ω => if i n ω = j then (1 : ℝ) else 0) := fun n j =>
    Measurable.ite (hi n j) measurable_const measurable_const
  have hindy : ∀ n o, Measurable[ℱ (n + 1)] (fun ω => if y n ω = o then (1 : ℝ) else 0) := fun n o =>
    Measurable.ite (hy n o) measurable_const measurable_const
  have hGsum : ∀ n ω j, G (x n ω) j (y n ω) = ∑ o, (if y n ω = o then (1 : ℝ) else 0) * G (x n ω) j o := by
    intro n ω j
    rw [Finset.sum_eq_single (y n ω)] <;> simp +contextual [eq_comm]
  have hxm : ∀ n j, Measurable[ℱ n] (fun ω => x n ω j) := by
    intro n
    induction n with
    | zero => intro j; simp only [hx0]; exact measurable_const
    | succ n ih =>
      intro j
      have hle : ℱ n ≤ ℱ (n + 1) := ℱ.mono (Nat.le_succ n)
      have hxall : Measurable[ℱ n] (fun ω => x n ω) := by
        refine @measurable_pi_lambda _ _ _ (ℱ n) _ _ (fun j => ih j)
      have e : (fun ω => x (n + 1) ω j) = fun ω => x n ω j + (if i n ω = j then (1 : ℝ) else 0) * (a n ω *
          ((∑ o, (if y n ω = o then (1 : ℝ) else 0) * G (x n ω) j o) - x n ω j)) := by
        funext ω
        rw [hx, ← hGsum]
        by_cases h : i n ω = j
        · simp [h]
        · rw [if_neg (fun h' => h h'.symm), if_neg h]; ring
      rw [e]
      have m1 : ∀ o, Measurable[ℱ (n + 1)] (fun ω => G (x n ω) j o) := fun o =>
        ((hG j o).comp hxall).mono hle le_rfl
      have m2 : Measurable[ℱ (n + 1)] (fun ω => ∑ o, (if y n ω = o then (1 : ℝ) else 0) * G (x n ω) j o) :=
        @Finset.measurable_fun_sum _ _ _ _ _ _ (ℱ (n + 1)) _ Finset.univ (fun o _ => (hindy n o).mul (m1 o))
      have m3 : Measurable[ℱ (n + 1)] (fun ω => x n ω j) := (ih j).mono hle le_rfl
      have m4 : Measurable[ℱ (n + 1)] (a n) := ((ha n).mono hle).measurable
      exact m3.add (((hind n j).mono hle le_rfl).mul (m4.mul (m2.sub m3)))
  have hFB : ∀ n ω j, |∑ o, p j o * G (x n ω) j o| ≤ B := by
    intro n ω j
    refine (Finset.abs_sum_le_sum_abs _ _).trans ?_
    calc _ ≤ ∑ o, p j o * B := Finset.sum_le_sum (fun o _ => by
          rw [abs_mul, abs_of_nonneg (hp0 j o)]
          exact mul_le_mul_of_nonneg_left (hGB _ (hbound n ω) j o) (hp0 j o))
      _ = B := by rw [← Finset.sum_mul, hp1, one_mul]
  set w : ℕ → Ω → ℝ := fun n ω => G (x n ω) (i n ω) (y n ω) - ∑ o, p (i n ω) o * G (x n ω) (i n ω) o with hw
  have hwB : ∀ n ω, |w n ω| ≤ 2 * B := by
    intro n ω
    have h2 := abs_sub (G (x n ω) (i n ω) (y n ω)) (∑ o, p (i n ω) o * G (x n ω) (i n ω) o)
    linarith [hGB _ (hbound n ω) (i n ω) (y n ω), hFB n ω (i n ω)]
  have hsum : ∀ j, ∀ᵐ ω ∂μ, ∃ l, Tendsto (fun n => ∑ k ∈ Finset.range n, if i k ω = j then a k ω * w k ω else 0) atTop (𝓝 l) := by
    intro j
    -- the part of the increment that is known before the outcome
    set c : ℕ → Y → Ω → ℝ := fun n o ω => (if i n ω = j then (1 : ℝ) else 0) * (a n ω * G (x n ω) j o) with hc
    have hcm : ∀ n o, Measurable[ℱ n] (c n o) := by
      intro n o
      have hxall : Measurable[ℱ n] (fun ω => x n ω) := by
        refine @measurable_pi_lambda _ _ _ (ℱ n) _ _ (fun j => hxm n j)
      exact (hind n j).mul ((ha n).measurable.mul ((hG j o).comp hxall))
    have hcB : ∀ n o ω, |c n o ω| ≤ B := by
      intro n o ω
      have hB' := hGB _ (hbound n ω) j o
      have hBn : 0 ≤ B := (abs_nonneg _).trans hB'
      simp only [hc]
      split
      · rw [one_mul, abs_mul, abs_of_nonneg (h0 n ω)]
        calc _ ≤ 1 * B := mul_le_mul (h1 n ω) hB' (abs_nonneg _) zero_le_one
          _ = B := one_mul B
      · simpa using hBn
    have hd : ∀ n ω, (if i n ω = j then a n ω * w n ω else 0) =
        ∑ o, c n o ω * ((if y n ω = o then (1 : ℝ) else 0) - p j o) := by
      intro n ω
      by_cases h : i n ω = j
      · simp only [h, if_true, hw, hc, one_mul]
        rw [hGsum, ← Finset.sum_sub_distrib, Finset.mul_sum]
        exact Finset.sum_congr rfl (fun o _ => by ring)
      · simp [h, hc]
    have hyi : ∀ n o, Integrable (fun ω => (if y n ω = o then (1 : ℝ) else 0)) μ := fun n o =>
      integrable_of_le (((hindy n o).mono (ℱ.le _) le_rfl).stronglyMeasurable) 1 (fun ω => by split <;> simp)
    have hypi : ∀ n o, Integrable (fun ω => (if y n ω = o then (1 : ℝ) else 0) - p j o) μ := fun n o =>
      (hyi n o).sub (integrable_const _)
    have hci : ∀ n o, Integrable (c n o * fun ω => (if y n ω = o then (1 : ℝ) else 0) - p j o) μ := fun n o =>
      (hypi n o).bdd_mul (((hcm n o).mono (ℱ.le _) le_rfl).stronglyMeasurable.aestronglyMeasurable)
        (Eventually.of_forall (fun ω => by simpa using hcB n o ω))
    refine noise_sum_converges (ℱ := ℱ) (C := (2 * B) ^ 2 * C) (d := fun n ω => if i n ω = j then a n ω * w n ω else 0) ?_ ?_ ?_
    · intro n
      have e : (fun ω => if i n ω = j then a n ω * w n ω else 0) =
        fun ω => ∑ o, c n o ω * ((if y n ω = o then (1 : ℝ) else 0) - p j o) := funext (hd n)
      rw [e]
      refine Measurable.stronglyMeasurable ?_
      exact @Finset.measurable_fun_sum _ _ _ _ _ _ (ℱ (n + 1)) _ Finset.univ (fun o _ =>
        ((hcm n o).mono (ℱ.mono (Nat.le_succ n)) le_rfl).mul ((hindy n o).sub measurable_const))
    · intro n
      have e : (fun ω => if i n ω = j then a n ω * w n ω else 0) =
        ∑ o, c n o * (fun ω => (if y n ω = o then (1 : ℝ) else 0) - p j o) := by
        funext ω; rw [hd]; simp
      rw [e]
      have hone : ∀ o, μ[c n o * (fun ω => (if y n ω = o then (1 : ℝ) else 0) - p j o) | ℱ n] =ᵐ[μ] 0 := by
        intro o
        have g1 := condExp_mul_of_stronglyMeasurable_left (hcm n o).stronglyMeasurable (hci n o) (hypi n o)
        have g2 : μ[(fun ω => (if y n ω = o then (1 : ℝ) else 0) - p j o) | ℱ n] =ᵐ[μ]
            μ[(fun ω => (if y n ω = o then (1 : ℝ) else 0)) | ℱ n] - μ[(fun _ => p j o) | ℱ n] :=
          condExp_sub (hyi n o) (integrable_const _) _
        have g3 : (fun ω => (if y n ω = o then (1 : ℝ) else 0)) = Set.indicator {ω | y n ω = o} (fun _ => (1 : ℝ)) := by
          funext ω; simp [Set.indicator]
        rw [g3] at g2
        filter_upwards [g1, g2, hp n o] with ω k1 k2 k3
        rw [k1, Pi.mul_apply]
        rw [k2, Pi.sub_apply, k3, condExp_const (ℱ.le n)]
        by_cases h : i n ω = j
        · simp [h]
        · simp [hc, h]
      have hall : ∀ᵐ ω ∂μ, ∀ o, (μ[c n o * (fun ω => (if y n ω = o then (1 : ℝ) else 0) - p j o) | ℱ n]) ω = 0 :=
        ae_all_iff.2 hone
      filter_upwards [condExp_finsetSum (s := Finset.univ) (fun o _ => hci n o) (ℱ n), hall] with ω k1 k2
      rw [k1, Finset.sum_apply]
      exact Finset.sum_eq_zero (fun o _ => k2 o)
    · intro N ω
      calc _ ≤ ∑ k ∈ Finset.range N, (2 * B) ^ 2 * (if i k ω = j then a k ω else 0) ^ 2 := by
            refine Finset.sum_le_sum (fun k _ => ?_)
            split
            · rw [mul_pow, mul_comm]
              refine mul_le_mul_of_nonneg_right ?_ (sq_nonneg _)
              rw [← sq_abs (w k ω)]
              exact pow_le_pow_left₀ (abs_nonneg _) (hwB k ω) 2
            · simp
        _ = (2 * B) ^ 2 * ∑ k ∈ Finset.range N, (if i k ω = j then a k ω else 0) ^ 2 := by rw [Finset.mul_sum]
        _ ≤ _ := mul_le_mul_of_nonneg_left (hC j N ω) (sq_nonneg _)
  have hxsB : ∃ B', ∀ n ω j, |x n ω j - xs j| ≤ B' := by
    refine ⟨B + ∑ j, |xs j|, fun n ω j => ?_⟩
    have h2 := abs_sub (x n ω j) (xs j)
    have h3 := Finset.single_le_sum (f := fun j => |xs j|) (fun j _ => abs_nonneg _) (Finset.mem_univ j)
    linarith [hbound n ω j]
  obtain ⟨B', hB'⟩ := hxsB
  filter_upwards [hdiv, ae_all_iff.2 hsum] with ω hdω hsω
  intro j hj
  refine history_converges (x := fun n => x n ω) (i := fun n => i n ω) (a := fun n => a n ω) (w := fun n => w n ω)
    (F := fun v j => ∑ o, p j o * G v j o) hγ0 hγ1 (fun n => h0 n ω) (fun n => h1 n ω) (fun n j => ?_) hF
    (fun n j => hB' n ω j) hdω hsω j hj
  rw [hx]
  split
  · next h => simp only [hw]; rw [← h]; ring
  · rfl

end Verif.TD
