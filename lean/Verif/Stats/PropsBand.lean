/-
C176: mean curves and confidence bands of several runs.
-/
import Verif.Stats.ModelBand
import Verif.Stats.SpecBand
import Mathlib.MeasureTheory.Measure.Typeclasses.Probability
import Mathlib.MeasureTheory.Constructions.BorelSpace.Real
import Mathlib.MeasureTheory.Constructions.BorelSpace.Order
import Mathlib.MeasureTheory.Function.SpecialFunctions.Basic
import Mathlib.Algebra.BigOperators.Field
import Mathlib.Tactic.FieldSimp
import Mathlib.Tactic.Linarith
import Mathlib.Tactic.NormNum
import Mathlib.Tactic.Ring

namespace Verif.Stats.Band

open MeasureTheory

variable {n m : ℕ}

/-! ### lemmas -/

theorem IsLaw.zero {F ppf : ℝ → ℝ} (h : IsLaw F ppf) : F 0 = 1 / 2 := by
  have := h.symmetric 0
  rw [neg_zero] at this
  linarith

theorem IsLaw.pos {F ppf : ℝ → ℝ} (h : IsLaw F ppf) : 0 < ppf ((1 + 95 / 100) / 2) := by
  have h1 := h.inverse ((1 + 95 / 100) / 2) (by norm_num) (by norm_num)
  rw [← h.increasing.lt_iff_lt, h.zero, h1]
  norm_num

theorem variance_pos (x : Fin n → ℝ) (hn : 2 ≤ n) (hne : ∃ i j, x i ≠ x j) : 0 < variance x := by
  have h1 : (2 : ℝ) ≤ n := by exact_mod_cast hn
  apply div_pos _ (by linarith)
  obtain ⟨i, j, hij⟩ := hne
  have : ∃ k, x k ≠ avg x := by
    by_contra hcon
    simp only [ne_eq, not_exists, not_not] at hcon
    exact hij ((hcon i).trans (hcon j).symm)
  obtain ⟨k, hk⟩ := this
  apply Finset.sum_pos' (fun _ _ => sq_nonneg _)
  exact ⟨k, Finset.mem_univ k, by positivity [sub_ne_zero.mpr hk]⟩

theorem sem_eq (data : Fin n → Fin m → ℝ) (e : Fin m) (hn : 2 ≤ n) :
    sem data e = some (√(variance (fun i => data i e) / n)) := by
  unfold sem
  rw [if_neg (by omega)]
  have h0 : (0 : ℝ) ≤ n := Nat.cast_nonneg n
  simp only [variance, avg, Real.sqrt_div' _ h0]
  rw [Nat.cast_sub (by omega), Nat.cast_one]

theorem drawn_eq (ppf : ℕ → ℝ → ℝ) (data : Fin n → Fin m → ℝ) (e : Fin m) (hn : 2 ≤ n)
    (hne : ∃ i j, data i e ≠ data j e) :
    plotMeanConf ppf data e =
      { mean := some (avg (fun i => data i e))
        upper := some (avg (fun i => data i e) +
          ppf (n - 1) ((1 + 95 / 100) / 2) * √(variance (fun i => data i e) / n))
        lower := some (avg (fun i => data i e) -
          ppf (n - 1) ((1 + 95 / 100) / 2) * √(variance (fun i => data i e) / n)) } := by
  have hv := variance_pos (fun i => data i e) hn hne
  have hs : 0 < √(variance (fun i => data i e) / n) :=
    Real.sqrt_pos.mpr (div_pos hv (by exact_mod_cast (by omega : 0 < n)))
  have hc : 0 < n - 1 ∧ 0 < √(variance (fun i => data i e) / n) := ⟨by omega, hs⟩
  have hm : mean data e = some (avg (fun i => data i e)) := by
    unfold mean
    rw [if_neg (by omega)]
    rfl
  simp only [plotMeanConf, getMeanAndConfidence, hm, sem_eq data e hn, interval, if_pos hc, Option.bind_some,
    Option.map_some]

theorem inside_iff {F ppf : ℝ → ℝ} (h : IsLaw F ppf) (x : Fin n → ℝ) (hs : 0 < √(variance x / n)) (mu : ℝ) :
    (avg x - ppf ((1 + 95 / 100) / 2) * √(variance x / n) ≤ mu ∧
      mu ≤ avg x + ppf ((1 + 95 / 100) / 2) * √(variance x / n)) ↔
    |tStat x mu| ≤ ppf ((1 + 95 / 100) / 2) := by
  unfold tStat
  rw [abs_div, abs_of_pos hs, div_le_iff₀ hs, abs_le]
  constructor
  · rintro ⟨h1, h2⟩; constructor <;> linarith
  · rintro ⟨h1, h2⟩; constructor <;> linarith

/-! ### properties -/

/-- C176, band. Where at least two runs are given and they do not all agree, the curve is their mean, the band has the
mean strictly inside it, and the values in the band are exactly the true means that the two-sided t-test at level 5%
does not reject. `F` is the distribution function of Student's law with one degree of freedom less than there are runs.
Missing: epochs at which all the runs agree, for which the claim is false (`C176_equal_refuted`). -/
theorem C176_band_partial (ppf : ℕ → ℝ → ℝ) (F : ℝ → ℝ) (hF : IsLaw F (ppf (n - 1))) (data : Fin n → Fin m → ℝ)
    (e : Fin m) (hn : 2 ≤ n) (hne : ∃ i j, data i e ≠ data j e) :
    ∃ lo hi, (plotMeanConf ppf data e).mean = some (avg (fun i => data i e)) ∧
      (plotMeanConf ppf data e).lower = some lo ∧ (plotMeanConf ppf data e).upper = some hi ∧
      lo < avg (fun i => data i e) ∧ avg (fun i => data i e) < hi ∧
      ∀ mu, (lo ≤ mu ∧ mu ≤ hi) ↔ 5 / 100 ≤ pValue F (fun i => data i e) mu := by
  have hv := variance_pos (fun i => data i e) hn hne
  have hs : 0 < √(variance (fun i => data i e) / n) :=
    Real.sqrt_pos.mpr (div_pos hv (by exact_mod_cast (by omega : 0 < n)))
  have hq := mul_pos hF.pos hs
  rw [drawn_eq ppf data e hn hne]
  refine ⟨_, _, rfl, rfl, rfl, by linarith, by linarith, ?_⟩
  intro mu
  rw [inside_iff hF _ hs, pValue, ← hF.increasing.le_iff_le, hF.inverse _ (by norm_num) (by norm_num)]
  constructor <;> intro h <;> linarith

/-- C176, coverage. If the runs are random and their t statistic for the true mean has Student's law, as it has for
independent runs with the same normal law, the band contains the true mean with a probability of exactly 95%. -/
theorem C176_coverage {Ω : Type} [MeasurableSpace Ω] (Pr : Measure Ω) [IsProbabilityMeasure Pr] (ppf : ℕ → ℝ → ℝ)
    (F : ℝ → ℝ) (hF : IsLaw F (ppf (n - 1))) (data : Ω → Fin n → Fin m → ℝ) (e : Fin m) (mu : ℝ) (hn : 2 ≤ n)
    (hmeas : ∀ i, Measurable (fun w => data w i e))
    (hne : ∀ᵐ w ∂Pr, ∃ i j, data w i e ≠ data w j e)
    (hlaw : ∀ x, Pr {w | tStat (fun i => data w i e) mu ≤ x} = ENNReal.ofReal (F x)) :
    Pr {w | ∃ lo hi, (plotMeanConf ppf (data w) e).lower = some lo ∧ (plotMeanConf ppf (data w) e).upper = some hi ∧
      lo ≤ mu ∧ mu ≤ hi} = ENNReal.ofReal (95 / 100) := by
  set q := ppf (n - 1) ((1 + 95 / 100) / 2) with hq
  have hq0 : 0 < q := hF.pos
  have hFq : F q = (1 + 95 / 100) / 2 := hF.inverse _ (by norm_num) (by norm_num)
  have hT : Measurable (fun w => tStat (fun i => data w i e) mu) := by
    unfold tStat variance avg
    fun_prop
  set T := fun w => tStat (fun i => data w i e) mu with hTdef
  have h1 : Pr {w | ∃ lo hi, (plotMeanConf ppf (data w) e).lower = some lo ∧
      (plotMeanConf ppf (data w) e).upper = some hi ∧ lo ≤ mu ∧ mu ≤ hi} = Pr ({w | T w ≤ q} \ {w | T w < -q}) := by
    apply measure_congr
    filter_upwards [hne] with w hw
    have hv := variance_pos (fun i => data w i e) hn hw
    have hs : 0 < √(variance (fun i => data w i e) / n) :=
      Real.sqrt_pos.mpr (div_pos hv (by exact_mod_cast (by omega : 0 < n)))
    have hi := inside_iff hF (fun i => data w i e) hs mu
    apply propext
    constructor
    · rintro ⟨lo, hi', hlo, hhi, hmem⟩
      rw [drawn_eq ppf (data w) e hn hw] at hlo hhi
      simp only [Option.some.injEq] at hlo hhi
      rw [← hlo, ← hhi] at hmem
      have := abs_le.mp (hi.mp hmem)
      exact ⟨this.2, fun hlt => absurd this.1 (not_le.mpr hlt)⟩
    · rintro ⟨h2, h3⟩
      have h4 : |T w| ≤ q := abs_le.mpr ⟨not_lt.mp h3, h2⟩
      refine ⟨_, _, ?_, ?_, hi.mpr h4⟩ <;> rw [drawn_eq ppf (data w) e hn hw]
  have hlt : Pr {w | T w < -q} = ENNReal.ofReal (F (-q)) := by
    apply le_antisymm
    · rw [← hlaw (-q)]
      exact measure_mono (fun w (hw : T w < -q) => le_of_lt hw)
    · have hle : ∀ x, x < -q → ENNReal.ofReal (F x) ≤ Pr {w | T w < -q} := by
        intro x hx
        rw [← hlaw x]
        exact measure_mono (fun w (hw : T w ≤ x) => lt_of_le_of_lt hw hx)
      have hcont : Continuous (fun x => ENNReal.ofReal (F x)) := ENNReal.continuous_ofReal.comp hF.continuous
      refine le_of_tendsto (hcont.continuousWithinAt (s := Set.Iio (-q)) (x := -q)).tendsto ?_
      filter_upwards [self_mem_nhdsWithin] with x hx
      exact hle x hx
  have hsub : {w | T w < -q} ⊆ {w | T w ≤ q} := fun w (hw : T w < -q) => show T w ≤ q by linarith
  rw [h1, measure_diff hsub
    (hT measurableSet_Iio).nullMeasurableSet (measure_ne_top _ _), hlt, hlaw q, hF.symmetric, hFq,
    ← ENNReal.ofReal_sub _ (by norm_num)]
  norm_num

/-- C176, units. Measuring all the runs in other units moves the mean and scales the width of the band accordingly. -/
theorem C176_units (ppf : ℕ → ℝ → ℝ) (data : Fin n → Fin m → ℝ) (a b : ℝ) (ha : a ≠ 0) (e : Fin m) :
    (getMeanAndConfidence ppf (fun i e => a * data i e + b)).1 e =
        ((getMeanAndConfidence ppf data).1 e).map (fun x => a * x + b) ∧
      (getMeanAndConfidence ppf (fun i e => a * data i e + b)).2 e =
        ((getMeanAndConfidence ppf data).2 e).map (fun x => |a| * x) := by
  have havg : ∀ (hn : n ≠ 0), (∑ i, (a * data i e + b)) / (n : ℝ) = a * ((∑ i, data i e) / n) + b := by
    intro hn
    have : (n : ℝ) ≠ 0 := by exact_mod_cast hn
    rw [Finset.sum_add_distrib, ← Finset.mul_sum]
    simp only [Finset.sum_const, Finset.card_univ, Fintype.card_fin, nsmul_eq_mul]
    field_simp
  constructor
  · simp only [getMeanAndConfidence, mean]
    by_cases hn : n = 0
    · simp [hn]
    · simp only [if_neg hn, havg hn, Option.map_some]
  · simp only [getMeanAndConfidence]
    by_cases hn : n ≤ 1
    · simp [sem, hn, interval]
    · have hsem : sem (fun i e => a * data i e + b) e = (sem data e).map (fun x => |a| * x) := by
        simp only [sem, if_neg hn, havg (by omega), Option.map_some]
        congr 1
        have : ∀ i, (a * data i e + b - (a * ((∑ i, data i e) / n) + b)) ^ 2 =
            a ^ 2 * (data i e - (∑ i, data i e) / n) ^ 2 := by intro i; ring
        simp only [this]
        rw [← Finset.mul_sum, mul_div_assoc, Real.sqrt_mul (sq_nonneg a), Real.sqrt_sq_eq_abs, mul_div_assoc]
      rw [hsem]
      rcases sem data e with _ | s
      · rfl
      · have hiff : (0 < n - 1 ∧ 0 < |a| * s) ↔ (0 < n - 1 ∧ 0 < s) := by
          rw [mul_pos_iff_of_pos_left (abs_pos.mpr ha)]
        simp only [Option.map_some, interval, hiff]
        split
        · simp only [Option.map_some]
          congr 1
          ring
        · rfl

/-- C176, runs. What is drawn at an epoch only depends on the values of the runs at this epoch, in any order. -/
theorem C176_runs (ppf : ℕ → ℝ → ℝ) (data data' : Fin n → Fin m → ℝ) (e : Fin m) (order : Equiv.Perm (Fin n))
    (h : ∀ i, data' i e = data (order i) e) : plotMeanConf ppf data' e = plotMeanConf ppf data e := by
  have hsum : ∑ i, data' i e = ∑ i, data i e := by
    simp only [h]
    exact Equiv.sum_comp order (fun i => data i e)
  have hsq : ∀ c : ℝ, ∑ i, (data' i e - c) ^ 2 = ∑ i, (data i e - c) ^ 2 := by
    intro c
    simp only [h]
    exact Equiv.sum_comp order (fun i => (data i e - c) ^ 2)
  simp only [plotMeanConf, getMeanAndConfidence, mean, sem, hsum, hsq]

/-- The claim that every epoch has a band fails: where all the runs agree, or if there is a single run, the mean is drawn
but the ends of the band are NaN. -/
theorem C176_equal_refuted (ppf : ℕ → ℝ → ℝ) (data : Fin n → Fin m → ℝ) (e : Fin m) (hn : 1 ≤ n)
    (h : ∀ i j, data i e = data j e) :
    plotMeanConf ppf data e = { mean := some (data ⟨0, hn⟩ e), upper := none, lower := none } := by
  have hsum : ∑ i, data i e = n * data ⟨0, hn⟩ e := by
    rw [Finset.sum_congr rfl (fun i _ => h i ⟨0, hn⟩)]
    simp
  have hn0 : (n : ℝ) ≠ 0 := by exact_mod_cast (by omega : n ≠ 0)
  have hm : mean data e = some (data ⟨0, hn⟩ e) := by
    unfold mean
    rw [if_neg (by omega), hsum, mul_div_cancel_left₀ _ hn0]
  have hi : interval ppf (n - 1) (sem data e) = none := by
    by_cases h1 : n ≤ 1
    · simp [sem, h1, interval]
    · have : sem data e = some 0 := by
        simp only [sem, if_neg h1, hsum, mul_div_cancel_left₀ _ hn0]
        rw [Finset.sum_congr rfl (fun i _ => by rw [h i ⟨0, hn⟩, sub_self])]
        simp
      simp [this, interval]
  simp only [plotMeanConf, getMeanAndConfidence, hm, hi]
  rfl

end Verif.Stats.Band
