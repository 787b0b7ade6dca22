/-
The hypotheses of C176 hold for two runs: Student's law with one degree of freedom is Cauchy's.
-/
import Verif.Stats.PropsBand
import Mathlib.Analysis.SpecialFunctions.Trigonometric.Arctan
import Mathlib.Analysis.Real.Pi.Bounds
import Mathlib.MeasureTheory.Measure.Lebesgue.Basic

namespace Verif.Stats.Band

open MeasureTheory

/-- Student's law with one degree of freedom. -/
noncomputable def cauchy (x : ℝ) : ℝ := 1 / 2 + Real.arctan x / Real.pi

noncomputable def cauchyQuantile (p : ℝ) : ℝ := Real.tan (Real.pi * (p - 1 / 2))

theorem cauchy_law : IsLaw cauchy cauchyQuantile where
  continuous := by unfold cauchy; fun_prop
  increasing := by
    intro x y h
    have := Real.arctan_strictMono h
    have := div_lt_div_of_pos_right this Real.pi_pos
    unfold cauchy
    linarith
  symmetric := by
    intro x
    unfold cauchy
    rw [Real.arctan_neg, neg_div]
    ring
  inverse := by
    intro p h0 h1
    unfold cauchy cauchyQuantile
    have hp := Real.pi_pos
    rw [Real.arctan_tan (by nlinarith) (by nlinarith)]
    field_simp
    ring

/-- Two runs over one epoch, driven by a uniform random number `u`. -/
noncomputable def runs (u : ℝ) : Fin 2 → Fin 1 → ℝ :=
  ![fun _ => cauchyQuantile u + 1, fun _ => cauchyQuantile u - 1]

theorem tStat_runs (u : ℝ) : tStat (fun i => runs u i 0) 0 = cauchyQuantile u := by
  have ha : avg (fun i => runs u i 0) = cauchyQuantile u := by
    simp only [avg, runs, Fin.sum_univ_two, Matrix.cons_val_zero, Matrix.cons_val_one]
    push_cast
    ring
  have hv : variance (fun i => runs u i 0) = 2 := by
    unfold variance
    rw [ha]
    simp only [runs, Fin.sum_univ_two, Matrix.cons_val_zero, Matrix.cons_val_one]
    push_cast
    ring
  unfold tStat
  rw [ha, hv]
  norm_num

theorem runs_law (x : ℝ) : (volume.restrict (Set.Ioo (0 : ℝ) 1)) {u | tStat (fun i => runs u i 0) 0 ≤ x} =
    ENNReal.ofReal (cauchy x) := by
  have hp := Real.pi_pos
  have hset : {u | tStat (fun i => runs u i 0) 0 ≤ x} ∩ Set.Ioo (0 : ℝ) 1 = Set.Ioc 0 (cauchy x) := by
    ext u
    simp only [tStat_runs, Set.mem_inter_iff, Set.mem_ofPred_eq, Set.mem_Ioo, Set.mem_Ioc]
    constructor
    · rintro ⟨h1, h2, h3⟩
      refine ⟨h2, ?_⟩
      rw [← cauchy_law.inverse u h2 h3]
      exact cauchy_law.increasing.monotone h1
    · rintro ⟨h1, h2⟩
      have h3 : cauchy x < 1 := by
        have := Real.arctan_lt_pi_div_two x
        have h4 : Real.arctan x / Real.pi < 1 / 2 := by
          rw [div_lt_iff₀ hp]; linarith
        unfold cauchy
        linarith
      refine ⟨?_, h1, by linarith⟩
      rw [← cauchy_law.increasing.le_iff_le, cauchy_law.inverse u h1 (by linarith)]
      exact h2
  rw [Measure.restrict_apply' measurableSet_Ioo, hset, Real.volume_Ioc, sub_zero]

/-- All the hypotheses of `C176_coverage` hold for these runs. -/
example : (volume.restrict (Set.Ioo (0 : ℝ) 1)) {u | ∃ lo hi,
      (plotMeanConf (fun _ => cauchyQuantile) (runs u) 0).lower = some lo ∧
      (plotMeanConf (fun _ => cauchyQuantile) (runs u) 0).upper = some hi ∧ lo ≤ 0 ∧ 0 ≤ hi} =
    ENNReal.ofReal (95 / 100) := by
  haveI : IsProbabilityMeasure (volume.restrict (Set.Ioo (0 : ℝ) 1)) := ⟨by simp⟩
  have hm : Measurable cauchyQuantile := by
    unfold cauchyQuantile
    simp only [Real.tan_eq_sin_div_cos]
    fun_prop
  refine C176_coverage _ _ cauchy cauchy_law runs 0 0 le_rfl ?_ ?_ runs_law
  · intro i
    fin_cases i
    · exact hm.add_const 1
    · exact hm.sub_const 1
  · refine Filter.Eventually.of_forall (fun u => ⟨0, 1, ?_⟩)
    simp only [runs, Matrix.cons_val_zero, Matrix.cons_val_one, ne_eq]
    intro h
    linarith

/-- The hypotheses of `C176_band_partial`, and a run whose two values agree at one epoch only. -/
example : (∃ i j, (![![0, 1], ![0, 3]] : Fin 2 → Fin 2 → ℝ) i 1 ≠ (![![0, 1], ![0, 3]] : Fin 2 → Fin 2 → ℝ) j 1) ∧
    plotMeanConf (fun _ => cauchyQuantile) (![![0, 1], ![0, 3]] : Fin 2 → Fin 2 → ℝ) 0 =
      { mean := some 0, upper := none, lower := none } := by
  refine ⟨⟨0, 1, by simp⟩, ?_⟩
  have := C176_equal_refuted (fun _ => cauchyQuantile) (![![0, 1], ![0, 3]] : Fin 2 → Fin 2 → ℝ) 0 (by norm_num)
    (by intro i j; fin_cases i <;> fin_cases j <;> rfl)
  simpa using this

end Verif.Stats.Band
