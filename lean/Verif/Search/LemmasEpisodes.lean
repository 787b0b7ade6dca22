/-
Lemmas for C94: expectations under the distribution of the episodes, and averages over growing batches of episodes.
-/
import Verif.Search.SpecEpisodes
import Verif.Search.PropsUnbiased
import Mathlib.MeasureTheory.Integral.Bochner.Basic
import Mathlib.MeasureTheory.Integral.Bochner.SumMeasure
import Mathlib.Probability.StrongLaw
import Mathlib.Probability.IdentDistrib

namespace Verif.Search

open MeasureTheory ProbabilityTheory Filter Topology Finset

variable {S A : Type} [Fintype S] [Fintype A] {d : ℕ}

omit [Fintype S] [Fintype A] in
theorem measurable_any {β : Type} [MeasurableSpace β] (F : List (Step S A) → β) : Measurable F := fun _ _ => trivial

theorem ae_lawFrom (P : Process S A) (pol : S → A → ℝ) (Q : ℕ → S → List (Step S A) → Prop) (h0 : ∀ s, Q 0 s [])
    (h1 : ∀ h s a s', P.absorbing s a s' = true → Q (h + 1) s [P.sample h s a s'])
    (h2 : ∀ h s a s' e, P.absorbing s a s' = false → Q h s' e → Q (h + 1) s (P.sample h s a s' :: e)) (h : ℕ) (s : S) :
    ∀ᵐ e ∂lawFrom P pol h s, Q h s e := by
  induction h generalizing s with
  | zero => exact (ae_dirac_iff (by trivial)).2 (h0 s)
  | succ h ih =>
    rw [lawFrom, ← Measure.sum_fintype, Measure.ae_sum_iff]
    intro a
    refine Measure.ae_smul_measure ?_ _
    rw [← Measure.sum_fintype, Measure.ae_sum_iff]
    intro s'
    refine Measure.ae_smul_measure ?_ _
    split
    next hb => exact (ae_dirac_iff (by trivial)).2 (h1 h s a s' hb)
    next hb =>
      rw [ae_map_iff (measurable_any _).aemeasurable (by trivial)]
      filter_upwards [ih s'] with e he
      exact h2 h s a s' e (by simpa using hb) he

theorem ae_law (P : Process S A) (pol : S → A → ℝ) (Q : ℕ → S → List (Step S A) → Prop) (h0 : ∀ s, Q 0 s [])
    (h1 : ∀ h s a s', P.absorbing s a s' = true → Q (h + 1) s [P.sample h s a s'])
    (h2 : ∀ h s a s' e, P.absorbing s a s' = false → Q h s' e → Q (h + 1) s (P.sample h s a s' :: e)) (h : ℕ) :
    ∀ᵐ e ∂law P pol h, ∃ s, Q h s e := by
  rw [law, ← Measure.sum_fintype, Measure.ae_sum_iff]
  intro s
  refine Measure.ae_smul_measure ?_ _
  filter_upwards [ae_lawFrom P pol Q h0 h1 h2 h s] with e he
  exact ⟨s, he⟩

/-- The episodes that can occur. -/
def runs (P : Process S A) : ℕ → S → Set (List (Step S A))
  | 0, _ => {[]}
  | h + 1, s => ⋃ a, ⋃ s', (fun e => P.sample h s a s' :: e) '' (insert [] (runs P h s'))

theorem runs_finite (P : Process S A) (h : ℕ) (s : S) : (runs P h s).Finite := by
  induction h generalizing s with
  | zero => exact Set.finite_singleton _
  | succ h ih => exact Set.finite_iUnion (fun a => Set.finite_iUnion (fun s' => ((ih s').insert _).image _))

theorem law_runs (P : Process S A) (pol : S → A → ℝ) (h : ℕ) : ∀ᵐ e ∂law P pol h, ∃ s, e ∈ runs P h s := by
  refine ae_law P pol (fun h s e => e ∈ runs P h s) (fun s => rfl) ?_ ?_ h
  · intro h s a s' _
    simp only [runs, Set.mem_iUnion]
    exact ⟨a, s', [], Set.mem_insert _ _, rfl⟩
  · intro h s a s' e _ he
    simp only [runs, Set.mem_iUnion]
    exact ⟨a, s', e, Set.mem_insert_of_mem _ he, rfl⟩

theorem law_bounded (P : Process S A) (pol : S → A → ℝ) (h : ℕ) (F : List (Step S A) → ℝ) :
    ∃ C, 0 ≤ C ∧ ∀ᵐ e ∂law P pol h, |F e| ≤ C := by
  have hf : (⋃ s, runs P h s).Finite := Set.finite_iUnion (fun s => runs_finite P h s)
  obtain ⟨C, hC⟩ := (hf.image (fun e => |F e|)).bddAbove
  refine ⟨max C 0, le_max_right _ _, ?_⟩
  filter_upwards [law_runs P pol h] with e he
  exact (hC ⟨e, Set.mem_iUnion.2 he, rfl⟩).trans (le_max_left _ _)

omit [Fintype S] [Fintype A] in
theorem isEpisode_cons {t : Step S A} {e : List (Step S A)} (ht : t.last = false) (he : IsEpisode e) : IsEpisode (t :: e) := by
  obtain ⟨b, u, rfl, hu, hb⟩ := he
  refine ⟨t :: b, u, rfl, hu, ?_⟩
  intro x hx
  rcases List.mem_cons.1 hx with rfl | hx
  · exact ht
  · exact hb x hx

theorem law_isEpisode (P : Process S A) (pol : S → A → ℝ) (h : ℕ) : ∀ᵐ e ∂law P pol (h + 1), IsEpisode e := by
  have := ae_law P pol (fun h _ e => (h = 0 → e = []) ∧ (0 < h → IsEpisode e)) (fun s => ⟨fun _ => rfl, by simp⟩) ?_ ?_ (h + 1)
  · filter_upwards [this] with e he
    obtain ⟨_, he⟩ := he
    exact he.2 (Nat.succ_pos _)
  · intro h s a s' hb
    exact ⟨by simp, fun _ => ⟨[], _, rfl, by simp [Process.sample, hb], by simp⟩⟩
  · intro h s a s' e hb he
    refine ⟨by simp, fun _ => ?_⟩
    rcases Nat.eq_zero_or_pos h with h0 | h0
    · rw [he.1 h0]
      exact ⟨[], _, rfl, by simp [Process.sample, h0], by simp⟩
    · exact isEpisode_cons (by simp [Process.sample, hb]; omega) (he.2 h0)

theorem law_length (P : Process S A) (hno : ∀ s a s', P.absorbing s a s' = false) (pol : S → A → ℝ) (h : ℕ) :
    ∀ᵐ e ∂law P pol h, e.length = h := by
  have := ae_law P pol (fun h _ e => e.length = h) (fun s => rfl) (fun h s a s' hb => by simp [hno] at hb)
    (fun h s a s' e _ he => by simp [he]) h
  filter_upwards [this] with e he
  exact he.choose_spec

theorem integrable_lawFrom (P : Process S A) (pol : S → A → ℝ) (h : ℕ) (s : S) (F : List (Step S A) → ℝ) :
    Integrable F (lawFrom P pol h s) := by
  induction h generalizing s F with
  | zero => exact integrable_dirac (by simp)
  | succ h ih =>
    rw [lawFrom, integrable_finset_sum_measure]
    intro a _
    refine Integrable.smul_measure ?_ ENNReal.ofReal_ne_top
    rw [integrable_finset_sum_measure]
    intro s' _
    refine Integrable.smul_measure ?_ ENNReal.ofReal_ne_top
    split
    · exact integrable_dirac (by simp)
    · rw [integrable_map_measure (measurable_any F).aestronglyMeasurable (measurable_any _).aemeasurable]
      exact ih s' _

theorem integral_lawFrom (P : Process S A) (hP : P.Proper) (pol : S → A → ℝ) (hpol : ∀ s a, 0 ≤ pol s a) (h : ℕ) (s : S)
    (F : List (Step S A) → ℝ) : ∫ e, F e ∂lawFrom P pol h s = expect P pol h s F := by
  induction h generalizing s F with
  | zero => exact integral_dirac' _ _ (measurable_any F).stronglyMeasurable
  | succ h ih =>
    have hi : ∀ a s', Integrable F (if P.absorbing s a s' then Measure.dirac [P.sample h s a s']
      else (lawFrom P pol h s').map (fun e => P.sample h s a s' :: e)) := by
      intro a s'
      split
      · exact integrable_dirac (by simp)
      · rw [integrable_map_measure (measurable_any F).aestronglyMeasurable (measurable_any _).aemeasurable]
        exact integrable_lawFrom P pol h s' _
    have hi2 : ∀ a s', Integrable F (ENNReal.ofReal (P.trans s a s') • if P.absorbing s a s' then Measure.dirac [P.sample h s a s']
      else (lawFrom P pol h s').map (fun e => P.sample h s a s' :: e)) :=
      fun a s' => (hi a s').smul_measure ENNReal.ofReal_ne_top
    rw [lawFrom, expect, integral_finset_sum_measure]
    · refine sum_congr rfl (fun a _ => ?_)
      rw [integral_smul_measure, ENNReal.toReal_ofReal (hpol s a), smul_eq_mul, integral_finset_sum_measure (fun s' _ => hi2 a s')]
      congr 1
      refine sum_congr rfl (fun s' _ => ?_)
      rw [integral_smul_measure, ENNReal.toReal_ofReal (hP.trans_nonneg s a s'), smul_eq_mul]
      congr 1
      split
      · exact integral_dirac' _ _ (measurable_any F).stronglyMeasurable
      · rw [integral_map (measurable_any _).aemeasurable (measurable_any F).aestronglyMeasurable]
        exact ih s' _
    · intro a _
      refine Integrable.smul_measure ?_ ENNReal.ofReal_ne_top
      rw [integrable_finset_sum_measure]
      exact fun s' _ => hi2 a s'

theorem integrable_law (P : Process S A) (pol : S → A → ℝ) (h : ℕ) (F : List (Step S A) → ℝ) : Integrable F (law P pol h) := by
  rw [law, integrable_finset_sum_measure]
  exact fun s _ => (integrable_lawFrom P pol h s F).smul_measure ENNReal.ofReal_ne_top

theorem integral_law (P : Process S A) (hP : P.Proper) (pol : S → A → ℝ) (hpol : ∀ s a, 0 ≤ pol s a) (h : ℕ)
    (F : List (Step S A) → ℝ) : ∫ e, F e ∂law P pol h = expected P pol h F := by
  rw [law, expected, integral_finset_sum_measure (fun s _ => (integrable_lawFrom P pol h s F).smul_measure ENNReal.ofReal_ne_top)]
  refine sum_congr rfl (fun s _ => ?_)
  rw [integral_smul_measure, ENNReal.toReal_ofReal (hP.start_nonneg s), smul_eq_mul, integral_lawFrom P hP pol hpol]

theorem law_prob (P : Process S A) (hP : P.Proper) (pol : S → A → ℝ) (hpol : ∀ s a, 0 ≤ pol s a) (hsum : ∀ s, ∑ a, pol s a = 1)
    (h : ℕ) : IsProbabilityMeasure (law P pol h) := by
  have h1 := integral_law P hP pol hpol h (fun _ => 1)
  have h2 : expected P pol h (fun _ => (1 : ℝ)) = 1 := by
    simp [expected, expect_const P hP.trans_sum pol hsum, hP.start_sum]
  rw [h2, integral_const, smul_eq_mul, mul_one, Measure.real] at h1
  constructor
  have := (ENNReal.toReal_eq_one_iff _).1 h1
  exact this

/-! ### Averages over growing batches -/

variable {Ω : Type} [MeasurableSpace Ω] {μ : Measure Ω} {P : Process S A} {pol : S → A → ℝ} {h : ℕ} {X : ℕ → Ω → List (Step S A)}

theorem Episodes.ae (hX : Episodes μ P pol h X) {Q : List (Step S A) → Prop} (hQ : ∀ᵐ e ∂law P pol h, Q e) :
    ∀ᵐ ω ∂μ, ∀ i, Q (X i ω) := by
  rw [ae_all_iff]
  intro i
  rw [← hX.law_eq i, ae_map_iff (hX.measurable i).aemeasurable (by trivial)] at hQ
  exact hQ

/-- The first `n` episodes. -/
def batch (X : ℕ → Ω → List (Step S A)) (n : ℕ) (ω : Ω) : List (List (Step S A)) := (List.range n).map (fun i => X i ω)

omit [Fintype S] [Fintype A] [MeasurableSpace Ω] in
theorem average_batch (F : List (Step S A) → ℝ) (n : ℕ) (ω : Ω) :
    average (batch X n ω) F = (∑ i ∈ range n, F (X i ω)) / n := by
  rw [average, batch, List.map_map, List.length_map, List.length_range]
  congr 1

theorem Episodes.strongLaw (hX : Episodes μ P pol h X) (hP : P.Proper) (hpol : ∀ s a, 0 ≤ pol s a) (F : List (Step S A) → ℝ) :
    ∀ᵐ ω ∂μ, Tendsto (fun n => average (batch X n ω) F) atTop (𝓝 (expected P pol h F)) := by
  have hm := measurable_any F
  have hint : Integrable (fun ω => F (X 0 ω)) μ := by
    have := integrable_law P pol h F
    rw [← hX.law_eq 0, integrable_map_measure hm.aestronglyMeasurable (hX.measurable 0).aemeasurable] at this
    exact this
  have hmean : ∫ ω, F (X 0 ω) ∂μ = expected P pol h F := by
    rw [← integral_law P hP pol hpol h F, ← hX.law_eq 0, integral_map (hX.measurable 0).aemeasurable hm.aestronglyMeasurable]
  have := strong_law_ae_real (fun i ω => F (X i ω)) hint (fun i j hij => (hX.indep hij).comp hm hm)
    (fun i => IdentDistrib.comp ⟨(hX.measurable i).aemeasurable, (hX.measurable 0).aemeasurable, by rw [hX.law_eq, hX.law_eq]⟩ hm)
  rw [hmean] at this
  filter_upwards [this] with ω hω
  simpa only [average_batch] using hω

end Verif.Search
