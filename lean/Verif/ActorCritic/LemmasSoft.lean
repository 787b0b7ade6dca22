/-
Lemmas for C171: the soft Bellman operators, the variational principle of Gibbs, and the expectations of what the code computes.
-/
import Verif.ActorCritic.SpecSoft
import Mathlib.MeasureTheory.Integral.Bochner.ContinuousLinearMap
import Mathlib.Topology.MetricSpace.Contracting
import Mathlib.Analysis.SpecificLimits.Basic
import Mathlib.Analysis.SpecialFunctions.Log.Basic
import Mathlib.MeasureTheory.Function.SpecialFunctions.Basic
import Mathlib.Tactic.Linarith
import Mathlib.Tactic.Ring
import Mathlib.Tactic.FieldSimp
import Mathlib.Tactic.Positivity

namespace Verif.ActorCritic.MaxEnt

open MeasureTheory Filter Topology
open Verif.TD (Trans)
open Verif.ActorCritic.Soft

noncomputable section

variable {S A D M N ι κ O : Type} [Fintype S] [MeasurableSpace A] [MeasurableSpace N]
variable {m : Problem S A} {μ : Measure A} {γ α : ℝ} {p : S → A → ℝ}

/-- Measurable in the action, and bounded. -/
def Regular (Q : S → A → ℝ) : Prop := (∀ s, Measurable (Q s)) ∧ ∃ C, ∀ s a, |Q s a| ≤ C

omit [Fintype S] in
theorem IsPolicy.integrable (hp : IsPolicy μ p) (s : S) : Integrable (p s) μ := by
  by_contra h
  have := hp.one s
  rw [integral_undef h] at this
  exact zero_ne_one this

omit [Fintype S] in
theorem IsPolicy.weighted (hp : IsPolicy μ p) {Q : S → A → ℝ} (hQ : Regular Q) (s : S) : Integrable (fun a => p s a * Q s a) μ := by
  obtain ⟨C, hC⟩ := hQ.2
  refine ((hp.integrable s).bdd_mul (c := C) (hQ.1 s).aestronglyMeasurable (ae_of_all _ fun a => ?_)).congr (ae_of_all _ fun a => mul_comm _ _)
  rw [Real.norm_eq_abs]
  exact hC s a

omit [Fintype S] in
theorem IsPolicy.softIntegrable (hp : IsPolicy μ p) {Q : S → A → ℝ} (hQ : Regular Q) (s : S) : Integrable (fun a => p s a * (Q s a - α * Real.log (p s a))) μ := by
  refine ((hp.weighted hQ s).sub ((hp.entropy s).const_mul α)).congr (ae_of_all _ fun a => ?_)
  simp only [Pi.sub_apply]
  ring

omit [Fintype S] in
theorem soft_mono (hp : IsPolicy μ p) {Q Q' : S → A → ℝ} (hQ : Regular Q) (hQ' : Regular Q') {s : S} (h : ∀ a, Q s a ≤ Q' s a) : soft μ α p Q s ≤ soft μ α p Q' s := by
  refine integral_mono (hp.softIntegrable hQ s) (hp.softIntegrable hQ' s) fun a => ?_
  exact mul_le_mul_of_nonneg_left (by linarith [h a]) (hp.nonneg s a)

omit [Fintype S] in
theorem soft_close (hp : IsPolicy μ p) {Q Q' : S → A → ℝ} (hQ : Regular Q) (hQ' : Regular Q') {s : S} {ε : ℝ} (h : ∀ a, |Q s a - Q' s a| ≤ ε) :
    |soft μ α p Q s - soft μ α p Q' s| ≤ ε := by
  have hi := (hp.integrable s).mul_const ε
  have h1 : soft μ α p Q s - soft μ α p Q' s = ∫ a, p s a * (Q s a - Q' s a) ∂μ := by
    rw [soft, soft, ← integral_sub (hp.softIntegrable hQ s) (hp.softIntegrable hQ' s)]
    exact integral_congr_ae (ae_of_all _ fun a => by ring)
  rw [h1, ← Real.norm_eq_abs]
  refine (norm_integral_le_of_norm_le (g := fun a => p s a * ε) hi (ae_of_all _ fun a => ?_)).trans ?_
  · rw [Real.norm_eq_abs, abs_mul, abs_of_nonneg (hp.nonneg s a)]
    exact mul_le_mul_of_nonneg_left (h a) (hp.nonneg s a)
  · rw [integral_mul_const, hp.one, one_mul]

theorem ahead_regular (m : Problem S A) (γ : ℝ) (V : S → ℝ) : Regular (ahead m γ V) := by
  constructor
  · intro s
    exact Finset.measurable_sum _ fun s' _ => (m.prob_measurable s s').mul ((m.reward_measurable s s').add_const _)
  · refine ⟨∑ s', (m.bound + |γ| * |V s'|), fun s a => (Finset.abs_sum_le_sum_abs _ _).trans (Finset.sum_le_sum fun s' _ => ?_)⟩
    have h1 : m.prob s a s' ≤ 1 := by
      rw [← m.prob_sum s a]
      exact Finset.single_le_sum (f := fun s' => m.prob s a s') (fun i _ => m.prob_nonneg s a i) (Finset.mem_univ s')
    have h2 : |m.reward s a s' + γ * (if m.final s' then 0 else V s')| ≤ m.bound + |γ| * |V s'| := by
      refine (abs_add_le _ _).trans (add_le_add (m.reward_bound s a s') ?_)
      rw [abs_mul]
      refine mul_le_mul_of_nonneg_left ?_ (abs_nonneg _)
      split
      · simp
      · exact le_rfl
    rw [abs_mul, abs_of_nonneg (m.prob_nonneg s a s')]
    have h3 := abs_nonneg (m.reward s a s' + γ * (if m.final s' then 0 else V s'))
    nlinarith [m.prob_nonneg s a s']

theorem ahead_mono (hγ : 0 ≤ γ) {V V' : S → ℝ} (h : ∀ s, V s ≤ V' s) (s : S) (a : A) : ahead m γ V s a ≤ ahead m γ V' s a := by
  refine Finset.sum_le_sum fun s' _ => mul_le_mul_of_nonneg_left ?_ (m.prob_nonneg s a s')
  split
  · exact le_rfl
  · linarith [mul_le_mul_of_nonneg_left (h s') hγ]

theorem ahead_close (hγ : 0 ≤ γ) {V V' : S → ℝ} {ε : ℝ} (hε : 0 ≤ ε) (h : ∀ s, |V s - V' s| ≤ ε) (s : S) (a : A) : |ahead m γ V s a - ahead m γ V' s a| ≤ γ * ε := by
  rw [ahead, ahead, ← Finset.sum_sub_distrib]
  refine (Finset.abs_sum_le_sum_abs _ _).trans ?_
  have : γ * ε = ∑ s', m.prob s a s' * (γ * ε) := by rw [← Finset.sum_mul, m.prob_sum, one_mul]
  rw [this]
  refine Finset.sum_le_sum fun s' _ => ?_
  rw [← mul_sub, abs_mul, abs_of_nonneg (m.prob_nonneg s a s')]
  refine mul_le_mul_of_nonneg_left ?_ (m.prob_nonneg s a s')
  split
  · simp only [sub_self, abs_zero]; positivity
  · have := h s'
    rw [add_sub_add_left_eq_sub, ← mul_sub, abs_mul, abs_of_nonneg hγ]
    exact mul_le_mul_of_nonneg_left this hγ

/-! ### Soft values are the solutions of the soft Bellman equation -/

/-- The soft Bellman equation of a policy. -/
def Solves (m : Problem S A) (μ : Measure A) (γ α : ℝ) (p Q : S → A → ℝ) : Prop := Q = ahead m γ (soft μ α p Q)

theorem Solves.regular {Q : S → A → ℝ} (h : Solves m μ γ α p Q) : Regular Q := by rw [h]; exact ahead_regular m γ _

theorem softReturn_regular (n : ℕ) : Regular (softReturn m μ γ α p n) := by
  cases n <;> exact ahead_regular m γ _

theorem solves_close (hγ : 0 ≤ γ) (hp : IsPolicy μ p) {Q : S → A → ℝ} (h : Solves m μ γ α p Q) :
    ∃ C, 0 ≤ C ∧ ∀ n s a, |softReturn m μ γ α p n s a - Q s a| ≤ γ ^ n * C := by
  obtain ⟨C, hC⟩ := h.regular.2
  obtain ⟨C', hC'⟩ := (softReturn_regular (m := m) (μ := μ) (γ := γ) (α := α) (p := p) 0).2
  refine ⟨|C| + |C'|, by positivity, fun n => ?_⟩
  induction n with
  | zero =>
    intro s a
    rw [pow_zero, one_mul]
    have h1 := (hC s a).trans (le_abs_self C)
    have h2 := (hC' s a).trans (le_abs_self C')
    calc _ ≤ |softReturn m μ γ α p 0 s a| + |Q s a| := abs_sub _ _
      _ ≤ _ := by linarith
  | succ n ih =>
    intro s a
    have e : Q s a = ahead m γ (soft μ α p Q) s a := congrFun (congrFun h s) a
    rw [e, softReturn, pow_succ, mul_comm (γ ^ n), mul_assoc]
    refine ahead_close hγ (by positivity) (fun s => ?_) s a
    exact soft_close hp (softReturn_regular n) h.regular (fun a => ih s a)

theorem solves_softValues (h0 : 0 ≤ γ) (h1 : γ < 1) (hp : IsPolicy μ p) {Q : S → A → ℝ} (h : Solves m μ γ α p Q) : SoftValues m μ γ α p Q := by
  intro s a
  obtain ⟨C, hC, hb⟩ := solves_close h0 hp h
  have ht : Tendsto (fun n : ℕ => γ ^ n * C) atTop (𝓝 0) := by
    simpa using (tendsto_pow_atTop_nhds_zero_of_lt_one h0 h1).mul_const C
  rw [tendsto_iff_norm_sub_tendsto_zero]
  exact squeeze_zero (fun n => norm_nonneg _) (fun n => by rw [Real.norm_eq_abs]; exact hb n s a) ht

/-- A contraction of the vectors of one number per state has a fixed point. -/
theorem fixed_exists (h0 : 0 ≤ γ) (h1 : γ < 1) (T : (S → ℝ) → S → ℝ) (hT : ∀ V V' : S → ℝ, ∀ ε, 0 ≤ ε → (∀ s, |V s - V' s| ≤ ε) → ∀ s, |T V s - T V' s| ≤ γ * ε) :
    ∃ V, T V = V := by
  have hc : ContractingWith ⟨γ, h0⟩ T := by
    refine ⟨by exact_mod_cast h1, LipschitzWith.of_dist_le_mul fun V V' => ?_⟩
    rw [dist_pi_le_iff (by positivity)]
    intro s
    rw [Real.dist_eq]
    exact hT V V' (dist V V') dist_nonneg (fun s => by rw [← Real.dist_eq]; exact dist_le_pi_dist V V' s) s
  exact ⟨hc.fixedPoint, hc.fixedPoint_isFixedPt⟩

theorem solves_exists (h0 : 0 ≤ γ) (h1 : γ < 1) (hp : IsPolicy μ p) : ∃ Q, Solves m μ γ α p Q := by
  obtain ⟨V, hV⟩ := fixed_exists h0 h1 (fun V => soft μ α p (ahead m γ V)) fun V V' ε hε h s =>
    soft_close hp (ahead_regular m γ V) (ahead_regular m γ V') (fun a => ahead_close h0 hε h s a)
  exact ⟨ahead m γ V, by rw [Solves, hV]⟩

theorem softValues_iff (h0 : 0 ≤ γ) (h1 : γ < 1) (hp : IsPolicy μ p) (Q : S → A → ℝ) : SoftValues m μ γ α p Q ↔ Solves m μ γ α p Q := by
  refine ⟨fun h => ?_, solves_softValues h0 h1 hp⟩
  obtain ⟨Q', hQ'⟩ := solves_exists (m := m) (α := α) h0 h1 hp
  have : Q = Q' := by
    funext s a
    exact tendsto_nhds_unique (h s a) (solves_softValues h0 h1 hp hQ' s a)
  rw [this]
  exact hQ'

/-- What a policy makes better in one step it makes better for good. -/
theorem better (h0 : 0 ≤ γ) (h1 : γ < 1) (hp : IsPolicy μ p) {Q Q' : S → A → ℝ} (hQ : Regular Q) (hQ' : Solves m μ γ α p Q') (h : ∀ s a, Q s a ≤ ahead m γ (soft μ α p Q) s a) :
    ∀ s a, Q s a ≤ Q' s a := by
  obtain ⟨C, hC⟩ := hQ.2
  obtain ⟨C', hC'⟩ := hQ'.regular.2
  have hk : ∀ n : ℕ, ∀ s a, Q s a - Q' s a ≤ γ ^ n * (|C| + |C'|) := by
    intro n
    induction n with
    | zero =>
      intro s a
      rw [pow_zero, one_mul]
      have h2 := (abs_le.1 (hC s a)).2
      have h3 := (abs_le.1 (hC' s a)).1
      linarith [le_abs_self C, le_abs_self C']
    | succ n ih =>
      intro s a
      have e : Q' s a = ahead m γ (soft μ α p Q') s a := congrFun (congrFun hQ' s) a
      have hr : Regular fun s a => Q' s a + γ ^ n * (|C| + |C'|) := by
        refine ⟨fun s => (hQ'.regular.1 s).add_const _, C' + |γ ^ n * (|C| + |C'|)|, fun s a => (abs_add_le _ _).trans (add_le_add (hC' s a) le_rfl)⟩
      have h4 : ∀ s, soft μ α p Q s ≤ soft μ α p Q' s + γ ^ n * (|C| + |C'|) := by
        intro s
        have h5 := soft_mono (α := α) (s := s) hp hQ hr (fun a => by linarith [ih s a])
        refine h5.trans (le_of_eq ?_)
        unfold soft
        have : ∀ a, p s a * (Q' s a + γ ^ n * (|C| + |C'|) - α * Real.log (p s a)) = p s a * (Q' s a - α * Real.log (p s a)) + p s a * (γ ^ n * (|C| + |C'|)) := fun a => by ring
        simp only [this]
        rw [integral_add (hp.softIntegrable hQ'.regular s) ((hp.integrable s).mul_const _), integral_mul_const, hp.one, one_mul]
      have h6 := ahead_mono (m := m) h0 h4 s a
      have h7 := ahead_close (m := m) h0 (V := fun s => soft μ α p Q' s + γ ^ n * (|C| + |C'|)) (V' := soft μ α p Q') (ε := γ ^ n * (|C| + |C'|)) (by positivity)
        (fun s => by rw [add_sub_cancel_left, abs_of_nonneg (by positivity)]) s a
      have h8 := (abs_le.1 h7).2
      rw [pow_succ, mul_comm (γ ^ n), mul_assoc]
      linarith [h s a]
  intro s a
  have ht : Tendsto (fun n : ℕ => γ ^ n * (|C| + |C'|)) atTop (𝓝 0) := by
    simpa using (tendsto_pow_atTop_nhds_zero_of_lt_one h0 h1).mul_const (|C| + |C'|)
  have := ge_of_tendsto' ht (fun n => hk n s a)
  linarith

/-! ### The variational principle -/

/-- The density proportional to the exponential of the values divided by the temperature. -/
def boltzmann (μ : Measure A) (α : ℝ) (Q : S → A → ℝ) (s : S) (a : A) : ℝ := Real.exp (Q s a / α) / ∫ b, Real.exp (Q s b / α) ∂μ

/-- The logarithm of its normalisation, times the temperature. -/
def softMax (μ : Measure A) (α : ℝ) (Q : S → A → ℝ) (s : S) : ℝ := α * Real.log (∫ b, Real.exp (Q s b / α) ∂μ)

variable [IsFiniteMeasure μ]

omit [Fintype S] in
theorem exp_integrable {Q : S → A → ℝ} (hQ : Regular Q) (s : S) : Integrable (fun a => Real.exp (Q s a / α)) μ := by
  obtain ⟨C, hC⟩ := hQ.2
  refine Integrable.of_bound (((hQ.1 s).div_const α).exp).aestronglyMeasurable (Real.exp (C / |α|)) (ae_of_all _ fun a => ?_)
  rw [Real.norm_eq_abs, Real.abs_exp, Real.exp_le_exp]
  refine (le_abs_self _).trans ?_
  rw [abs_div]
  exact div_le_div_of_nonneg_right (hC s a) (abs_nonneg _)

omit [Fintype S] in
theorem norm_pos (hμ : μ ≠ 0) {Q : S → A → ℝ} (hQ : Regular Q) (s : S) : 0 < ∫ b, Real.exp (Q s b / α) ∂μ :=
  haveI : NeZero μ := ⟨hμ⟩
  integral_exp_pos (exp_integrable hQ s)

omit [Fintype S] in
theorem boltzmann_pos (hμ : μ ≠ 0) {Q : S → A → ℝ} (hQ : Regular Q) (s : S) (a : A) : 0 < boltzmann μ α Q s a := div_pos (Real.exp_pos _) (norm_pos hμ hQ s)

omit [Fintype S] in
theorem log_boltzmann (hα : 0 < α) (hμ : μ ≠ 0) {Q : S → A → ℝ} (hQ : Regular Q) (s : S) (a : A) : Q s a = α * Real.log (boltzmann μ α Q s a) + softMax μ α Q s := by
  rw [boltzmann, softMax, Real.log_div (Real.exp_ne_zero _) (norm_pos hμ hQ s).ne', Real.log_exp]
  field_simp
  ring

omit [Fintype S] in
theorem boltzmann_policy (hα : 0 < α) (hμ : μ ≠ 0) {Q : S → A → ℝ} (hQ : Regular Q) : IsPolicy μ (boltzmann μ α Q) := by
  have hm : ∀ s, Measurable (boltzmann μ α Q s) := fun s => (((hQ.1 s).div_const α).exp).div_const _
  have hi : ∀ s, Integrable (boltzmann μ α Q s) μ := fun s => (exp_integrable hQ s).div_const _
  refine ⟨hm, fun s a => (boltzmann_pos hμ hQ s a).le, fun s => ?_, fun s => ?_⟩
  · unfold boltzmann
    rw [integral_div, div_self (norm_pos hμ hQ s).ne']
  · obtain ⟨C, hC⟩ := hQ.2
    refine ((hi s).bdd_mul (c := (C + |softMax μ α Q s|) / α) (f := fun a => Real.log (boltzmann μ α Q s a)) (hm s).log.aestronglyMeasurable (ae_of_all _ fun a => ?_)).congr
      (ae_of_all _ fun a => mul_comm _ _)
    rw [Real.norm_eq_abs, le_div_iff₀ hα, ← abs_of_pos hα, ← abs_mul, abs_of_pos hα, mul_comm]
    have e : α * Real.log (boltzmann μ α Q s a) = Q s a - softMax μ α Q s := by linarith [log_boltzmann hα hμ hQ s a]
    rw [e]
    exact (abs_sub _ _).trans (add_le_add (hC s a) le_rfl)

/-- `p log g - p log p` is at most `g - p`. -/
theorem log_gap {x g : ℝ} (hx : 0 ≤ x) (hg : 0 < g) : 0 ≤ g - x - (x * Real.log g - x * Real.log x) ∧ (g - x - (x * Real.log g - x * Real.log x) = 0 ↔ x = g) := by
  rcases hx.eq_or_lt with rfl | hx
  · simp only [zero_mul, sub_zero]
    exact ⟨hg.le, ⟨fun h => h.symm, fun h => h.symm⟩⟩
  · have h1 : x * Real.log g - x * Real.log x = x * Real.log (g / x) := by rw [Real.log_div hg.ne' hx.ne']; ring
    have h2 : g - x = x * (g / x - 1) := by field_simp
    rw [h1, h2, ← mul_sub]
    have h3 := Real.log_le_sub_one_of_pos (div_pos hg hx)
    refine ⟨mul_nonneg hx.le (by linarith), ⟨fun h => ?_, fun h => ?_⟩⟩
    · by_contra hne
      have h4 : g / x ≠ 1 := fun h => hne ((div_eq_one_iff_eq hx.ne').1 h).symm
      have h5 := Real.log_lt_sub_one_of_pos (div_pos hg hx) h4
      have := mul_pos hx (sub_pos.2 h5)
      linarith
    · subst h; rw [div_self hx.ne']; simp

omit [Fintype S] in
/-- What is lost with respect to the best density. -/
theorem gibbs_gap (hα : 0 < α) (hμ : μ ≠ 0) (hp : IsPolicy μ p) {Q : S → A → ℝ} (hQ : Regular Q) (s : S) :
    Integrable (fun a => boltzmann μ α Q s a - p s a - (p s a * Real.log (boltzmann μ α Q s a) - p s a * Real.log (p s a))) μ ∧
    softMax μ α Q s - soft μ α p Q s = α * ∫ a, (boltzmann μ α Q s a - p s a - (p s a * Real.log (boltzmann μ α Q s a) - p s a * Real.log (p s a))) ∂μ := by
  have hg := boltzmann_policy hα hμ hQ
  have e : ∀ a, p s a * Real.log (boltzmann μ α Q s a) = (p s a * Q s a - p s a * softMax μ α Q s) / α := by
    intro a
    rw [eq_div_iff hα.ne']
    have := log_boltzmann hα hμ hQ s a
    linear_combination (-(p s a)) * this
  have hi1 : Integrable (fun a => p s a * Real.log (boltzmann μ α Q s a)) μ := by
    simp only [e]
    exact ((hp.weighted hQ s).sub ((hp.integrable s).mul_const _)).div_const _
  have hi := ((hg.integrable s).sub (hp.integrable s)).sub (hi1.sub (hp.entropy s))
  refine ⟨hi, ?_⟩
  have h1 : ∫ a, p s a * Real.log (boltzmann μ α Q s a) ∂μ = (∫ a, p s a * Q s a ∂μ - softMax μ α Q s) / α := by
    simp only [e]
    rw [integral_div, integral_sub (hp.weighted hQ s) ((hp.integrable s).mul_const _), integral_mul_const, hp.one, one_mul]
  have h2 : soft μ α p Q s = ∫ a, p s a * Q s a ∂μ - α * ∫ a, p s a * Real.log (p s a) ∂μ := by
    unfold soft
    have : ∀ a, p s a * (Q s a - α * Real.log (p s a)) = p s a * Q s a - α * (p s a * Real.log (p s a)) := fun a => by ring
    simp only [this]
    rw [integral_sub (hp.weighted hQ s) ((hp.entropy s).const_mul α), integral_const_mul]
  have h3 : ∫ a, (boltzmann μ α Q s a - p s a - (p s a * Real.log (boltzmann μ α Q s a) - p s a * Real.log (p s a))) ∂μ =
      (1 - 1) - (∫ a, p s a * Real.log (boltzmann μ α Q s a) ∂μ - ∫ a, p s a * Real.log (p s a) ∂μ) := by
    rw [← hp.one s]
    conv_rhs => enter [1, 1]; rw [hp.one s, ← hg.one s]
    rw [← integral_sub (hg.integrable s) (hp.integrable s), ← integral_sub hi1 (hp.entropy s)]
    exact integral_sub ((hg.integrable s).sub (hp.integrable s)) (hi1.sub (hp.entropy s))
  rw [h3, h2, h1]
  field_simp
  ring

omit [Fintype S] in
theorem soft_le (hα : 0 < α) (hμ : μ ≠ 0) (hp : IsPolicy μ p) {Q : S → A → ℝ} (hQ : Regular Q) (s : S) : soft μ α p Q s ≤ softMax μ α Q s := by
  have := (gibbs_gap hα hμ hp hQ s).2
  have h := mul_nonneg hα.le (integral_nonneg (μ := μ) fun a => (log_gap (hp.nonneg s a) (boltzmann_pos (α := α) hμ hQ s a)).1)
  linarith

omit [Fintype S] in
theorem soft_eq_iff (hα : 0 < α) (hμ : μ ≠ 0) (hp : IsPolicy μ p) {Q : S → A → ℝ} (hQ : Regular Q) (s : S) :
    soft μ α p Q s = softMax μ α Q s ↔ p s =ᵐ[μ] boltzmann μ α Q s := by
  obtain ⟨hi, he⟩ := gibbs_gap hα hμ hp hQ s
  have h0 := integral_eq_zero_iff_of_nonneg (μ := μ) (fun a => (log_gap (hp.nonneg s a) (boltzmann_pos (α := α) hμ hQ s a)).1) hi
  constructor
  · intro h
    rw [h, sub_self, eq_comm, mul_eq_zero, or_iff_right hα.ne'] at he
    filter_upwards [h0.1 he] with a ha
    exact (log_gap (hp.nonneg s a) (boltzmann_pos (α := α) hμ hQ s a)).2.1 ha
  · intro h
    have : ∫ a, (boltzmann μ α Q s a - p s a - (p s a * Real.log (boltzmann μ α Q s a) - p s a * Real.log (p s a))) ∂μ = 0 := by
      refine h0.2 ?_
      filter_upwards [h] with a ha
      exact (log_gap (hp.nonneg s a) (boltzmann_pos (α := α) hμ hQ s a)).2.2 ha
    rw [this, mul_zero] at he
    linarith

omit [Fintype S] in
theorem soft_boltzmann (hα : 0 < α) (hμ : μ ≠ 0) {Q : S → A → ℝ} (hQ : Regular Q) (s : S) : soft μ α (boltzmann μ α Q) Q s = softMax μ α Q s :=
  (soft_eq_iff hα hμ (boltzmann_policy hα hμ hQ) hQ s).2 (ae_eq_refl _)

omit [Fintype S] in
theorem softMax_close (hα : 0 < α) (hμ : μ ≠ 0) {Q Q' : S → A → ℝ} (hQ : Regular Q) (hQ' : Regular Q') {s : S} {ε : ℝ} (h : ∀ a, |Q s a - Q' s a| ≤ ε) :
    |softMax μ α Q s - softMax μ α Q' s| ≤ ε := by
  have h1 := soft_le hα hμ (boltzmann_policy hα hμ hQ) hQ' s
  have h2 := soft_le hα hμ (boltzmann_policy hα hμ hQ') hQ s
  have h3 := abs_le.1 (soft_close (α := α) (boltzmann_policy hα hμ hQ) hQ hQ' h)
  have h4 := abs_le.1 (soft_close (α := α) (boltzmann_policy hα hμ hQ') hQ hQ' h)
  rw [soft_boltzmann hα hμ hQ] at h3
  rw [soft_boltzmann hα hμ hQ'] at h4
  rw [abs_le]
  constructor <;> linarith

/-- The optimal soft values are the solution of the soft Bellman optimality equation. -/
theorem optimal_of_solves (h0 : 0 ≤ γ) (h1 : γ < 1) (hα : 0 < α) (hμ : μ ≠ 0) {Q : S → A → ℝ} (h : Q = ahead m γ (softMax μ α Q)) : OptimalSoftValues m μ γ α Q := by
  have hQ : Regular Q := by rw [h]; exact ahead_regular m γ _
  have hb := boltzmann_policy hα hμ hQ
  refine ⟨⟨_, hb, (softValues_iff h0 h1 hb Q).2 ?_⟩, fun p Q' hp hQ' => ?_⟩
  · have : soft μ α (boltzmann μ α Q) Q = softMax μ α Q := funext fun s => soft_boltzmann hα hμ hQ s
    rw [Solves, this]
    exact h
  · have hs := (softValues_iff h0 h1 hp Q').1 hQ'
    -- one step of the best density on `Q'` is at least `Q'`; iterate
    obtain ⟨C, hC⟩ := hQ.2
    obtain ⟨C', hC'⟩ := hs.regular.2
    have hk : ∀ n : ℕ, ∀ s a, Q' s a - Q s a ≤ γ ^ n * (|C| + |C'|) := by
      intro n
      induction n with
      | zero =>
        intro s a
        rw [pow_zero, one_mul]
        have h2 := (abs_le.1 (hC s a)).1
        have h3 := (abs_le.1 (hC' s a)).2
        linarith [le_abs_self C, le_abs_self C']
      | succ n ih =>
        intro s a
        have e : Q' s a = ahead m γ (soft μ α p Q') s a := congrFun (congrFun hs s) a
        have e' : Q s a = ahead m γ (softMax μ α Q) s a := congrFun (congrFun h s) a
        have hr : Regular fun s a => Q s a + γ ^ n * (|C| + |C'|) :=
          ⟨fun s => (hQ.1 s).add_const _, C + |γ ^ n * (|C| + |C'|)|, fun s a => (abs_add_le _ _).trans (add_le_add (hC s a) le_rfl)⟩
        have h4 : ∀ s, soft μ α p Q' s ≤ softMax μ α Q s + γ ^ n * (|C| + |C'|) := by
          intro s
          have h5 := soft_mono (α := α) (s := s) hp hs.regular hr (fun a => by linarith [ih s a])
          have h6 := soft_le hα hμ hp hr s
          have h7 := softMax_close hα hμ hr hQ (s := s) (ε := γ ^ n * (|C| + |C'|)) (fun a => by rw [add_sub_cancel_left, abs_of_nonneg (by positivity)])
          linarith [(abs_le.1 h7).2]
        have h6 := ahead_mono (m := m) h0 h4 s a
        have h7 := ahead_close (m := m) h0 (V := fun s => softMax μ α Q s + γ ^ n * (|C| + |C'|)) (V' := softMax μ α Q) (ε := γ ^ n * (|C| + |C'|)) (by positivity)
          (fun s => by rw [add_sub_cancel_left, abs_of_nonneg (by positivity)]) s a
        have h8 := (abs_le.1 h7).2
        rw [pow_succ, mul_comm (γ ^ n), mul_assoc]
        linarith
    intro s a
    have ht : Tendsto (fun n : ℕ => γ ^ n * (|C| + |C'|)) atTop (𝓝 0) := by
      simpa using (tendsto_pow_atTop_nhds_zero_of_lt_one h0 h1).mul_const (|C| + |C'|)
    have := ge_of_tendsto' ht (fun n => hk n s a)
    linarith

theorem optimal_exists (h0 : 0 ≤ γ) (h1 : γ < 1) (hα : 0 < α) (hμ : μ ≠ 0) : ∃ Q, Q = ahead m γ (softMax μ α Q) := by
  obtain ⟨V, hV⟩ := fixed_exists h0 h1 (fun V => softMax μ α (ahead m γ V)) fun V V' ε hε h s =>
    softMax_close hα hμ (ahead_regular m γ V) (ahead_regular m γ V') (fun a => ahead_close h0 hε h s a)
  exact ⟨ahead m γ V, by rw [hV]⟩

/-! ### Expectations of what the code computes -/

section code

variable {ν : Measure N} [IsProbabilityMeasure ν] {act : N → S → A × ℝ}

omit [Fintype S] [IsFiniteMeasure μ] [IsProbabilityMeasure ν] in
theorem expect_draws (hp : IsPolicy μ p) (hd : Draws μ ν act p) (f : A → ℝ) (hf : Measurable f) (s : S) :
    ∫ n, (f (act n s).1 - α * (act n s).2) ∂ν = ∫ a, p s a * (f a - α * Real.log (p s a)) ∂μ := by
  have h1 : ∫ n, (f (act n s).1 - α * (act n s).2) ∂ν = ∫ n, (fun a => f a - α * Real.log (p s a)) (act n s).1 ∂ν := by
    refine integral_congr_ae ?_
    filter_upwards [hd.logProb s] with n hn
    rw [hn]
  have hm : Measurable fun a => f a - α * Real.log (p s a) := hf.sub ((hp.measurable s).log.const_mul α)
  rw [h1, ← integral_map (hd.measurable s).aemeasurable hm.aestronglyMeasurable, hd.law s,
    integral_withDensity_eq_integral_toReal_smul (hp.measurable s).ennreal_ofReal (ae_of_all _ fun a => ENNReal.ofReal_lt_top)]
  refine integral_congr_ae (ae_of_all _ fun a => ?_)
  simp only [smul_eq_mul]
  rw [ENNReal.toReal_ofReal (hp.nonneg s a)]

omit [Fintype S] [IsFiniteMeasure μ] in
theorem draws_integrable (hp : IsPolicy μ p) (hd : Draws μ ν act p) {Q : S → A → ℝ} (hQ : Regular Q) (s : S) :
    Integrable (fun n => Q s (act n s).1 - α * (act n s).2) ν := by
  have hm : Measurable fun a => Q s a - α * Real.log (p s a) := (hQ.1 s).sub ((hp.measurable s).log.const_mul α)
  have h : Integrable (fun a => Q s a - α * Real.log (p s a)) (ν.map fun n => (act n s).1) := by
    rw [hd.law s, integrable_withDensity_iff_integrable_smul' (hp.measurable s).ennreal_ofReal (ae_of_all _ fun a => ENNReal.ofReal_lt_top)]
    refine (hp.softIntegrable (α := α) hQ s).congr (ae_of_all _ fun a => ?_)
    simp only [smul_eq_mul]
    rw [ENNReal.toReal_ofReal (hp.nonneg s a)]
  refine (h.comp_measurable (hd.measurable s)).congr ?_
  filter_upwards [hd.logProb s] with n hn
  simp only [Function.comp_apply, hn]

/-- The smaller prediction of two critics. -/
def lesser (q r : S → A → ℝ) : S → A → ℝ := fun s a => min (q s a) (r s a)

omit [Fintype S] in
theorem lesser_regular {q r : S → A → ℝ} (hq : Regular q) (hr : Regular r) : Regular (lesser q r) := by
  obtain ⟨C, hC⟩ := hq.2
  obtain ⟨C', hC'⟩ := hr.2
  refine ⟨fun s => (hq.1 s).min (hr.1 s), max C C', fun s a => ?_⟩
  unfold lesser
  rcases min_choice (q s a) (r s a) with h | h <;> rw [h]
  · exact (hC s a).trans (le_max_left _ _)
  · exact (hC' s a).trans (le_max_right _ _)

omit [IsFiniteMeasure μ] in
/-- The expected target is the expected reward plus the discounted expected soft value of the lesser prediction. -/
theorem expectedTarget_eq (y : SacSys S A D M N ι κ O) (θ : κ → ℝ) (hp : IsPolicy μ p) (hd : Draws μ ν (y.act θ) p) (logAlpha : ℝ) (w w' : ι → ℝ)
    (hw : ∀ s, Measurable (y.value w s)) (hw' : ∀ s, Measurable (y.value w' s)) (hi : ∀ s, Integrable (fun n => lesser (y.value w) (y.value w') s (y.act θ n s).1 - Real.exp logAlpha * (y.act θ n s).2) ν)
    (s : S) (a : A) :
    expectedTarget y ν m θ logAlpha [w, w'] s a = ahead m y.gamma (soft μ (Real.exp logAlpha) p (lesser (y.value w) (y.value w'))) s a := by
  unfold expectedTarget ahead
  refine Finset.sum_congr rfl fun s' _ => ?_
  congr 1
  have e : ∀ n, (targets y θ logAlpha [w, w'] [n] [⟨s, a, m.reward s a s', s', m.final s'⟩]).sum =
      m.reward s a s' + y.gamma * ((lesser (y.value w) (y.value w') s' (y.act θ n s').1 - Real.exp logAlpha * (y.act θ n s').2) * DQN.alive (m.final s')) := by
    intro n
    simp [targets, bellman, sacNext, mask, minOf, lesser]
  simp only [e]
  rw [integral_add (integrable_const _) (((hi s').mul_const _).const_mul _), integral_const, integral_const_mul, integral_mul_const]
  simp only [probReal_univ, one_smul]
  congr 2
  rw [expect_draws hp hd (lesser (y.value w) (y.value w') s') ((hw s').min (hw' s'))]
  unfold soft lesser DQN.alive
  split <;> simp_all

omit [Fintype S] [IsFiniteMeasure μ] [IsProbabilityMeasure ν] in
/-- The expected loss of the actor is the opposite of the soft value of the lesser prediction. -/
theorem expectedLoss_eq (y : SacSys S A D M N ι κ O) (θ : κ → ℝ) (hp : IsPolicy μ p) (hd : Draws μ ν (y.act θ) p) (logAlpha : ℝ) (w w' : ι → ℝ)
    (hw : ∀ s, Measurable (y.value w s)) (hw' : ∀ s, Measurable (y.value w' s)) (t : Trans S A) :
    expectedLoss y ν θ logAlpha [w, w'] t = -soft μ (Real.exp logAlpha) p (lesser (y.value w) (y.value w')) t.state := by
  have e : ∀ n, actorLoss y [n] [t] θ [w, w'] logAlpha = -(lesser (y.value w) (y.value w') t.state (y.act θ n t.state).1 - Real.exp logAlpha * (y.act θ n t.state).2) := by
    intro n
    simp [actorLoss, meanOf, minOf, lesser]
  unfold expectedLoss
  simp only [e]
  rw [integral_neg, expect_draws hp hd (lesser (y.value w) (y.value w') t.state) ((hw t.state).min (hw' t.state))]
  rfl

end code

end

end Verif.ActorCritic.MaxEnt
