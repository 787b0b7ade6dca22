/-
Property C172: what DDPG and TD3 learn.
-/
import Verif.ActorCritic.SpecPlain
import Verif.ActorCritic.PropsSoft
import Mathlib.Probability.Distributions.Gaussian.Real
import Mathlib.MeasureTheory.Constructions.BorelSpace.Order

namespace Verif.ActorCritic.Plain

open MeasureTheory Filter Topology
open Verif.TD (Trans)
open Verif.ActorCritic.Determ
open Verif.ActorCritic.MaxEnt (Problem ahead Regular ahead_regular ahead_mono ahead_close ahead_shift fixed_exists lesser lesser_regular)

noncomputable section

variable {S A D M ι κ O : Type} [Fintype S] [MeasurableSpace A] [MeasurableSpace M]
variable {m : Problem S A} {γ : ℝ} {π π' : S → Measure A} {Q Q' : S → A → ℝ}

/-! ### Values -/

omit [Fintype S] in
theorem mean_integrable (hπ : ∀ s, IsProbabilityMeasure (π s)) (hQ : Regular Q) (s : S) : Integrable (Q s) (π s) := by
  obtain ⟨C, hC⟩ := hQ.2
  have := hπ s
  exact Integrable.of_bound (hQ.1 s).aestronglyMeasurable C (ae_of_all _ fun a => hC s a)

omit [Fintype S] in
theorem mean_shift (hπ : ∀ s, IsProbabilityMeasure (π s)) (hQ : Regular Q) (hQ' : Regular Q') {s : S} {c : ℝ} (h : ∀ a, Q s a ≤ Q' s a + c) : mean π Q s ≤ mean π Q' s + c := by
  have := hπ s
  have e : mean π Q' s + c = ∫ a, (Q' s a + c) ∂π s := by
    rw [integral_add (mean_integrable hπ hQ' s) (integrable_const c), integral_const]
    simp [mean]
  rw [e]
  exact integral_mono (mean_integrable hπ hQ s) ((mean_integrable hπ hQ' s).add (integrable_const c)) h

omit [Fintype S] in
theorem mean_le (hπ : ∀ s, IsProbabilityMeasure (π s)) (hQ : Regular Q) {s : S} {c : ℝ} (h : ∀ a, Q s a ≤ c) : mean π Q s ≤ c := by
  have := hπ s
  calc mean π Q s ≤ ∫ _, c ∂π s := integral_mono (mean_integrable hπ hQ s) (integrable_const c) h
    _ = c := by simp

omit [Fintype S] in
theorem mean_close (hπ : ∀ s, IsProbabilityMeasure (π s)) (hQ : Regular Q) (hQ' : Regular Q') {s : S} {ε : ℝ} (h : ∀ a, |Q s a - Q' s a| ≤ ε) :
    |mean π Q s - mean π Q' s| ≤ ε := by
  have h1 := mean_shift hπ hQ hQ' (s := s) (c := ε) fun a => by linarith [(abs_le.1 (h a)).2]
  have h2 := mean_shift hπ hQ' hQ (s := s) (c := ε) fun a => by linarith [(abs_le.1 (h a)).1]
  rw [abs_le]
  constructor <;> linarith

omit [Fintype S] in
theorem mean_always {act : S → A} (hQ : ∀ s, Measurable (Q s)) (s : S) : mean (always act) Q s = Q s (act s) := integral_dirac' _ _ (hQ s).stronglyMeasurable

omit [Fintype S] in
theorem always_prob (act : S → A) (s : S) : IsProbabilityMeasure (always act s) := by unfold always; infer_instance

/-- The Bellman equation of a policy. -/
def Solves (m : Problem S A) (γ : ℝ) (π : S → Measure A) (Q : S → A → ℝ) : Prop := Q = ahead m γ (mean π Q)

theorem Solves.regular (h : Solves m γ π Q) : Regular Q := by rw [h]; exact ahead_regular m γ _

theorem nReturn_regular (n : ℕ) : Regular (nReturn m γ π n) := by cases n <;> exact ahead_regular m γ _

/-- What exceeds its Bellman update by at most `d` exceeds the values by at most `d / (1 - γ)`. -/
theorem below (h0 : 0 ≤ γ) (h1 : γ < 1) (hπ : ∀ s, IsProbabilityMeasure (π s)) (hQ : Regular Q) (hQ' : Solves m γ π Q') {d : ℝ} (hd : 0 ≤ d)
    (h : ∀ s a, Q s a ≤ ahead m γ (mean π Q) s a + d) (s : S) (a : A) : Q s a ≤ Q' s a + d / (1 - γ) := by
  obtain ⟨C, hC⟩ := hQ.2
  obtain ⟨C', hC'⟩ := hQ'.regular.2
  have hg : (0 : ℝ) < 1 - γ := by linarith
  have step : ∀ n : ℕ, ∀ s a, Q s a ≤ Q' s a + (γ ^ n * (|C| + |C'|) + d / (1 - γ)) := by
    intro n
    induction n with
    | zero =>
      intro s a
      have e1 := (le_abs_self _).trans ((hC s a).trans (le_abs_self C))
      have e2 := (neg_abs_le (Q' s a))
      have e3 := (hC' s a).trans (le_abs_self C')
      have e4 : 0 ≤ d / (1 - γ) := by positivity
      rw [pow_zero, one_mul]
      linarith
    | succ n ih =>
      intro s a
      have e : Q' s a = ahead m γ (mean π Q') s a := congrFun (congrFun hQ' s) a
      have h2 := ahead_shift (m := m) h0 (c := γ ^ n * (|C| + |C'|) + d / (1 - γ)) (by positivity) (fun s => mean_shift hπ hQ hQ'.regular (ih s)) s a
      have h3 : γ * (d / (1 - γ)) + d = d / (1 - γ) := by field_simp; ring
      rw [pow_succ, e]
      nlinarith [h s a]
  have ht : Tendsto (fun n : ℕ => Q' s a + (γ ^ n * (|C| + |C'|) + d / (1 - γ))) atTop (𝓝 (Q' s a + (0 * (|C| + |C'|) + d / (1 - γ)))) :=
    ((((tendsto_pow_atTop_nhds_zero_of_lt_one h0 h1).mul_const _).add_const _).const_add _)
  rw [zero_mul, zero_add] at ht
  exact ge_of_tendsto' ht fun n => step n s a

/-- What its Bellman update exceeds by at most `d` is exceeded by the values by at most `d / (1 - γ)`. -/
theorem above (h0 : 0 ≤ γ) (h1 : γ < 1) (hπ : ∀ s, IsProbabilityMeasure (π s)) (hQ : Regular Q) (hQ' : Solves m γ π Q') {d : ℝ} (hd : 0 ≤ d)
    (h : ∀ s a, ahead m γ (mean π Q) s a ≤ Q s a + d) (s : S) (a : A) : Q' s a ≤ Q s a + d / (1 - γ) := by
  obtain ⟨C, hC⟩ := hQ.2
  obtain ⟨C', hC'⟩ := hQ'.regular.2
  have hg : (0 : ℝ) < 1 - γ := by linarith
  have step : ∀ n : ℕ, ∀ s a, Q' s a ≤ Q s a + (γ ^ n * (|C| + |C'|) + d / (1 - γ)) := by
    intro n
    induction n with
    | zero =>
      intro s a
      have e1 := (le_abs_self _).trans ((hC' s a).trans (le_abs_self C'))
      have e2 := (neg_abs_le (Q s a))
      have e3 := (hC s a).trans (le_abs_self C)
      have e4 : 0 ≤ d / (1 - γ) := by positivity
      rw [pow_zero, one_mul]
      linarith
    | succ n ih =>
      intro s a
      have e : Q' s a = ahead m γ (mean π Q') s a := congrFun (congrFun hQ' s) a
      have h2 := ahead_shift (m := m) h0 (c := γ ^ n * (|C| + |C'|) + d / (1 - γ)) (by positivity) (fun s => mean_shift hπ hQ'.regular hQ (ih s)) s a
      have h3 : γ * (d / (1 - γ)) + d = d / (1 - γ) := by field_simp; ring
      rw [pow_succ, e]
      nlinarith [h s a]
  have ht : Tendsto (fun n : ℕ => Q s a + (γ ^ n * (|C| + |C'|) + d / (1 - γ))) atTop (𝓝 (Q s a + (0 * (|C| + |C'|) + d / (1 - γ)))) :=
    ((((tendsto_pow_atTop_nhds_zero_of_lt_one h0 h1).mul_const _).add_const _).const_add _)
  rw [zero_mul, zero_add] at ht
  exact ge_of_tendsto' ht fun n => step n s a

theorem solves_values (h0 : 0 ≤ γ) (h1 : γ < 1) (hπ : ∀ s, IsProbabilityMeasure (π s)) (h : Solves m γ π Q) : Values m γ π Q := by
  obtain ⟨C, hC⟩ := h.regular.2
  obtain ⟨C', hC'⟩ := (nReturn_regular (m := m) (γ := γ) (π := π) 0).2
  have hb : ∀ n s a, |nReturn m γ π n s a - Q s a| ≤ γ ^ n * (|C| + |C'|) := by
    intro n
    induction n with
    | zero =>
      intro s a
      rw [pow_zero, one_mul]
      have e1 := (hC s a).trans (le_abs_self C)
      have e2 := (hC' s a).trans (le_abs_self C')
      calc _ ≤ |nReturn m γ π 0 s a| + |Q s a| := abs_sub _ _
        _ ≤ _ := by linarith
    | succ n ih =>
      intro s a
      have e : Q s a = ahead m γ (mean π Q) s a := congrFun (congrFun h s) a
      rw [e, nReturn, pow_succ, mul_comm (γ ^ n), mul_assoc]
      exact ahead_close h0 (by positivity) (fun s => mean_close hπ (nReturn_regular n) h.regular (ih s)) s a
  intro s a
  have ht : Tendsto (fun n : ℕ => γ ^ n * (|C| + |C'|)) atTop (𝓝 0) := by
    simpa using (tendsto_pow_atTop_nhds_zero_of_lt_one h0 h1).mul_const (|C| + |C'|)
  rw [tendsto_iff_norm_sub_tendsto_zero]
  exact squeeze_zero (fun n => norm_nonneg _) (fun n => by rw [Real.norm_eq_abs]; exact hb n s a) ht

theorem solves_exists (h0 : 0 ≤ γ) (h1 : γ < 1) (hπ : ∀ s, IsProbabilityMeasure (π s)) : ∃ Q, Solves m γ π Q := by
  obtain ⟨V, hV⟩ := fixed_exists h0 h1 (fun V => mean π (ahead m γ V)) fun V V' ε hε h s =>
    mean_close hπ (ahead_regular m γ V) (ahead_regular m γ V') (fun a => ahead_close h0 hε h s a)
  exact ⟨ahead m γ V, by rw [Solves, hV]⟩

theorem values_iff (h0 : 0 ≤ γ) (h1 : γ < 1) (hπ : ∀ s, IsProbabilityMeasure (π s)) (Q : S → A → ℝ) : Values m γ π Q ↔ Solves m γ π Q := by
  refine ⟨fun h => ?_, solves_values h0 h1 hπ⟩
  obtain ⟨Q', hQ'⟩ := solves_exists (m := m) h0 h1 hπ
  have : Q = Q' := by
    funext s a
    exact tendsto_nhds_unique (h s a) (solves_values h0 h1 hπ hQ' s a)
  rw [this]
  exact hQ'

/-- C172. Every policy has action values. -/
theorem C172_values (m : Problem S A) (γ : ℝ) (h0 : 0 ≤ γ) (h1 : γ < 1) (π : S → Measure A) (hπ : ∀ s, IsProbabilityMeasure (π s)) : ∃! Q, Values m γ π Q := by
  obtain ⟨Q, hQ⟩ := solves_exists (m := m) h0 h1 hπ
  exact ⟨Q, solves_values h0 h1 hπ hQ, fun Q' h => funext fun s => funext fun a => tendsto_nhds_unique (h s a) (solves_values h0 h1 hπ hQ s a)⟩

/-- `C172_values`: a policy that takes one of two actions at random. -/
example : ∃! Q, Values MaxEnt.twoArms (1 / 2) (fun _ => MaxEnt.uniform01.map fun x => decide (x < 1 / 3)) Q :=
  C172_values MaxEnt.twoArms (1 / 2) (by norm_num) (by norm_num) _ fun _ =>
    Measure.isProbabilityMeasure_map (measurable_to_bool (by
      have : (fun x : ℝ => decide (x < 1 / 3)) ⁻¹' {true} = Set.Iio (1 / 3) := by ext x; simp
      rw [this]
      exact measurableSet_Iio)).aemeasurable

/-! ### DDPG -/

section ddpg

variable {ν : Measure M} [IsProbabilityMeasure ν]

theorem ddpg_target (y : Sys S A D M ι κ O) (hq : y.nextQ = ddpgNextQ y.pick y.value y.act) (hp : ∀ x, y.pick [x] = x) (θ : κ → ℝ) (w : ι → ℝ) (hr : ∀ s, Measurable (y.value w s)) (s : S) (a : A) :
    expectedTarget y ν m θ [w] s a = ahead m y.gamma (mean (always (y.act θ)) (y.value w)) s a := by
  unfold expectedTarget ahead
  refine Finset.sum_congr rfl fun s' _ => ?_
  congr 1
  simp only [hq, ddpgNextQ, ddpgNext, bellman, mask, List.map_cons, List.map_nil, hp, List.zipWith_cons_cons, List.zipWith_nil_left, List.sum_cons, List.sum_nil, add_zero,
    integral_const, probReal_univ, one_smul, mean_always hr, DQN.alive]
  split <;> simp_all

/-- C172. A critic of DDPG predicts, for every state and action, the expectation of the targets computed from itself and from the actor if and only if it predicts the action values of the
actor. -/
theorem C172_ddpg_critic (y : Sys S A D M ι κ O) (hq : y.nextQ = ddpgNextQ y.pick y.value y.act) (hp : ∀ x, y.pick [x] = x) (h0 : 0 ≤ y.gamma) (h1 : y.gamma < 1) (θ : κ → ℝ) (w : ι → ℝ)
    (hr : Regular (y.value w)) : Settled y ν m θ [w] 0 ↔ Values m y.gamma (always (y.act θ)) (y.value w) := by
  rw [values_iff h0 h1 (always_prob _)]
  simp only [Settled, List.mem_singleton, forall_eq, ddpg_target y hq hp θ w hr.1, abs_nonpos_iff, sub_eq_zero]
  exact ⟨fun h => funext fun s => funext fun a => h s a, fun h s a => congrFun (congrFun h s) a⟩

/-- C172. An error of at most `δ` in predicting the expectation of the targets is an error of at most `δ / (1 - γ)` in predicting the values of the actor. -/
theorem C172_ddpg_error (y : Sys S A D M ι κ O) (hq : y.nextQ = ddpgNextQ y.pick y.value y.act) (hp : ∀ x, y.pick [x] = x) (h0 : 0 ≤ y.gamma) (h1 : y.gamma < 1) (θ : κ → ℝ) (w : ι → ℝ)
    (hr : Regular (y.value w)) (δ : ℝ) (hδ : 0 ≤ δ) (hs : Settled y ν m θ [w] δ) (Q : S → A → ℝ) (hQ : Values m y.gamma (always (y.act θ)) Q) (s : S) (a : A) :
    |y.value w s a - Q s a| ≤ δ / (1 - y.gamma) := by
  rw [values_iff h0 h1 (always_prob _)] at hQ
  simp only [Settled, List.mem_singleton, forall_eq, ddpg_target y hq hp θ w hr.1] at hs
  have e1 := below h0 h1 (always_prob _) hr hQ hδ (fun s a => by linarith [(abs_le.1 (hs s a)).2]) s a
  have e2 := above h0 h1 (always_prob _) hr hQ hδ (fun s a => by linarith [(abs_le.1 (hs s a)).1]) s a
  rw [abs_le]
  constructor <;> linarith

/-- C172. If the critic predicts the expectation of its targets with an error of at most `δ`, and the loss of the actor is in every state within `η` of that of any action, then no policy,
deterministic or not, has an expected return greater than that of the actor by more than `(2 δ + η) / (1 - γ)`. With `δ = η = 0` the actor is optimal. -/
theorem C172_ddpg_optimal (y : Sys S A D M ι κ O) (hq : y.nextQ = ddpgNextQ y.pick y.value y.act) (hp : ∀ x, y.pick [x] = x) (h0 : 0 ≤ y.gamma) (h1 : y.gamma < 1) (θ : κ → ℝ) (w : ι → ℝ)
    (hr : Regular (y.value w)) (δ η : ℝ) (hδ : 0 ≤ δ) (hη : 0 ≤ η) (hs : Settled y ν m θ [w] δ) (hm : Minimises y θ [w] η) (Q : S → A → ℝ) (hQ : Values m y.gamma (always (y.act θ)) Q)
    (π : S → Measure A) (hπ : ∀ s, IsProbabilityMeasure (π s)) (Q' : S → A → ℝ) (hQ' : Values m y.gamma π Q') (s : S) :
    mean π Q' s ≤ mean (always (y.act θ)) Q s + (2 * δ + η) / (1 - y.gamma) := by
  have he := C172_ddpg_error y hq hp h0 h1 θ w hr δ hδ hs Q hQ
  rw [values_iff h0 h1 hπ] at hQ'
  rw [values_iff h0 h1 (always_prob _)] at hQ
  simp only [Settled, List.mem_singleton, forall_eq, ddpg_target y hq hp θ w hr.1] at hs
  have hg : (0 : ℝ) < 1 - y.gamma := by linarith
  have hmax : ∀ s a, y.value w s a ≤ y.value w s (y.act θ s) + η := by
    intro s a
    have := hm ⟨s, a, 0, s, false⟩ a
    simp only [actorLoss, List.map_cons, List.map_nil, hp, meanOf, List.sum_cons, List.sum_nil, List.length_cons, List.length_nil] at this
    norm_num at this
    linarith
  have e1 : ∀ s a, Q' s a ≤ y.value w s a + (δ + y.gamma * η) / (1 - y.gamma) := by
    refine above h0 h1 hπ hr hQ' (by positivity) fun s a => ?_
    have := ahead_shift (m := m) h0 hη (V := mean (always (y.act θ)) (y.value w)) (V' := mean π (y.value w)) (fun s => by rw [mean_always hr.1]; exact mean_le hπ hr (hmax s)) s a
    linarith [(abs_le.1 (hs s a)).1]
  rw [mean_always hQ.regular.1]
  refine mean_le hπ hQ'.regular fun a => ?_
  have e2 := e1 s a
  have e3 := hmax s a
  have e4 := (abs_le.1 (he s (y.act θ s))).2
  have e5 : (2 * δ + η) / (1 - y.gamma) = (δ + y.gamma * η) / (1 - y.gamma) + η + δ / (1 - y.gamma) := by field_simp; ring
  linarith

/-- C172. Policy improvement: if the critic predicts the values of the actor `θ`, and in every state the loss of another actor is not larger than that of `θ`, then the values of the
other actor are at least those of `θ`. -/
theorem C172_ddpg_improvement (y : Sys S A D M ι κ O) (hq : y.nextQ = ddpgNextQ y.pick y.value y.act) (hp : ∀ x, y.pick [x] = x) (h0 : 0 ≤ y.gamma) (h1 : y.gamma < 1) (θ θ' : κ → ℝ) (w : ι → ℝ)
    (hr : Regular (y.value w)) (hs : Settled y ν m θ [w] 0) (hl : ∀ t, actorLoss y [t] θ' [w] ≤ actorLoss y [t] θ [w]) (Q' : S → A → ℝ) (hQ' : Values m y.gamma (always (y.act θ')) Q') (s : S) (a : A) :
    y.value w s a ≤ Q' s a := by
  rw [values_iff h0 h1 (always_prob _)] at hQ'
  simp only [Settled, List.mem_singleton, forall_eq, ddpg_target y hq hp θ w hr.1] at hs
  have := below h0 h1 (always_prob _) hr hQ' (d := 0) le_rfl (fun s a => ?_) s a
  · simpa using this
  · have e := hs s a
    rw [abs_nonpos_iff, sub_eq_zero] at e
    rw [e, add_zero]
    refine ahead_mono h0 (fun s => ?_) s a
    rw [mean_always hr.1, mean_always hr.1]
    have := hl ⟨s, a, 0, s, false⟩
    simp only [actorLoss, List.map_cons, List.map_nil, hp, meanOf, List.sum_cons, List.sum_nil, List.length_cons, List.length_nil] at this
    norm_num at this
    linarith

end ddpg

/-! ### TD3 -/

section td3

variable {d : ℕ} {ν : Measure M} [IsProbabilityMeasure ν] {m : Problem S (Fin d → ℝ)}

theorem measurable_smooth (c : ℝ) (low high a : Fin d → ℝ) : Measurable (smooth c low high a) := by
  refine measurable_pi_lambda _ fun j => ?_
  unfold smooth clip
  exact (((((measurable_pi_apply j).max measurable_const).min measurable_const).const_add _).max measurable_const).min measurable_const

theorem noisy_prob {draw : M → Fin d → ℝ} (hm : Measurable draw) (c : ℝ) (low high : Fin d → ℝ) (act : S → Fin d → ℝ) (s : S) : IsProbabilityMeasure (noisy ν draw c low high act s) :=
  Measure.isProbabilityMeasure_map ((measurable_smooth c low high (act s)).comp hm).aemeasurable

theorem mean_noisy {draw : M → Fin d → ℝ} (hm : Measurable draw) (c : ℝ) (low high : Fin d → ℝ) (act : S → Fin d → ℝ) {Q : S → (Fin d → ℝ) → ℝ} (hQ : ∀ s, Measurable (Q s)) (s : S) :
    mean (noisy ν draw c low high act) Q s = ∫ g, Q s (smooth c low high (act s) (draw g)) ∂ν :=
  integral_map ((measurable_smooth c low high (act s)).comp hm).aemeasurable (hQ s).aestronglyMeasurable

theorem td3_target (y : Sys S (Fin d → ℝ) D M ι κ O) (low high : Fin d → ℝ) (noise : M → M × ℝ × List (Fin d → ℝ)) (hq : y.nextQ = td3NextQ y.value y.act low high noise)
    (c : ℝ) (draw : M → Fin d → ℝ) (hd : Measurable draw) (hn : ∀ g, (noise g).2.1 = c ∧ (noise g).2.2.head? = some (draw g)) (θ : κ → ℝ) (w w' : ι → ℝ)
    (hr : Regular (y.value w)) (hr' : Regular (y.value w')) (s : S) (a : Fin d → ℝ) :
    expectedTarget y ν m θ [w, w'] s a = ahead m y.gamma (mean (noisy ν draw c low high (y.act θ)) (lesser (y.value w) (y.value w'))) s a := by
  unfold expectedTarget ahead
  refine Finset.sum_congr rfl fun s' _ => ?_
  congr 1
  have e : ∀ g, (bellman y.gamma [⟨s, a, m.reward s a s', s', m.final s'⟩] ((y.nextQ g).2 [w, w'] θ [⟨s, a, m.reward s a s', s', m.final s'⟩])).sum =
      m.reward s a s' + y.gamma * (lesser (y.value w) (y.value w') s' (smooth c low high (y.act θ s') (draw g)) * DQN.alive (m.final s')) := by
    intro g
    obtain ⟨h1, h2⟩ := hn g
    obtain ⟨e, l, hl⟩ : ∃ e l, (noise g).2.2 = e :: l := by
      cases h : (noise g).2.2 with
      | nil => rw [h] at h2; simp at h2
      | cons e l => exact ⟨e, l, rfl⟩
    rw [hl] at h2
    simp only [List.head?_cons, Option.some.injEq] at h2
    simp [hq, td3NextQ, td3Next, bellman, mask, minOf, lesser, h1, hl, h2]
  simp only [e]
  have hi : Integrable (fun g => lesser (y.value w) (y.value w') s' (smooth c low high (y.act θ s') (draw g))) ν := by
    obtain ⟨hm, C, hC⟩ := lesser_regular hr hr'
    exact Integrable.of_bound ((hm s').comp ((measurable_smooth c low high _).comp hd)).aestronglyMeasurable C (ae_of_all _ fun g => hC _ _)
  rw [integral_add (integrable_const _) ((hi.mul_const _).const_mul _), integral_const, integral_const_mul, integral_mul_const]
  simp only [probReal_univ, one_smul]
  rw [mean_noisy hd c low high (y.act θ) (lesser_regular hr hr').1]
  unfold DQN.alive
  split <;> simp_all

/-- C172. The two critics of TD3 predict, for every state and action, the expectation of the targets computed from themselves if and only if both predict the action values of the policy
that adds the clipped noise to the actions of the actor. -/
theorem C172_td3_critic (y : Sys S (Fin d → ℝ) D M ι κ O) (low high : Fin d → ℝ) (noise : M → M × ℝ × List (Fin d → ℝ)) (hq : y.nextQ = td3NextQ y.value y.act low high noise)
    (c : ℝ) (draw : M → Fin d → ℝ) (hd : Measurable draw) (hn : ∀ g, (noise g).2.1 = c ∧ (noise g).2.2.head? = some (draw g)) (h0 : 0 ≤ y.gamma) (h1 : y.gamma < 1) (θ : κ → ℝ) (w w' : ι → ℝ)
    (hr : Regular (y.value w)) (hr' : Regular (y.value w')) :
    Settled y ν m θ [w, w'] 0 ↔
      Values m y.gamma (noisy ν draw c low high (y.act θ)) (y.value w) ∧ Values m y.gamma (noisy ν draw c low high (y.act θ)) (y.value w') := by
  have hπ := noisy_prob (ν := ν) hd c low high (y.act θ)
  rw [values_iff h0 h1 hπ, values_iff h0 h1 hπ]
  have hself : ∀ q : S → (Fin d → ℝ) → ℝ, lesser q q = q := fun q => by funext s a; exact min_self _
  simp only [Settled, List.mem_cons, List.not_mem_nil, or_false, forall_eq_or_imp, forall_eq, td3_target y low high noise hq c draw hd hn θ w w' hr hr', abs_nonpos_iff, sub_eq_zero]
  constructor
  · rintro ⟨e1, e2⟩
    have e : y.value w' = y.value w := by funext s a; rw [e1, e2]
    rw [e, hself] at e1
    rw [e, and_self]
    funext s a
    exact e1 s a
  · rintro ⟨e1, e2⟩
    have e : y.value w' = y.value w := by
      funext s a
      exact tendsto_nhds_unique (solves_values h0 h1 hπ e2 s a) (solves_values h0 h1 hπ e1 s a)
    rw [e, hself, and_self]
    exact fun s a => congrFun (congrFun e1 s) a

/-- C172. Suppose that both critics of TD3 predict the expectation of their targets with an error of at most `δ`, that the loss of the actor is in every state within `η` of that of any action,
and that the first critic changes by at most `L` times the largest change of a component of the action. Then the first critic does not exceed the values of the actor by more than
`((1 + 2 γ) δ + γ η) / (1 - γ)`, and no policy has an expected return greater than that of the actor by more than `(2 (1 + 2 γ) δ + (1 + γ) η + γ L c) / (1 - γ)`, where `c` is the limit of the noise. -/
theorem C172_td3_optimal (y : Sys S (Fin d → ℝ) D M ι κ O) (low high : Fin d → ℝ) (noise : M → M × ℝ × List (Fin d → ℝ)) (hq : y.nextQ = td3NextQ y.value y.act low high noise)
    (hp : y.pick = first) (c : ℝ) (hc : 0 ≤ c) (draw : M → Fin d → ℝ) (hd : Measurable draw) (hn : ∀ g, (noise g).2.1 = c ∧ (noise g).2.2.head? = some (draw g)) (h0 : 0 ≤ y.gamma) (h1 : y.gamma < 1)
    (θ : κ → ℝ) (hlim : ∀ s j, low j ≤ y.act θ s j ∧ y.act θ s j ≤ high j) (w w' : ι → ℝ) (hr : Regular (y.value w)) (hr' : Regular (y.value w')) (δ η L : ℝ) (hδ : 0 ≤ δ) (hη : 0 ≤ η) (hL : 0 ≤ L)
    (hs : Settled y ν m θ [w, w'] δ) (hm : Minimises y θ [w, w'] η) (hlip : ∀ s a b ε, (∀ j, |a j - b j| ≤ ε) → 0 ≤ ε → |y.value w s a - y.value w s b| ≤ L * ε)
    (Q : S → (Fin d → ℝ) → ℝ) (hQ : Values m y.gamma (always (y.act θ)) Q) :
    (∀ s a, y.value w s a ≤ Q s a + ((1 + 2 * y.gamma) * δ + y.gamma * η) / (1 - y.gamma)) ∧
    ∀ π : S → Measure (Fin d → ℝ), (∀ s, IsProbabilityMeasure (π s)) → ∀ Q', Values m y.gamma π Q' → ∀ s,
      mean π Q' s ≤ mean (always (y.act θ)) Q s + (2 * ((1 + 2 * y.gamma) * δ) + (1 + y.gamma) * η + y.gamma * (L * c)) / (1 - y.gamma) := by
  have hν := noisy_prob (ν := ν) hd c low high (y.act θ)
  rw [values_iff h0 h1 (always_prob _)] at hQ
  simp only [Settled, List.mem_cons, List.not_mem_nil, or_false, forall_eq_or_imp, forall_eq, td3_target y low high noise hq c draw hd hn θ w w' hr hr'] at hs
  have hg : (0 : ℝ) < 1 - y.gamma := by linarith
  have hmax : ∀ s a, y.value w s a ≤ y.value w s (y.act θ s) + η := by
    intro s a
    have := hm ⟨s, a, 0, s, false⟩ a
    simp only [actorLoss, List.map_cons, List.map_nil, hp, first, List.headD_cons, meanOf, List.sum_cons, List.sum_nil, List.length_cons, List.length_nil] at this
    norm_num at this
    linarith
  have hll := lesser_regular hr hr'
  -- the first critic and the lesser prediction
  have g1 : ∀ s a, lesser (y.value w) (y.value w') s a ≤ y.value w s a := fun s a => min_le_left _ _
  have g2 : ∀ s a, y.value w s a ≤ lesser (y.value w) (y.value w') s a + 2 * δ := by
    intro s a
    have e1 := abs_le.1 (hs.1 s a)
    have e2 := abs_le.1 (hs.2 s a)
    unfold lesser
    rcases min_choice (y.value w s a) (y.value w' s a) with h | h <;> rw [h] <;> linarith [e1.1, e1.2, e2.1, e2.2]
  -- the smoothed action is close
  have hnear : ∀ s e, |y.value w s (smooth c low high (y.act θ s) e) - y.value w s (y.act θ s)| ≤ L * c := by
    intro s e
    refine hlip s _ _ c (fun j => ?_) hc
    obtain ⟨l1, l2⟩ := hlim s j
    unfold smooth clip
    rw [abs_le]
    have b1 : -c ≤ min (max (e j) (-c)) c := le_min (le_max_right _ _) (by linarith)
    have b2 : min (max (e j) (-c)) c ≤ c := min_le_right _ _
    constructor
    · have : y.act θ s j - c ≤ min (max (y.act θ s j + min (max (e j) (-c)) c) (low j)) (high j) := le_min (le_max_of_le_left (by linarith)) (by linarith)
      linarith
    · have : min (max (y.act θ s j + min (max (e j) (-c)) c) (low j)) (high j) ≤ y.act θ s j + c := (min_le_left _ _).trans (max_le (by linarith) (by linarith))
      linarith
  have hrc : ∀ s, mean (noisy ν draw c low high (y.act θ)) (y.value w) s ≥ y.value w s (y.act θ s) - L * c := by
    intro s
    rw [mean_noisy hd c low high (y.act θ) hr.1]
    have hi : Integrable (fun g => y.value w s (smooth c low high (y.act θ s) (draw g))) ν := by
      obtain ⟨hm, C, hC⟩ := hr
      exact Integrable.of_bound ((hm s).comp ((measurable_smooth c low high _).comp hd)).aestronglyMeasurable C (ae_of_all _ fun g => hC _ _)
    calc y.value w s (y.act θ s) - L * c = ∫ _, (y.value w s (y.act θ s) - L * c) ∂ν := by simp
      _ ≤ _ := integral_mono (integrable_const _) hi fun g => by
        have := (abs_le.1 (hnear s (draw g))).1
        simp only
        linarith
  have hlow : ∀ s a, y.value w s a ≤ Q s a + ((1 + 2 * y.gamma) * δ + y.gamma * η) / (1 - y.gamma) := by
    refine below h0 h1 (always_prob _) hr hQ (by positivity) fun s a => ?_
    have e1 := (abs_le.1 (hs.1 s a)).2
    have e2 := ahead_shift (m := m) h0 hη (V := mean (always (y.act θ)) (y.value w)) (V' := mean (noisy ν draw c low high (y.act θ)) (lesser (y.value w) (y.value w')))
      (fun s => by
        rw [mean_always hr.1]
        exact mean_le hν hll fun a => (g1 s a).trans (hmax s a)) s a
    nlinarith [mul_nonneg h0 hδ]
  refine ⟨hlow, fun π hπ Q' hQ' s => ?_⟩
  rw [values_iff h0 h1 hπ] at hQ'
  have e1 : ∀ s a, Q' s a ≤ y.value w s a + ((1 + 2 * y.gamma) * δ + y.gamma * (η + L * c)) / (1 - y.gamma) := by
    refine above h0 h1 hπ hr hQ' (by positivity) fun s a => ?_
    have e := ahead_shift (m := m) h0 (c := η + L * c + 2 * δ) (by positivity) (V := mean (noisy ν draw c low high (y.act θ)) (lesser (y.value w) (y.value w'))) (V' := mean π (y.value w))
      (fun s => by
        have k1 := mean_le hπ hr (hmax s)
        have k2 := mean_shift hν hr hll (g2 s)
        linarith [hrc s]) s a
    linarith [(abs_le.1 (hs.1 s a)).1]
  rw [mean_always hQ.regular.1]
  refine mean_le hπ hQ'.regular fun a => ?_
  have e2 := e1 s a
  have e3 := hmax s a
  have e4 := hlow s (y.act θ s)
  have e5 : (2 * ((1 + 2 * y.gamma) * δ) + (1 + y.gamma) * η + y.gamma * (L * c)) / (1 - y.gamma) =
      ((1 + 2 * y.gamma) * δ + y.gamma * (η + L * c)) / (1 - y.gamma) + η + ((1 + 2 * y.gamma) * δ + y.gamma * η) / (1 - y.gamma) := by field_simp; ring
  linarith

end td3

/-! ### Concrete agents -/

/-- One state that is never left; the cost is the distance of the action from 0, at most 1. -/
def line : Problem Unit (Fin 1 → ℝ) where
  prob _ _ _ := 1
  reward _ a _ := -min |a 0| 1
  final _ := false
  bound := 1
  prob_nonneg _ _ _ := zero_le_one
  prob_sum _ _ := by simp
  prob_measurable _ _ := measurable_const
  reward_measurable _ _ := by fun_prop
  reward_bound _ a _ := by
    rw [abs_neg, abs_of_nonneg (le_min (abs_nonneg _) zero_le_one)]
    exact min_le_right _ _

/-- Critics with the exact reward and one weight for what follows. -/
def lineValue (w : Unit → ℝ) (_ : Unit) (a : Fin 1 → ℝ) : ℝ := w () - min |a 0| 1

/-- An actor whose weight is its action. -/
def lineAct (θ : Unit → ℝ) (_ : Unit) : Fin 1 → ℝ := fun _ => θ ()

/-- An agent with this actor and these critics. The state of the generator is the next sample of the noise. -/
def lineAgent (pick : List ℝ → ℝ) (nextQ : ℝ → ℝ × (List (Unit → ℝ) → (Unit → ℝ) → List (Trans Unit (Fin 1 → ℝ)) → List ℝ)) : Sys Unit (Fin 1 → ℝ) Unit ℝ Unit Unit Unit where
  add m _ := m
  initialized _ := true
  get m := (m, [])
  nextQ := nextQ
  minibatches m := (m, fun _ _ => [])
  act := lineAct
  value := lineValue
  pick := pick
  loss _ := 0
  gradActor _ _ := 0
  gradCritic _ _ := 0
  clip b := b
  stepActor o w _ := (o, w)
  stepCritic o w _ := (o, w)
  gamma := 1 / 2

/-- DDPG. -/
def lineDdpg : Sys Unit (Fin 1 → ℝ) Unit ℝ Unit Unit Unit := lineAgent meanOf (ddpgNextQ meanOf lineValue lineAct)

/-- TD3 with actions between -1 and 1 and noise of at most 1/2. -/
def lineTd3 : Sys Unit (Fin 1 → ℝ) Unit ℝ Unit Unit Unit :=
  lineAgent first (td3NextQ lineValue lineAct (fun _ => -1) (fun _ => 1) fun g => (g, 1 / 2, [fun _ => g]))

theorem line_regular (w : Unit → ℝ) : Regular (lineValue w) := by
  refine ⟨fun s => ?_, |w ()| + 1, fun s a => ?_⟩
  · unfold lineValue
    fun_prop
  · refine (abs_sub _ _).trans (add_le_add le_rfl ?_)
    rw [abs_of_nonneg (le_min (abs_nonneg _) zero_le_one)]
    exact min_le_right _ _

theorem meanOf_one (x : ℝ) : meanOf [x] = x := by simp [meanOf]

open ProbabilityTheory in
/-- The noise of TD3. -/
def normal : Measure ℝ := gaussianReal 0 1

open ProbabilityTheory in
instance : IsProbabilityMeasure normal := by unfold normal; infer_instance

theorem line_ddpg_settled (x : ℝ) : Settled lineDdpg normal line (fun _ => x) [fun _ => -min |x| 1] 0 := by
  intro w hw s a
  obtain rfl := List.mem_singleton.1 hw
  rw [ddpg_target lineDdpg rfl meanOf_one _ _ (line_regular _).1]
  simp only [ahead, mean_always (Q := lineDdpg.value fun _ => -min |x| 1) (line_regular fun _ => -min |x| 1).1, Finset.univ_unique, Finset.sum_singleton]
  simp [lineDdpg, lineAgent, line, lineValue, lineAct]
  ring_nf

theorem line_ddpg_minimises (w : ℝ) : Minimises lineDdpg (fun _ => 0) [fun _ => w] 0 := by
  intro t a
  simp only [actorLoss, lineDdpg, lineAgent, lineValue, lineAct, List.map_cons, List.map_nil, meanOf_one]
  have : 0 ≤ min |a 0| 1 := le_min (abs_nonneg _) zero_le_one
  simp

/-- The expected cost of the noise. -/
def lineCost : ℝ := ∫ g, min |smooth (1 / 2) (fun _ => -1) (fun _ => 1) (fun _ : Fin 1 => (0 : ℝ)) (fun _ => g) 0| 1 ∂normal

theorem line_mean (x : ℝ) : mean (noisy normal (fun (g : ℝ) (_ : Fin 1) => g) (1 / 2) (fun _ => -1) (fun _ => 1) (lineTd3.act fun _ => 0)) (lineTd3.value fun _ => x) () = x - lineCost := by
  have hd : Measurable fun (g : ℝ) (_ : Fin 1) => g := measurable_pi_lambda _ fun _ => measurable_id
  have hi : Integrable (fun g => min |smooth (1 / 2) (fun _ => -1) (fun _ => 1) (fun _ : Fin 1 => (0 : ℝ)) (fun _ => g) 0| 1) normal := by
    refine Integrable.of_bound (Measurable.aestronglyMeasurable ?_) 1 (ae_of_all _ fun g => ?_)
    · have := (measurable_smooth (1 / 2) (fun _ => -1) (fun _ => 1) (fun _ : Fin 1 => (0 : ℝ))).comp hd
      have h2 := (measurable_pi_apply (0 : Fin 1)).comp this
      exact (h2.abs).min measurable_const
    · rw [Real.norm_eq_abs, abs_of_nonneg (le_min (abs_nonneg _) zero_le_one)]
      exact min_le_right _ _
  rw [mean_noisy hd _ _ _ _ (Q := lineTd3.value fun _ => x) (line_regular fun _ => x).1]
  simp only [lineTd3, lineAgent, lineValue, lineAct]
  change ∫ g, (x - min |smooth (1 / 2) (fun _ => -1) (fun _ => 1) (fun _ : Fin 1 => (0 : ℝ)) (fun _ => g) 0| 1) ∂normal = _
  rw [integral_sub (integrable_const _) hi, integral_const]
  simp [lineCost]

theorem line_td3_settled : Settled lineTd3 normal line (fun _ => 0) [fun _ => -lineCost, fun _ => -lineCost] 0 := by
  have hd : Measurable fun (g : ℝ) (_ : Fin 1) => g := measurable_pi_lambda _ fun _ => measurable_id
  have hself : ∀ q : Unit → (Fin 1 → ℝ) → ℝ, lesser q q = q := fun q => by funext s a; exact min_self _
  intro w hw s a
  obtain rfl : w = fun _ => -lineCost := by simpa using hw
  rw [td3_target lineTd3 _ _ _ rfl (1 / 2) (fun g _ => g) hd (fun g => ⟨rfl, rfl⟩) _ (fun _ => -lineCost) (fun _ => -lineCost) (line_regular fun _ => -lineCost) (line_regular fun _ => -lineCost), hself]
  simp only [ahead, Finset.univ_unique, Finset.sum_singleton]
  rw [show (default : Unit) = () from rfl, line_mean]
  simp [lineTd3, lineAgent, line, lineValue]
  ring_nf

theorem line_td3_minimises (w w' : ℝ) : Minimises lineTd3 (fun _ => 0) [fun _ => w, fun _ => w'] 0 := by
  intro t a
  simp only [actorLoss, lineTd3, lineAgent, lineValue, lineAct, List.map_cons, List.map_nil, meanOf_one, first, List.headD_cons]
  have : 0 ≤ min |a 0| 1 := le_min (abs_nonneg _) zero_le_one
  simp

theorem line_lipschitz (w : Unit → ℝ) (s : Unit) (a b : Fin 1 → ℝ) (ε : ℝ) (h : ∀ j, |a j - b j| ≤ ε) : |lineValue w s a - lineValue w s b| ≤ 1 * ε := by
  have e : lineValue w s a - lineValue w s b = -(min |a 0| 1 - min |b 0| 1) := by unfold lineValue; ring
  rw [e, abs_neg, one_mul]
  refine le_trans ?_ (h 0)
  refine (abs_min_sub_min_le_max _ _ _ _).trans ?_
  simp [abs_abs_sub_abs_le]

/-- `C172_ddpg_critic` and `C172_ddpg_optimal` are about such an agent: the action 0 is best, and its values are those of the critic. -/
example : Values line (1 / 2) (always fun _ _ => (0 : ℝ)) (lineValue fun _ => 0) ∧
    ∀ π : Unit → Measure (Fin 1 → ℝ), (∀ s, IsProbabilityMeasure (π s)) → ∀ Q', Values line (1 / 2) π Q' → ∀ s, mean π Q' s ≤ 0 := by
  have hs := line_ddpg_settled 0
  simp only [abs_zero, zero_le_one, min_eq_left, neg_zero] at hs
  have hv := (C172_ddpg_critic lineDdpg rfl meanOf_one (by norm_num [lineDdpg, lineAgent]) (by norm_num [lineDdpg, lineAgent]) _ (fun _ => 0) (line_regular fun _ => 0)).1 hs
  refine ⟨hv, fun π hπ Q' hQ' s => ?_⟩
  have h := C172_ddpg_optimal lineDdpg rfl meanOf_one (by norm_num [lineDdpg, lineAgent]) (by norm_num [lineDdpg, lineAgent]) _ (fun _ => 0) (line_regular fun _ => 0) 0 0 le_rfl le_rfl hs
    (line_ddpg_minimises 0) _ hv π hπ Q' hQ' s
  have e : mean (always (lineDdpg.act fun _ => 0)) (lineValue fun _ => 0) s = 0 := by
    rw [mean_always (line_regular _).1]
    simp [lineValue, lineDdpg, lineAgent, lineAct]
  change mean π Q' s ≤ mean (always (lineDdpg.act fun _ => 0)) (lineValue fun _ => 0) s + _ at h
  rw [e] at h
  simpa using h

/-- `C172_ddpg_error`: a critic with the weight 1 instead of 0 has an error of 1/2 in its targets, and an error of at most 1. -/
example (Q : Unit → (Fin 1 → ℝ) → ℝ) (hQ : Values line (1 / 2) (always fun _ _ => (0 : ℝ)) Q) (s : Unit) (a : Fin 1 → ℝ) : |lineValue (fun _ => 1) s a - Q s a| ≤ 1 := by
  have hs : Settled lineDdpg normal line (fun _ => 0) [fun _ => 1] (1 / 2) := by
    intro w hw s a
    obtain rfl := List.mem_singleton.1 hw
    rw [ddpg_target lineDdpg rfl meanOf_one _ _ (line_regular _).1]
    simp only [ahead, mean_always (Q := lineDdpg.value fun _ => 1) (line_regular fun _ => 1).1, Finset.univ_unique, Finset.sum_singleton]
    simp [lineDdpg, lineAgent, line, lineValue, lineAct]
    ring_nf
    norm_num
  have h := C172_ddpg_error lineDdpg rfl meanOf_one (by norm_num [lineDdpg, lineAgent]) (by norm_num [lineDdpg, lineAgent]) _ (fun _ => 1) (line_regular fun _ => 1) (1 / 2) (by norm_num) hs Q hQ s a
  have e : (1 / 2 : ℝ) / (1 - lineDdpg.gamma) = 1 := by norm_num [lineDdpg, lineAgent]
  rw [e] at h
  exact h

/-- `C172_ddpg_improvement`: the actor with the action 0 is better than that with the action 1. -/
example (Q' : Unit → (Fin 1 → ℝ) → ℝ) (hQ' : Values line (1 / 2) (always fun _ _ => (0 : ℝ)) Q') (a : Fin 1 → ℝ) : lineValue (fun _ => -1) () a ≤ Q' () a := by
  have hs := line_ddpg_settled 1
  simp only [abs_one, min_self] at hs
  refine C172_ddpg_improvement lineDdpg rfl meanOf_one (by norm_num [lineDdpg, lineAgent]) (by norm_num [lineDdpg, lineAgent]) (fun _ => 1) (fun _ => 0) (fun _ => -1) (line_regular fun _ => -1) hs (fun t => ?_) Q' hQ' () a
  simp [actorLoss, lineDdpg, lineAgent, lineValue, lineAct, meanOf_one]

/-- `C172_td3_critic` and `C172_td3_optimal` are about such an agent: its critics predict the values of the noisy actions; no policy is better than the actor by more than 1/2. -/
example : Values line (1 / 2) (noisy normal (fun (g : ℝ) (_ : Fin 1) => g) (1 / 2) (fun _ => -1) (fun _ => 1) fun _ _ => 0) (lineValue fun _ => -lineCost) ∧
    ∀ Q, Values line (1 / 2) (always fun _ _ => (0 : ℝ)) Q → ∀ π : Unit → Measure (Fin 1 → ℝ), (∀ s, IsProbabilityMeasure (π s)) → ∀ Q', Values line (1 / 2) π Q' → ∀ s,
      mean π Q' s ≤ mean (always fun _ _ => (0 : ℝ)) Q s + 1 / 2 := by
  have hd : Measurable fun (g : ℝ) (_ : Fin 1) => g := measurable_pi_lambda _ fun _ => measurable_id
  refine ⟨((C172_td3_critic lineTd3 _ _ _ rfl (1 / 2) (fun g _ => g) hd (fun g => ⟨rfl, rfl⟩) (by norm_num [lineTd3, lineAgent]) (by norm_num [lineTd3, lineAgent]) _ (fun _ => -lineCost) (fun _ => -lineCost) (line_regular fun _ => -lineCost)
    (line_regular fun _ => -lineCost)).1 line_td3_settled).1, fun Q hQ π hπ Q' hQ' s => ?_⟩
  have h := (C172_td3_optimal lineTd3 _ _ _ rfl rfl (1 / 2) (by norm_num) (fun g _ => g) hd (fun g => ⟨rfl, rfl⟩) (by norm_num [lineTd3, lineAgent]) (by norm_num [lineTd3, lineAgent]) _
    (fun s j => by simp [lineTd3, lineAgent, lineAct]) (fun _ => -lineCost) (fun _ => -lineCost) (line_regular fun _ => -lineCost) (line_regular fun _ => -lineCost) 0 0 1 le_rfl le_rfl zero_le_one line_td3_settled (line_td3_minimises _ _)
    (fun s a b ε h _ => line_lipschitz (fun _ => -lineCost) s a b ε h) Q hQ).2 π hπ Q' hQ' s
  have e : (2 * ((1 + 2 * lineTd3.gamma) * 0) + (1 + lineTd3.gamma) * 0 + lineTd3.gamma * (1 * (1 / 2))) / (1 - lineTd3.gamma) = 1 / 2 := by norm_num [lineTd3, lineAgent]
  rw [e] at h
  exact h

/-! ### The values of the noisy policy can mislead the actor of TD3 -/

/-- From the state 0 a positive action earns 1/2 and ends the episode in the state 2; another action leads to the state 1. There the action 0 earns 1, any other nothing, and the episode ends. -/
def peak : Problem (Fin 3) (Fin 1 → ℝ) where
  prob s a s' := if s = 0 ∧ ¬ 0 < a 0 then (if s' = 1 then 1 else 0) else if s' = 2 then 1 else 0
  reward s a _ := if s = 0 then (if 0 < a 0 then 1 / 2 else 0) else if s = 1 then (if a 0 = 0 then 1 else 0) else 0
  final s := s = 2
  bound := 1
  prob_nonneg s a s' := by split <;> split <;> norm_num
  prob_sum s a := by split <;> simp
  prob_measurable s s' := by
    have h : MeasurableSet {a : Fin 1 → ℝ | s = 0 ∧ ¬ 0 < a 0} := by
      by_cases hs : s = 0
      · simp only [hs, true_and, not_lt]
        exact measurableSet_le (measurable_pi_apply 0) measurable_const
      · simp [hs]
    exact Measurable.ite h measurable_const measurable_const
  reward_measurable s s' := by
    split
    · exact Measurable.ite (measurableSet_lt measurable_const (measurable_pi_apply 0)) measurable_const measurable_const
    · split
      · exact Measurable.ite (measurableSet_eq_fun (measurable_pi_apply 0) measurable_const) measurable_const measurable_const
      · exact measurable_const
  reward_bound s a s' := by
    split_ifs <;> norm_num [abs_of_pos]

/-- Critics with the exact rewards, and one weight for what is earned after an action that is not positive in the state 0. -/
def peakValue (w : Unit → ℝ) (s : Fin 3) (a : Fin 1 → ℝ) : ℝ :=
  if s = 0 then (if 0 < a 0 then 1 / 2 else w ()) else if s = 1 then (if a 0 = 0 then 1 else 0) else 0

/-- An actor whose weight is its action in the state 0; in the others it takes the action 0. -/
def peakAct (θ : Unit → ℝ) (s : Fin 3) : Fin 1 → ℝ := fun _ => if s = 0 then θ () else 0

/-- TD3 with this actor and these critics, actions between -1 and 1, normal noise of at most 1/2, and the discount factor 3/4. -/
def peakTd3 : Sys (Fin 3) (Fin 1 → ℝ) Unit ℝ Unit Unit Unit where
  add m _ := m
  initialized _ := true
  get m := (m, [])
  nextQ := td3NextQ peakValue peakAct (fun _ => -1) (fun _ => 1) fun g => (g, 1 / 2, [fun _ => g])
  minibatches m := (m, fun _ _ => [])
  act := peakAct
  value := peakValue
  pick := first
  loss _ := 0
  gradActor _ _ := 0
  gradCritic _ _ := 0
  clip b := b
  stepActor o w _ := (o, w)
  stepCritic o w _ := (o, w)
  gamma := 3 / 4

theorem peak_regular (w : Unit → ℝ) : Regular (peakValue w) := by
  refine ⟨fun s => ?_, 1 + |w ()|, fun s a => ?_⟩
  · unfold peakValue
    split
    · exact Measurable.ite (measurableSet_lt measurable_const (measurable_pi_apply 0)) measurable_const measurable_const
    · split
      · exact Measurable.ite (measurableSet_eq_fun (measurable_pi_apply 0) measurable_const) measurable_const measurable_const
      · exact measurable_const
  · have := abs_nonneg (w ())
    unfold peakValue
    split_ifs <;> norm_num [abs_of_pos] <;> linarith

theorem peak_ahead (V : Fin 3 → ℝ) (s : Fin 3) (a : Fin 1 → ℝ) : ahead peak (3 / 4) V s a = peakValue (fun _ => 3 / 4 * V 1) s a := by
  fin_cases s
  · by_cases h : 0 < a 0 <;> simp [ahead, peak, peakValue, Fin.sum_univ_three, h]
  · by_cases h : a 0 = 0 <;> simp [ahead, peak, peakValue, Fin.sum_univ_three, h]
  · simp [ahead, peak, peakValue, Fin.sum_univ_three]

/-- The noise misses the peak. -/
theorem peak_missed (w θ : Unit → ℝ) : mean (noisy normal (fun (g : ℝ) (_ : Fin 1) => g) (1 / 2) (fun _ => -1) (fun _ => 1) (peakAct θ)) (peakValue w) 1 = 0 := by
  have hd : Measurable fun (g : ℝ) (_ : Fin 1) => g := measurable_pi_lambda _ fun _ => measurable_id
  rw [mean_noisy hd _ _ _ _ (peak_regular w).1]
  refine integral_eq_zero_of_ae ?_
  have hna : NoAtoms normal := ProbabilityTheory.noAtoms_gaussianReal one_ne_zero
  have h0 : ∀ᵐ g ∂normal, g ≠ 0 := by
    rw [ae_iff]
    simp only [ne_eq, not_not, Set.setOf_eq_eq_singleton]
    exact hna.measure_singleton 0
  filter_upwards [h0] with g hg
  have : smooth (1 / 2) (fun _ => -1) (fun _ => 1) (peakAct θ 1) (fun _ : Fin 1 => g) 0 ≠ 0 := by
    unfold smooth clip peakAct
    simp only [Fin.isValue, one_ne_zero, if_false, zero_add]
    rcases lt_or_gt_of_ne hg with h | h
    · refine ne_of_lt (lt_of_le_of_lt (min_le_left _ _) (max_lt (lt_of_le_of_lt (min_le_left _ _) (max_lt h (by norm_num))) (by norm_num)))
    · refine ne_of_gt (lt_min (lt_max_of_lt_left (lt_min (lt_max_of_lt_left h) (by norm_num))) (by norm_num))
  simp only [peakValue, if_neg this, Fin.isValue, one_ne_zero, if_false, if_true]
  rfl

/-- C172. Without a bound on how fast the critics change with the action, TD3 need not find the best policy: here both critics predict the expectation of their targets without error, the actor
minimises its loss in every state, and the noise is normal and clipped; yet another policy earns 3/4 in the first state and the actor 1/2, and the critics are not the action values of the actor. -/
theorem C172_td3_misled : Settled peakTd3 normal peak (fun _ => 1) [fun _ => 0, fun _ => 0] 0 ∧ Minimises peakTd3 (fun _ => 1) [fun _ => 0, fun _ => 0] 0 ∧
    ∃ Q Q', Values peak (3 / 4) (always (peakTd3.act fun _ => 1)) Q ∧ Values peak (3 / 4) (always fun _ _ => 0) Q' ∧
      mean (always (peakTd3.act fun _ => 1)) Q 0 = 1 / 2 ∧ mean (always fun _ _ => 0) Q' 0 = 3 / 4 ∧ peakTd3.value (fun _ => 0) ≠ Q := by
  have hd : Measurable fun (g : ℝ) (_ : Fin 1) => g := measurable_pi_lambda _ fun _ => measurable_id
  have hself : ∀ q : Fin 3 → (Fin 1 → ℝ) → ℝ, lesser q q = q := fun q => by funext s a; exact min_self _
  have hsol : ∀ act : Fin 3 → Fin 1 → ℝ, act 1 0 = 0 → Values peak (3 / 4) (always act) (peakValue fun _ => 3 / 4) := by
    intro act ha
    refine solves_values (by norm_num) (by norm_num) (always_prob _) ?_
    funext s a
    rw [peak_ahead, mean_always (peak_regular _).1]
    simp [peakValue, ha]
  refine ⟨?_, ?_, peakValue fun _ => 3 / 4, peakValue fun _ => 3 / 4, hsol _ (by simp [peakTd3, peakAct]), hsol _ rfl, ?_, ?_, ?_⟩
  · intro w hw s a
    obtain rfl : w = fun _ => 0 := by simpa using hw
    rw [td3_target peakTd3 _ _ _ rfl (1 / 2) (fun g _ => g) hd (fun g => ⟨rfl, rfl⟩) _ (fun _ => 0) (fun _ => 0) (peak_regular fun _ => 0) (peak_regular fun _ => 0), hself]
    change |peakValue (fun _ => 0) s a - ahead peak (3 / 4) (mean (noisy normal (fun (g : ℝ) (_ : Fin 1) => g) (1 / 2) (fun _ => -1) (fun _ => 1) (peakAct fun _ => 1)) (peakValue fun _ => 0)) s a| ≤ 0
    rw [peak_ahead, peak_missed]
    simp
  · intro t a
    simp only [actorLoss, List.map_cons, List.map_nil, meanOf_one, peakTd3, first, List.headD_cons, peakAct, peakValue]
    have : t.state = 0 ∨ t.state = 1 ∨ t.state = 2 := by
      generalize t.state = s
      fin_cases s <;> simp
    rcases this with h | h | h <;> simp [h] <;> split_ifs <;> norm_num
  · rw [mean_always (peak_regular _).1]
    simp [peakTd3, peakAct, peakValue]
  · rw [mean_always (peak_regular _).1]
    simp [peakValue]
  · intro h
    have := congrFun (congrFun h 0) (fun _ => 0)
    simp [peakTd3, peakValue] at this
    norm_num at this

end

end Verif.ActorCritic.Plain
