/-
Property C171: what SAC learns.
-/
import Verif.ActorCritic.LemmasSoft
import Mathlib.MeasureTheory.Measure.Count
import Mathlib.MeasureTheory.Integral.Bochner.SumMeasure
import Mathlib.MeasureTheory.Measure.Lebesgue.Basic

namespace Verif.ActorCritic.MaxEnt

open MeasureTheory Filter Topology
open Verif.TD (Trans)
open Verif.ActorCritic.Soft

noncomputable section

variable {S A D M N ι κ O : Type} [Fintype S] [MeasurableSpace A] [MeasurableSpace N]
variable {m : Problem S A} {μ : Measure A} [IsFiniteMeasure μ] {ν : Measure N} [IsProbabilityMeasure ν] {p p' : S → A → ℝ}

omit [Fintype S] in
theorem soft_shift {α c : ℝ} (hp : IsPolicy μ p) {Q Q' : S → A → ℝ} (hQ : Regular Q) (hQ' : Regular Q') {s : S} (h : ∀ a, Q' s a ≤ Q s a + c) :
    soft μ α p Q' s ≤ soft μ α p Q s + c := by
  have e : soft μ α p Q s + c = ∫ a, (p s a * (Q s a - α * Real.log (p s a)) + p s a * c) ∂μ := by
    rw [integral_add (hp.softIntegrable hQ s) ((hp.integrable s).mul_const c), integral_mul_const, hp.one, one_mul]
    rfl
  rw [e]
  refine integral_mono (hp.softIntegrable hQ' s) ((hp.softIntegrable hQ s).add ((hp.integrable s).mul_const c)) fun a => ?_
  have := mul_le_mul_of_nonneg_left (h a) (hp.nonneg s a)
  simp only
  linarith

omit [Fintype S] in
theorem softMax_shift {α c : ℝ} (hα : 0 < α) (hμ : μ ≠ 0) {Q Q' : S → A → ℝ} (hQ : Regular Q) (hQ' : Regular Q') {s : S} (h : ∀ a, Q' s a ≤ Q s a + c) :
    softMax μ α Q' s ≤ softMax μ α Q s + c := by
  have hb := boltzmann_policy (μ := μ) hα hμ hQ'
  rw [← soft_boltzmann hα hμ hQ']
  exact (soft_shift hb hQ hQ' h).trans (by linarith [soft_le hα hμ hb hQ s])

theorem ahead_shift {γ c : ℝ} (hγ : 0 ≤ γ) (hc : 0 ≤ c) {V V' : S → ℝ} (h : ∀ s, V' s ≤ V s + c) (s : S) (a : A) : ahead m γ V' s a ≤ ahead m γ V s a + γ * c := by
  have h1 := ahead_mono (m := m) hγ h s a
  have h2 := (abs_le.1 (ahead_close (m := m) hγ (V := fun s => V s + c) (V' := V) hc (fun s => by rw [add_sub_cancel_left, abs_of_nonneg hc]) s a)).2
  linarith

/-- Critics that are settled are the same and solve the soft Bellman equation. -/
theorem settled_solves (y : SacSys S A D M N ι κ O) (θ : κ → ℝ) (hp : IsPolicy μ p) (hd : Draws μ ν (y.act θ) p) (logAlpha : ℝ) (w w' : ι → ℝ)
    (hr : Regular (y.value w)) (hr' : Regular (y.value w')) :
    Settled y ν m θ logAlpha [w, w'] ↔ y.value w' = y.value w ∧ Solves m μ y.gamma (Real.exp logAlpha) p (y.value w) := by
  have he := expectedTarget_eq (m := m) y θ hp hd logAlpha w w' hr.1 hr'.1 (fun s => draws_integrable hp hd (lesser_regular hr hr') s)
  have hself : ∀ q : S → A → ℝ, lesser q q = q := fun q => by funext s a; exact min_self _
  unfold Settled
  simp only [List.mem_cons, List.not_mem_nil, or_false, forall_eq_or_imp, forall_eq, he]
  constructor
  · rintro ⟨h1, h2⟩
    have e : y.value w' = y.value w := by funext s a; rw [h1, h2]
    rw [e, hself] at h1
    exact ⟨e, by funext s a; exact h1 s a⟩
  · rintro ⟨e, h⟩
    have h' : ∀ s a, y.value w s a = ahead m y.gamma (soft μ (Real.exp logAlpha) p (y.value w)) s a := fun s a => congrFun (congrFun h s) a
    rw [e, hself]
    exact ⟨h', h'⟩

omit [Fintype S] [IsProbabilityMeasure ν] in
theorem minimises_iff (y : SacSys S A D M N ι κ O) (θ : κ → ℝ) (hμ : μ ≠ 0) (hp : IsPolicy μ p) (hd : Draws μ ν (y.act θ) p) (logAlpha : ℝ) (w w' : ι → ℝ)
    (hr : Regular (y.value w)) (hr' : Regular (y.value w')) (hA : Nonempty A) :
    Minimises y μ ν θ logAlpha [w, w'] ↔ ∀ s, soft μ (Real.exp logAlpha) p (lesser (y.value w) (y.value w')) s = softMax μ (Real.exp logAlpha) (lesser (y.value w) (y.value w')) s := by
  have hα := Real.exp_pos logAlpha
  have hl := lesser_regular hr hr'
  have e : ∀ (q : S → A → ℝ) (s : S), ∫ a, q s a * (Real.exp logAlpha * Real.log (q s a) - minOf ([w, w'].map fun w => y.value w s a)) ∂μ =
      -soft μ (Real.exp logAlpha) q (lesser (y.value w) (y.value w')) s := by
    intro q s
    rw [soft, ← integral_neg]
    refine integral_congr_ae (ae_of_all _ fun a => ?_)
    simp only [List.map_cons, List.map_nil, minOf, lesser]
    ring
  unfold Minimises
  simp only [e, expectedLoss_eq y θ hp hd logAlpha w w' hr.1 hr'.1, neg_le_neg_iff]
  constructor
  · intro h s
    refine le_antisymm (soft_le hα hμ hp hl s) ?_
    rw [← soft_boltzmann hα hμ hl]
    exact h ⟨s, hA.some, 0, s, false⟩ _ (boltzmann_policy hα hμ hl)
  · intro h t q hq
    rw [h]
    exact soft_le hα hμ hq hl t.state

/-- C171. Critics that predict the expectation of the targets computed from themselves predict the soft values of the policy, both of them; and the soft values of the policy are such predictions. -/
theorem C171_critic (y : SacSys S A D M N ι κ O) (h0 : 0 ≤ y.gamma) (h1 : y.gamma < 1) (θ : κ → ℝ) (hp : IsPolicy μ p) (hd : Draws μ ν (y.act θ) p) (logAlpha : ℝ) (w w' : ι → ℝ)
    (hr : Regular (y.value w)) (hr' : Regular (y.value w')) :
    Settled y ν m θ logAlpha [w, w'] ↔ SoftValues m μ y.gamma (Real.exp logAlpha) p (y.value w) ∧ SoftValues m μ y.gamma (Real.exp logAlpha) p (y.value w') := by
  rw [settled_solves y θ hp hd logAlpha w w' hr hr', softValues_iff h0 h1 hp, softValues_iff h0 h1 hp]
  constructor
  · rintro ⟨e, h⟩
    exact ⟨h, by rw [e]; exact h⟩
  · rintro ⟨h, h'⟩
    refine ⟨?_, h⟩
    have g := (softValues_iff h0 h1 hp _).2 h
    have g' := (softValues_iff h0 h1 hp _).2 h'
    funext s a
    exact tendsto_nhds_unique (g' s a) (g s a)

/-- C171. If the target critics are wrong by at most `ε`, the expected target is wrong by at most `γ ε`. -/
theorem C171_contraction (y : SacSys S A D M N ι κ O) (h0 : 0 ≤ y.gamma) (h1 : y.gamma < 1) (θ : κ → ℝ) (hp : IsPolicy μ p) (hd : Draws μ ν (y.act θ) p) (logAlpha : ℝ) (w w' : ι → ℝ)
    (hr : Regular (y.value w)) (hr' : Regular (y.value w')) (Q : S → A → ℝ) (hQ : SoftValues m μ y.gamma (Real.exp logAlpha) p Q) (ε : ℝ)
    (hw : ∀ s a, |y.value w s a - Q s a| ≤ ε) (hw' : ∀ s a, |y.value w' s a - Q s a| ≤ ε) (s : S) (a : A) :
    |expectedTarget y ν m θ logAlpha [w, w'] s a - Q s a| ≤ y.gamma * ε := by
  have hs := (softValues_iff h0 h1 hp Q).1 hQ
  rw [expectedTarget_eq (m := m) y θ hp hd logAlpha w w' hr.1 hr'.1 (fun s => draws_integrable hp hd (lesser_regular hr hr') s)]
  conv_lhs => enter [1, 2]; rw [hs]
  refine ahead_close h0 ((abs_nonneg _).trans (hw s a)) (fun s => soft_close hp (lesser_regular hr hr') hs.regular fun a => ?_) s a
  have h2 := abs_le.1 (hw s a)
  have h3 := abs_le.1 (hw' s a)
  rw [abs_le]
  unfold lesser
  rcases min_choice (y.value w s a) (y.value w' s a) with h | h <;> rw [h] <;> constructor <;> linarith

/-- C171. The expected loss of the actor has a least value in every state, which the policy attains exactly if its density is proportional to the exponential of the lesser prediction of the two
critics divided by the temperature. -/
theorem C171_actor (y : SacSys S A D M N ι κ O) (θ : κ → ℝ) (hμ : μ ≠ 0) (hp : IsPolicy μ p) (hd : Draws μ ν (y.act θ) p) (logAlpha : ℝ) (w w' : ι → ℝ)
    (hr : Regular (y.value w)) (hr' : Regular (y.value w')) (t : Trans S A) :
    let f := fun a => Real.exp (min (y.value w t.state a) (y.value w' t.state a) / Real.exp logAlpha)
    expectedLoss y ν θ logAlpha [w, w'] t ≥ -(Real.exp logAlpha * Real.log (∫ a, f a ∂μ)) ∧
    (expectedLoss y ν θ logAlpha [w, w'] t = -(Real.exp logAlpha * Real.log (∫ a, f a ∂μ)) ↔ ∀ᵐ a ∂μ, p t.state a = f a / ∫ b, f b ∂μ) := by
  intro f
  have hα := Real.exp_pos logAlpha
  have hl := lesser_regular hr hr'
  rw [expectedLoss_eq y θ hp hd logAlpha w w' hr.1 hr'.1]
  exact ⟨neg_le_neg (soft_le hα hμ hp hl t.state), neg_inj.trans (soft_eq_iff hα hμ hp hl t.state)⟩

/-- C171. If the critics are settled and another policy has in every state an expected loss that is not larger, its soft values are nowhere smaller. -/
theorem C171_improvement (y : SacSys S A D M N ι κ O) (h0 : 0 ≤ y.gamma) (h1 : y.gamma < 1) (θ θ' : κ → ℝ) (hp : IsPolicy μ p) (hd : Draws μ ν (y.act θ) p)
    (hp' : IsPolicy μ p') (hd' : Draws μ ν (y.act θ') p') (logAlpha : ℝ) (w w' : ι → ℝ) (hr : Regular (y.value w)) (hr' : Regular (y.value w')) (hs : Settled y ν m θ logAlpha [w, w'])
    (hl : ∀ t, expectedLoss y ν θ' logAlpha [w, w'] t ≤ expectedLoss y ν θ logAlpha [w, w'] t) (Q' : S → A → ℝ) (hQ' : SoftValues m μ y.gamma (Real.exp logAlpha) p' Q') (s : S) (a : A) :
    y.value w s a ≤ Q' s a := by
  obtain ⟨e, h⟩ := (settled_solves y θ hp hd logAlpha w w' hr hr').1 hs
  have hself : lesser (y.value w) (y.value w') = y.value w := by rw [e]; funext s a; exact min_self _
  refine better h0 h1 hp' hr ((softValues_iff h0 h1 hp' Q').1 hQ') (fun s a => ?_) s a
  have h2 : y.value w s a = ahead m y.gamma (soft μ (Real.exp logAlpha) p (y.value w)) s a := congrFun (congrFun h s) a
  rw [h2]
  refine ahead_mono h0 (fun s => ?_) s a
  have h3 := hl ⟨s, a, 0, s, false⟩
  rw [expectedLoss_eq y θ hp hd logAlpha w w' hr.1 hr'.1, expectedLoss_eq y θ' hp' hd' logAlpha w w' hr.1 hr'.1, hself] at h3
  exact neg_le_neg_iff.1 h3

/-- C171. If the critics are settled and the actor minimises its loss, the critics predict the optimal soft values: no policy has larger ones. -/
theorem C171_optimal (y : SacSys S A D M N ι κ O) (h0 : 0 ≤ y.gamma) (h1 : y.gamma < 1) (θ : κ → ℝ) (hμ : μ ≠ 0) (hA : Nonempty A) (hp : IsPolicy μ p) (hd : Draws μ ν (y.act θ) p) (logAlpha : ℝ)
    (w w' : ι → ℝ) (hr : Regular (y.value w)) (hr' : Regular (y.value w')) (hs : Settled y ν m θ logAlpha [w, w']) (hm : Minimises y μ ν θ logAlpha [w, w']) :
    OptimalSoftValues m μ y.gamma (Real.exp logAlpha) (y.value w) := by
  obtain ⟨e, h⟩ := (settled_solves y θ hp hd logAlpha w w' hr hr').1 hs
  have h2 := (minimises_iff y θ hμ hp hd logAlpha w w' hr hr' hA).1 hm
  have hself : lesser (y.value w) (y.value w') = y.value w := by rw [e]; funext s a; exact min_self _
  rw [hself] at h2
  refine optimal_of_solves h0 h1 (Real.exp_pos _) hμ ?_
  have : soft μ (Real.exp logAlpha) p (y.value w) = softMax μ (Real.exp logAlpha) (y.value w) := funext h2
  rw [← this]
  exact h

/-- C171. There are optimal soft values, in every problem; every policy has soft values. -/
theorem C171_exists (m : Problem S A) (γ α : ℝ) (h0 : 0 ≤ γ) (h1 : γ < 1) (hα : 0 < α) (hμ : μ ≠ 0) :
    (∃ Q, OptimalSoftValues m μ γ α Q) ∧ ∀ p, IsPolicy μ p → ∃ Q, SoftValues m μ γ α p Q := by
  obtain ⟨Q, hQ⟩ := optimal_exists (m := m) h0 h1 hα hμ
  refine ⟨⟨Q, optimal_of_solves h0 h1 hα hμ hQ⟩, fun p hp => ?_⟩
  obtain ⟨Q, hQ⟩ := solves_exists (m := m) (α := α) h0 h1 hp
  exact ⟨Q, solves_softValues h0 h1 hp hQ⟩

/-- C171. Rounds in which the critics settle and then the actor minimises its loss: the critics never predict more than the optimal soft values, and their distance from them shrinks by the
discount in every round. -/
theorem C171_rounds (y : SacSys S A D M N ι κ O) (h0 : 0 ≤ y.gamma) (h1 : y.gamma < 1) (hμ : μ ≠ 0) (hA : Nonempty A) (logAlpha : ℝ) (θ : ℕ → κ → ℝ) (w w' : ℕ → ι → ℝ) (p : ℕ → S → A → ℝ)
    (hp : ∀ k, IsPolicy μ (p k)) (hd : ∀ k, Draws μ ν (y.act (θ k)) (p k)) (hr : ∀ k, Regular (y.value (w k))) (hr' : ∀ k, Regular (y.value (w' k)))
    (hs : ∀ k, Settled y ν m (θ k) logAlpha [w k, w' k]) (hm : ∀ k, Minimises y μ ν (θ (k + 1)) logAlpha [w k, w' k])
    (Q : S → A → ℝ) (hQ : OptimalSoftValues m μ y.gamma (Real.exp logAlpha) Q) (C : ℝ) (hC : ∀ s a, Q s a - y.value (w 0) s a ≤ C) (k : ℕ) (s : S) (a : A) :
    y.value (w k) s a ≤ Q s a ∧ Q s a - y.value (w k) s a ≤ y.gamma ^ k * C := by
  have hα := Real.exp_pos logAlpha
  have hsol := fun k => (settled_solves y (θ k) (hp k) (hd k) logAlpha (w k) (w' k) (hr k) (hr' k)).1 (hs k)
  have hle : ∀ k s a, y.value (w k) s a ≤ Q s a := fun k => hQ.2 (p k) _ (hp k) (solves_softValues h0 h1 (hp k) (hsol k).2)
  refine ⟨hle k s a, ?_⟩
  have hC0 : 0 ≤ C := by linarith [hle 0 s a, hC s a]
  obtain ⟨Qs, hQs⟩ := optimal_exists (m := m) (μ := μ) h0 h1 hα hμ
  have hopt := optimal_of_solves h0 h1 hα hμ hQs
  have hQe : Q = Qs := by
    obtain ⟨⟨q, hq, hv⟩, hQ2⟩ := hQ
    obtain ⟨⟨q', hq', hv'⟩, hQ2'⟩ := hopt
    funext s a
    exact le_antisymm (hQ2' q Q hq hv s a) (hQ2 q' Qs hq' hv' s a)
  subst hQe
  have hreg : Regular Q := by rw [hQs]; exact ahead_regular m _ _
  have hmin : ∀ k s, soft μ (Real.exp logAlpha) (p (k + 1)) (y.value (w k)) s = softMax μ (Real.exp logAlpha) (y.value (w k)) s := by
    intro k
    have h2 := (minimises_iff y (θ (k + 1)) hμ (hp (k + 1)) (hd (k + 1)) logAlpha (w k) (w' k) (hr k) (hr' k) hA).1 (hm k)
    have hself : lesser (y.value (w k)) (y.value (w' k)) = y.value (w k) := by rw [(hsol k).1]; funext s a; exact min_self _
    rwa [hself] at h2
  have hstep : ∀ k s a, ahead m y.gamma (softMax μ (Real.exp logAlpha) (y.value (w k))) s a ≤ y.value (w (k + 1)) s a := by
    intro k s a
    have hup : ∀ s a, y.value (w k) s a ≤ y.value (w (k + 1)) s a := by
      refine better h0 h1 (hp (k + 1)) (hr k) (hsol (k + 1)).2 fun s a => ?_
      have e : y.value (w k) s a = ahead m y.gamma (soft μ (Real.exp logAlpha) (p k) (y.value (w k))) s a := congrFun (congrFun (hsol k).2 s) a
      refine e.le.trans (ahead_mono h0 (fun s => ?_) s a)
      rw [hmin]
      exact soft_le hα hμ (hp k) (hr k) s
    have e : y.value (w (k + 1)) s a = ahead m y.gamma (soft μ (Real.exp logAlpha) (p (k + 1)) (y.value (w (k + 1)))) s a := congrFun (congrFun (hsol (k + 1)).2 s) a
    rw [e]
    refine ahead_mono h0 (fun s => ?_) s a
    rw [← hmin]
    exact soft_mono (hp (k + 1)) (hr k) (hr (k + 1)) (hup s)
  suffices h : ∀ k s a, Q s a ≤ y.value (w k) s a + y.gamma ^ k * C by linarith [h k s a]
  intro k
  induction k with
  | zero => intro s a; rw [pow_zero, one_mul]; linarith [hC s a]
  | succ k ih =>
    intro s a
    have e : Q s a = ahead m y.gamma (softMax μ (Real.exp logAlpha) Q) s a := congrFun (congrFun hQs s) a
    have h2 := ahead_shift (m := m) h0 (c := y.gamma ^ k * C) (by positivity) (fun s => softMax_shift (s := s) hα hμ (hr k) hreg (ih s)) s a
    rw [pow_succ, mul_comm (y.gamma ^ k), mul_assoc]
    linarith [hstep k s a]

/-! ### A concrete agent -/

/-- One state that is never left; the action `true` pays 1, the other nothing. -/
def twoArms : Problem Unit Bool where
  prob _ _ _ := 1
  reward _ a _ := if a then 1 else 0
  final _ := false
  bound := 1
  prob_nonneg _ _ _ := zero_le_one
  prob_sum _ _ := by simp
  prob_measurable _ _ := measurable_const
  reward_measurable _ _ := measurable_from_top
  reward_bound _ a _ := by cases a <;> simp

/-- An actor whose weight is the probability of `true`, which it takes if a uniform number is below it; critics with the exact reward and one weight for what follows. -/
def armAgent : SacSys Unit Bool Unit Unit ℝ Unit Unit Unit where
  add m _ := m
  initialized _ := true
  size _ := 0
  get m := (m, [])
  noise m := (m, [])
  minibatches m := (m, fun _ _ => [])
  act θ n _ := if n < θ () then (true, Real.log (θ ())) else (false, Real.log (1 - θ ()))
  value w _ a := w () + if a then 1 else 0
  loss _ := 0
  gradActor _ _ := 0
  gradCritic _ _ := 0
  clip b := b
  stepActor o w _ := (o, w)
  stepCritic o w _ := (o, w)
  stepAlpha o w _ := (o, w)
  gamma := 1 / 2
  useLog := false
  targetEntropy := -1

/-- The probabilities of the actions. -/
def arm (q : ℝ) : Unit → Bool → ℝ := fun _ a => if a then q else 1 - q

/-- Uniform noise. -/
def uniform01 : Measure ℝ := volume.restrict (Set.Ico 0 1)

instance : IsProbabilityMeasure uniform01 := ⟨by simp [uniform01]⟩

theorem arm_policy {q : ℝ} (h0 : 0 < q) (h1 : q < 1) : IsPolicy (Measure.count : Measure Bool) (arm q) :=
  { measurable := fun _ => measurable_from_top
    nonneg := fun _ a => by cases a <;> simp [arm] <;> linarith
    one := fun _ => by rw [integral_fintype Integrable.of_finite]; simp [arm]
    entropy := fun _ => Integrable.of_finite }

theorem arm_draws {q : ℝ} (h0 : 0 < q) (h1 : q < 1) : Draws (Measure.count : Measure Bool) uniform01 (armAgent.act fun _ => q) (arm q) := by
  have hm : Measurable fun n : ℝ => (armAgent.act (fun _ => q) n ()).1 := by
    have : (fun n : ℝ => (armAgent.act (fun _ => q) n ()).1) = fun n => decide (n < q) := by
      funext n
      by_cases h : n < q <;> simp [armAgent, h]
    rw [this]
    exact measurable_to_bool (by
      have : (fun n : ℝ => decide (n < q)) ⁻¹' {true} = Set.Iio q := by ext n; simp
      rw [this]
      exact measurableSet_Iio)
  refine ⟨fun _ => hm, fun _ => ?_, fun _ => ae_of_all _ fun n => ?_⟩
  · refine Measure.ext_of_singleton fun b => ?_
    rw [Measure.map_apply hm (measurableSet_singleton b), withDensity_apply _ (measurableSet_singleton b), lintegral_singleton, Measure.count_singleton, mul_one]
    cases b
    · have : (fun n : ℝ => (armAgent.act (fun _ => q) n ()).1) ⁻¹' {false} ∩ Set.Ico 0 1 = Set.Ico q 1 := by
        ext n
        rcases lt_or_ge n q with h | h
        · simp [armAgent, h]
        · have := h0.le.trans h
          simp [armAgent, not_lt.2 h, h, this]
      rw [uniform01, Measure.restrict_apply (hm (measurableSet_singleton _)), this]
      simp [arm]
    · have : (fun n : ℝ => (armAgent.act (fun _ => q) n ()).1) ⁻¹' {true} ∩ Set.Ico 0 1 = Set.Ico 0 q := by
        ext n
        rcases lt_or_ge n q with h | h
        · have := h.trans h1
          simp [armAgent, h, this]
        · simp [armAgent, not_lt.2 h]
      rw [uniform01, Measure.restrict_apply (hm (measurableSet_singleton _)), this]
      simp [arm]
  · by_cases h : n < q <;> simp [armAgent, h, arm]

theorem arm_regular (w : Unit → ℝ) : Regular (armAgent.value w) :=
  ⟨fun _ => measurable_from_top, |w ()| + 1, fun _ a => by
    cases a <;> simp only [armAgent]
    · simp
    · exact (abs_add_le _ _).trans (by simp)⟩

/-- The expected reward plus the entropy. -/
def armValue (q : ℝ) : ℝ := q - q * Real.log q - (1 - q) * Real.log (1 - q)

/-- It is the weight of settled critics. -/
theorem arm_settled {q : ℝ} (h0 : 0 < q) (h1 : q < 1) :
    Settled armAgent uniform01 twoArms (fun _ => q) 0 [fun _ => armValue q, fun _ => armValue q] := by
  refine (settled_solves armAgent _ (arm_policy h0 h1) (arm_draws h0 h1) 0 _ _ (arm_regular _) (arm_regular _)).2 ⟨rfl, ?_⟩
  funext s a
  simp only [ahead, soft, Finset.univ_unique, Finset.sum_singleton]
  rw [integral_fintype Integrable.of_finite]
  simp only [Fintype.sum_bool, arm, twoArms, armAgent, armValue, Real.exp_zero]
  simp
  ring

/-- The best probability, and the best value. -/
theorem arm_minimises (w : ℝ) : Minimises armAgent Measure.count uniform01 (fun _ => Real.exp 1 / (1 + Real.exp 1)) 0 [fun _ => w, fun _ => w] := by
  have he := Real.exp_pos 1
  have h0 : 0 < Real.exp 1 / (1 + Real.exp 1) := by positivity
  have h1 : Real.exp 1 / (1 + Real.exp 1) < 1 := by rw [div_lt_one (by positivity)]; linarith
  have hr := arm_regular fun _ => w
  refine (minimises_iff armAgent _ (by simp) (arm_policy h0 h1) (arm_draws h0 h1) 0 _ _ hr hr inferInstance).2 fun s => ?_
  refine (soft_eq_iff (Real.exp_pos _) (by simp) (arm_policy h0 h1) (lesser_regular hr hr) s).2 (ae_of_all _ fun a => ?_)
  have e : ∫ b, Real.exp (lesser (armAgent.value fun _ => w) (armAgent.value fun _ => w) s b / Real.exp 0) ∂Measure.count = Real.exp w * (1 + Real.exp 1) := by
    rw [integral_fintype Integrable.of_finite]
    simp [lesser, armAgent, Real.exp_add]
    ring
  rw [boltzmann, e]
  have hw := Real.exp_pos w
  cases a <;> simp [arm, lesser, armAgent, Real.exp_add] <;> field_simp
  ring

/-- The probability of `true` of the best policy. -/
def bestArm : ℝ := Real.exp 1 / (1 + Real.exp 1)

theorem bestArm_pos : 0 < bestArm := div_pos (Real.exp_pos _) (by positivity)

theorem bestArm_lt : bestArm < 1 := by
  have := Real.exp_pos 1
  rw [bestArm, div_lt_one (by positivity)]; linarith

theorem half_pos' : (0 : ℝ) < 1 / 2 := by norm_num

theorem half_lt' : (1 / 2 : ℝ) < 1 := by norm_num

-- C171_critic: the critics of the uniform policy.
example : SoftValues twoArms Measure.count (1 / 2) 1 (arm (1 / 2)) (armAgent.value fun _ => armValue (1 / 2)) := by
  have h := ((C171_critic armAgent (by norm_num [armAgent]) (by norm_num [armAgent]) (fun _ => 1 / 2) (arm_policy half_pos' half_lt') (arm_draws half_pos' half_lt') 0 _ _
    (arm_regular _) (arm_regular _)).1 (arm_settled half_pos' half_lt')).1
  rwa [Real.exp_zero] at h

-- C171_contraction: target critics that are wrong by 1 in opposite directions.
example (s : Unit) (a : Bool) : |expectedTarget armAgent uniform01 twoArms (fun _ => 1 / 2) 0 [fun _ => armValue (1 / 2) + 1, fun _ => armValue (1 / 2) - 1] s a -
    armAgent.value (fun _ => armValue (1 / 2)) s a| ≤ 1 / 2 * 1 := by
  refine C171_contraction armAgent (by norm_num [armAgent]) (by norm_num [armAgent]) (fun _ => 1 / 2) (arm_policy half_pos' half_lt') (arm_draws half_pos' half_lt') 0 _ _
    (arm_regular _) (arm_regular _) _ ((C171_critic armAgent (by norm_num [armAgent]) (by norm_num [armAgent]) (fun _ => 1 / 2) (arm_policy half_pos' half_lt') (arm_draws half_pos' half_lt') 0 _ _
    (arm_regular _) (arm_regular _)).1 (arm_settled half_pos' half_lt')).1 1 (fun s a => ?_) (fun s a => ?_) s a
  · simp [armAgent]
  · simp [armAgent]

-- C171_actor: different critics; the lesser one counts.
example := C171_actor armAgent (fun _ => 1 / 2) (by simp) (arm_policy half_pos' half_lt') (arm_draws half_pos' half_lt') 0 (fun _ => 3) (fun _ => 2) (arm_regular _) (arm_regular _)
  ⟨(), true, 1, (), false⟩

-- C171_improvement: from the uniform policy to the best one.
example : armValue (1 / 2) ≤ armValue bestArm := by
  have hl := arm_minimises (armValue (1 / 2))
  have hq := (C171_critic armAgent (m := twoArms) (by norm_num [armAgent]) (by norm_num [armAgent]) (fun _ => bestArm) (arm_policy bestArm_pos bestArm_lt) (arm_draws bestArm_pos bestArm_lt) 0 _ _
    (arm_regular _) (arm_regular _)).1 (arm_settled bestArm_pos bestArm_lt)
  have h := C171_improvement armAgent (by norm_num [armAgent]) (by norm_num [armAgent]) (fun _ => 1 / 2) (fun _ => bestArm) (arm_policy half_pos' half_lt') (arm_draws half_pos' half_lt')
    (arm_policy bestArm_pos bestArm_lt) (arm_draws bestArm_pos bestArm_lt) 0 _ _ (arm_regular _) (arm_regular _) (arm_settled half_pos' half_lt') (fun t => ?_) _ hq.1 () false
  · simpa [armAgent] using h
  · refine (hl t (arm (1 / 2)) (arm_policy half_pos' half_lt')).trans (le_of_eq ?_)
    rw [expectedLoss_eq armAgent _ (arm_policy half_pos' half_lt') (arm_draws half_pos' half_lt') 0 _ _ (arm_regular _).1 (arm_regular _).1, soft, ← integral_neg]
    refine integral_congr_ae (ae_of_all _ fun a => ?_)
    simp only [List.map_cons, List.map_nil, minOf, lesser]
    ring

-- C171_optimal: the best policy.
example : OptimalSoftValues twoArms Measure.count (1 / 2) (Real.exp 0) (armAgent.value fun _ => armValue bestArm) :=
  C171_optimal armAgent (by norm_num [armAgent]) (by norm_num [armAgent]) (fun _ => bestArm) (by simp) inferInstance (arm_policy bestArm_pos bestArm_lt) (arm_draws bestArm_pos bestArm_lt) 0 _ _
    (arm_regular _) (arm_regular _) (arm_settled bestArm_pos bestArm_lt) (arm_minimises _)

-- C171_exists.
example : ∃ Q, OptimalSoftValues twoArms Measure.count (1 / 2) 1 Q := (C171_exists twoArms (1 / 2) 1 (by norm_num) (by norm_num) one_pos (by simp)).1

/-- The policies of the rounds: the uniform one, then the best one. -/
def roundArm : ℕ → ℝ
  | 0 => 1 / 2
  | _ + 1 => bestArm

theorem roundArm_pos : ∀ k, 0 < roundArm k
  | 0 => half_pos'
  | _ + 1 => bestArm_pos

theorem roundArm_lt : ∀ k, roundArm k < 1
  | 0 => half_lt'
  | _ + 1 => bestArm_lt

-- C171_rounds: from the uniform policy.
example (Q : Unit → Bool → ℝ) (hQ : OptimalSoftValues twoArms Measure.count armAgent.gamma (Real.exp 0) Q) (C : ℝ)
    (hC : ∀ s a, Q s a - armAgent.value (fun _ => armValue (roundArm 0)) s a ≤ C) (k : ℕ) :=
  C171_rounds armAgent (by norm_num [armAgent]) (by norm_num [armAgent]) (by simp) inferInstance 0 (fun k _ => roundArm k) (fun k _ => armValue (roundArm k)) (fun k _ => armValue (roundArm k))
    (fun k => arm (roundArm k)) (fun k => arm_policy (roundArm_pos k) (roundArm_lt k)) (fun k => arm_draws (roundArm_pos k) (roundArm_lt k)) (fun _ => arm_regular _) (fun _ => arm_regular _)
    (fun k => arm_settled (roundArm_pos k) (roundArm_lt k)) (fun _ => arm_minimises _) Q hQ C hC k () true

end

end Verif.ActorCritic.MaxEnt
