/-
Property C151: learning with an exploration that decays.
-/
import Verif.TD.LemmasGlie
import Verif.TD.PropsStochRun
import Mathlib.Probability.Martingale.BorelCantelli

namespace Verif.TD

open Filter Topology MeasureTheory

noncomputable section

variable {S A : Type} [DecidableEq S] [DecidableEq A] [Fintype S] [Fintype A] [Nonempty A]
variable {Ω : Type} [mΩ : MeasurableSpace Ω] {μ : Measure Ω} [IsProbabilityMeasure μ] {ℱ 𝒢 : Filtration ℕ mΩ}

/-! ### The policy -/

theorem epsGreedy_prob {ε : ℝ} (h0 : 0 ≤ ε) (h1 : ε ≤ 1) (q : A → ℝ) : Prob (epsGreedy ε q) := by
  obtain ⟨u0, u1⟩ := uniform_prob (best_nonempty q)
  refine ⟨fun a => add_nonneg (div_nonneg h0 (Nat.cast_nonneg _)) (mul_nonneg (by linarith) (u0 a)), ?_⟩
  have hc : (Fintype.card A : ℝ) ≠ 0 := by exact_mod_cast Fintype.card_ne_zero
  simp only [epsGreedy]
  rw [Finset.sum_add_distrib, ← Finset.mul_sum, u1, Finset.sum_const, Finset.card_univ, nsmul_eq_mul]
  field_simp
  ring

/-- The probability of the actions that are not greedy is at most `ε`. -/
theorem epsGreedy_rest {ε : ℝ} (h0 : 0 ≤ ε) (q : A → ℝ) : 0 ≤ ∑ a ∈ (best q)ᶜ, epsGreedy ε q a ∧ ∑ a ∈ (best q)ᶜ, epsGreedy ε q a ≤ ε := by
  have e : ∑ a ∈ (best q)ᶜ, epsGreedy ε q a = ∑ a ∈ (best q)ᶜ, ε / Fintype.card A := by
    refine Finset.sum_congr rfl fun a ha => ?_
    have : a ∉ best q := Finset.mem_compl.1 ha
    simp [epsGreedy, uniform, this]
  have hc : (0 : ℝ) < Fintype.card A := by exact_mod_cast Fintype.card_pos
  rw [e, Finset.sum_const, nsmul_eq_mul]
  refine ⟨by positivity, ?_⟩
  have h2 : ((best q)ᶜ.card : ℝ) ≤ Fintype.card A := by exact_mod_cast Finset.card_le_univ _
  rw [mul_div_assoc', div_le_iff₀ hc, mul_comm]
  exact mul_le_mul_of_nonneg_left h2 h0

theorem epsGreedy_floor {ε : ℝ} (h1 : ε ≤ 1) (q : A → ℝ) (a : A) : ε / Fintype.card A ≤ epsGreedy ε q a :=
  le_add_of_nonneg_right (mul_nonneg (by linarith) ((uniform_prob (best_nonempty q)).1 a))

theorem epsGreedy_measurable {n : ℕ} {e : Ω → ℝ} (he : Measurable[ℱ n] e) {q : Ω → A → ℝ} (hq : ∀ a, Measurable[ℱ n] (fun ω => q ω a)) (a : A) :
    Measurable[ℱ n] (fun ω => epsGreedy (e ω) (q ω) a) := by
  have hq' : Measurable[ℱ n] q := @measurable_pi_lambda _ _ _ (ℱ n) _ _ hq
  exact (he.div_const _).add ((measurable_const.sub he).mul ((uniform_measurable a).comp hq'))

/-! ### SARSA and expected SARSA -/

/-- Summing over next state and next action. -/
theorem mean_draw {P r : S → ℝ} {ab : S → Bool} {u y : S → A → ℝ} {γ : ℝ} (hu : ∀ s, ∑ a, u s a = 1) :
    ∑ z : S × A, P z.1 * u z.1 z.2 * (r z.1 + γ * (if ab z.1 then 0 else y z.1 z.2)) =
      ∑ s, P s * (r s + γ * (if ab s then 0 else ∑ a, u s a * y s a)) := by
  have key : ∀ s, ∑ a, P s * u s a * (r s + γ * (if ab s then 0 else y s a)) = P s * (r s + γ * (if ab s then 0 else ∑ a, u s a * y s a)) := by
    intro s
    cases ab s with
    | true =>
      simp only [if_true, mul_zero, add_zero]
      rw [← Finset.sum_mul, ← Finset.mul_sum, hu, mul_one]
    | false =>
      have : ∀ a, P s * u s a * (r s + γ * y s a) = P s * r s * u s a + P s * γ * (u s a * y s a) := fun a => by ring
      simp only [Bool.false_eq_true, if_false, this, Finset.sum_add_distrib, ← Finset.mul_sum, hu]
      ring
  rw [Fintype.sum_prod_type]
  exact Finset.sum_congr rfl fun s _ => key s

theorem reach_nonneg {m : RandomMDP S A} {γ : ℝ} (hγ1 : γ < 1) (Q0 : Table S A) : 0 ≤ reach m γ Q0 := by
  unfold reach
  exact add_nonneg (Finset.sum_nonneg (fun _ _ => Finset.sum_nonneg (fun _ _ => abs_nonneg _)))
    (div_nonneg (Finset.sum_nonneg (fun _ _ => Finset.sum_nonneg (fun _ _ => Finset.sum_nonneg (fun _ _ => abs_nonneg _)))) (by linarith))

/-- If the policies become greedy, the mean targets contract towards the optimal values in the long run. -/
theorem glie_contracts {m : RandomMDP S A} (hm : m.Proper) {L : S → Prop} (hcl : m.Closed L) {γ B : ℝ} (hγ0 : 0 ≤ γ) (hγ1 : γ < 1) {V : S → ℝ} {Qs : Table S A}
    (hV : ∀ s, L s → IsMax (Qs s) (V s) ∧
      ∀ a, Qs s a = ∑ s', m.prob s a s' * (m.reward s a s' + γ * (if m.absorbing s a s' then 0 else V s')))
    {x : ℕ → Table S A} (hx : ∀ n, Bounded B (x n)) {π : ℕ → S → A → ℝ} (hπ : ∀ n s, Prob (π n s)) (hg : GreedyInTheLimit L x π) (ε : ℝ) (hε : 0 < ε) :
    ∀ᶠ n in atTop, ∀ D, 0 ≤ D → (∀ s, L s → ∀ a, |x n s a - Qs s a| ≤ D) → ∀ s, L s → ∀ a,
      |∑ s', m.prob s a s' * (m.reward s a s' + γ * (if m.absorbing s a s' then 0 else ∑ a', π n s' a' * x n s' a')) - Qs s a| ≤ γ * D + ε := by
  have hev : ∀ᶠ n in atTop, ∀ s, L s → 2 * B * ∑ a ∈ (best (x n s))ᶜ, π n s a < ε := by
    rw [eventually_all]; intro s
    by_cases hs : L s
    · have := (hg s hs).const_mul (2 * B)
      rw [mul_zero] at this
      filter_upwards [this.eventually (gt_mem_nhds hε)] with n hn _
      exact hn
    · exact Eventually.of_forall fun n h => absurd h hs
  filter_upwards [hev] with n hn D hD hclose s hs a
  rw [(hV s hs).2 a]
  refine (mean_contracts hm hcl hγ0 (add_nonneg hD hε.le) (V := fun s' => ∑ a', π n s' a' * x n s' a') (W := V) (fun s' hs' => ?_) s hs a).trans ?_
  · have h1 := policy_close (hπ n s') (hx n s')
    have h2 := isMax_close (hclose s' hs') (rowMax_isMax (x n s')) (hV s' hs').1
    have e : ∑ a', π n s' a' * x n s' a' - V s' = (∑ a', π n s' a' * x n s' a' - rowMax (x n s')) + (rowMax (x n s') - V s') := by ring
    rw [e]
    refine (abs_add_le _ _).trans ?_
    linarith [hn s' hs']
  · nlinarith

/-- The tables of an agent stay inside a bound that its targets do not leave. -/
theorem tables_bounded {B : ℝ} {upd : ℕ → Table S A → Table S A} {Q0 : Table S A} (h0 : Bounded B Q0) (h : ∀ n Q, Bounded B Q → Bounded B (upd n Q)) (n : ℕ) :
    Bounded B (tables upd Q0 n) := by
  induction n with
  | zero => exact h0
  | succ n ih => exact h n _ ih

theorem step_bounded {B α g : ℝ} {Q : Table S A} (hQ : Bounded B Q) (h0 : 0 ≤ α) (h1 : α ≤ 1) (hg : |g| ≤ B) (s : S) (a : A) :
    Bounded B (Q.set s a (Q s a + α * (g - Q s a))) := by
  intro s' a'
  unfold Table.set
  split
  · have e : Q s a + α * (g - Q s a) = (1 - α) * Q s a + α * g := by ring
    rw [e]
    refine (abs_add_le _ _).trans ?_
    rw [abs_mul, abs_mul, abs_of_nonneg h0, abs_of_nonneg (by linarith : 0 ≤ 1 - α)]
    have h2 := mul_le_mul_of_nonneg_left (hQ s a) (by linarith : 0 ≤ 1 - α)
    have h3 := mul_le_mul_of_nonneg_left hg h0
    linarith
  · exact hQ s' a'

/-- SARSA with policies that may depend on the past and on the present table. -/
theorem sarsa_converges (m : RandomMDP S A) (hm : m.Proper) (L : S → Prop) (hcl : m.Closed L) (γ : ℝ) (hγ0 : 0 ≤ γ) (hγ1 : γ < 1)
    (Qs : Table S A) (hQs : m.OptimalOn L γ Qs) (t : ℕ → Ω → Trans S A) (ht : Experience μ ℱ m L t) (b : ℕ → Ω → A) (π : ℕ → Ω → S → A → ℝ)
    (hπ : ∀ n ω s, Prob (π n ω s)) (hb : NextDraws μ ℱ m π t b) (α : ℕ → Ω → ℝ) (hα : RobbinsMonro μ ℱ L t α) (Q0 : Table S A)
    (hπm : ∀ n, (∀ s a, Measurable[ℱ n] (fun ω => tables (fun k Q => sarsa γ (α k ω) Q (t k ω) (b k ω)) Q0 n s a)) →
      ∀ s a, Measurable[ℱ n] (fun ω => π n ω s a))
    (hg : ∀ᵐ ω ∂μ, GreedyInTheLimit L (tables (fun k Q => sarsa γ (α k ω) Q (t k ω) (b k ω)) Q0) (π · ω)) :
    ∀ᵐ ω ∂μ, ∀ s, L s → ∀ a,
      Tendsto (fun n => tables (fun k Q => sarsa γ (α k ω) Q (t k ω) (b k ω)) Q0 n s a) atTop (𝓝 (Qs s a)) := by
  obtain ⟨V, hV⟩ := hQs
  have hB0 := reach_nonneg (m := m) hγ1 Q0
  have e : ∀ n ω Q, sarsa γ (α n ω) Q (t n ω) (b n ω) = Q.set (t n ω).state (t n ω).action (Q (t n ω).state (t n ω).action +
      α n ω * (m.reward (t n ω).state (t n ω).action (t n ω).next + γ * (if m.absorbing (t n ω).state (t n ω).action (t n ω).next then 0 else
        Q (t n ω).next (b n ω)) - Q (t n ω).state (t n ω).action)) := by
    intro n ω Q
    rw [← ht.reward, ← ht.absorbing, ← not_ite]
    rfl
  have hbd : ∀ n ω, Bounded (reach m γ Q0) (tables (fun k Q => sarsa γ (α k ω) Q (t k ω) (b k ω)) Q0 n) := fun n ω =>
    tables_bounded (bounded_reach hγ1) (fun k Q hQ => by
      rw [e]
      exact step_bounded hQ (hα.range k ω).1 (hα.range k ω).2 (target_reach hγ0 hγ1 (abs_ite_zero hB0 fun _ => hQ _ _) _ _ _) _ _) n
  refine learning_perturbed (ℱ := ℱ) (Y := S × A) (o := fun n ω => ((t n ω).next, b n ω)) (p := fun n ω s a y => m.prob s a y.1 * π n ω y.1 y.2)
    (G := fun n ω s a y => m.reward s a y.1 + γ * (if m.absorbing s a y.1 then 0 else
      tables (fun k Q => sarsa γ (α k ω) Q (t k ω) (b k ω)) Q0 n y.1 y.2)) (B := reach m γ Q0) hγ0 hγ1 ht.past
    (fun n y => by simpa only [Prod.ext_iff] using hb.known n y.1 y.2) (fun n y => by simpa only [Prod.ext_iff] using hb.law n y.1 y.2)
    (fun n ω s a y => mul_nonneg (hm.1 _ _ _) ((hπ n ω y.1).1 _)) (fun n ω s a => ?_) (fun n h s a y => measurable_const.mul (hπm n h y.1 y.2))
    (fun n h s a y => ?_) hα (bounded_reach hγ1) (fun n ω h s a y => target_reach hγ0 hγ1 (abs_ite_zero hB0 fun _ => h y.1 y.2) s a y.1)
    (fun ω => rfl) (fun n ω => ?_) ?_
  · rw [Fintype.sum_prod_type]
    simp only [← Finset.mul_sum, (hπ _ _ _).2, mul_one, hm.2]
  · refine measurable_const.add (measurable_const.mul ?_)
    split
    · exact measurable_const
    · exact h y.1 y.2
  · show SetsOnly _ (sarsa γ (α n ω) _ (t n ω) (b n ω)) _ _ _
    rw [e]
    exact set_setsOnly _ _ _ _
  · filter_upwards [hg] with ω h ε hε
    filter_upwards [glie_contracts hm hcl hγ0 hγ1 hV (fun n => hbd n ω) (fun n s => hπ n ω s) h ε hε] with n hn D hD hclose s hs a
    rw [mean_draw (P := m.prob s a) (r := m.reward s a) (ab := m.absorbing s a) (u := π n ω) (fun s' => (hπ n ω s').2)]
    exact hn D hD hclose s hs a

/-- C151. SARSA with `EpsGreedy` whose parameter vanishes in every live state: with probability one the table converges to the optimal action values.
`e n ω s` is the value that the parameter has for state `s` when the `n`-th transition is learned. -/
theorem C151_sarsa (m : RandomMDP S A) (hm : m.Proper) (L : S → Prop) (hcl : m.Closed L) (γ : ℝ) (hγ0 : 0 ≤ γ) (hγ1 : γ < 1)
    (Qs : Table S A) (hQs : m.OptimalOn L γ Qs) (t : ℕ → Ω → Trans S A) (ht : Experience μ ℱ m L t) (b : ℕ → Ω → A) (α : ℕ → Ω → ℝ)
    (hα : RobbinsMonro μ ℱ L t α) (Q0 : Table S A) (e : ℕ → Ω → S → ℝ) (hem : ∀ n s, Measurable[ℱ n] (fun ω => e n ω s))
    (he : ∀ n ω s, 0 ≤ e n ω s ∧ e n ω s ≤ 1) (hlim : ∀ᵐ ω ∂μ, ∀ s, L s → Tendsto (fun n => e n ω s) atTop (𝓝 0))
    (hb : NextDraws μ ℱ m (fun n ω s => epsGreedy (e n ω s) (tables (fun k Q => sarsa γ (α k ω) Q (t k ω) (b k ω)) Q0 n s)) t b) :
    ∀ᵐ ω ∂μ, ∀ s, L s → ∀ a,
      Tendsto (fun n => tables (fun k Q => sarsa γ (α k ω) Q (t k ω) (b k ω)) Q0 n s a) atTop (𝓝 (Qs s a)) := by
  refine sarsa_converges m hm L hcl γ hγ0 hγ1 Qs hQs t ht b _ (fun n ω s => epsGreedy_prob (he n ω s).1 (he n ω s).2 _) hb α hα Q0
    (fun n h s a => epsGreedy_measurable (hem n s) (fun a => h s a) a) ?_
  filter_upwards [hlim] with ω h s hs
  exact squeeze_zero (fun n => (epsGreedy_rest (he n ω s).1 _).1) (fun n => (epsGreedy_rest (he n ω s).1 _).2) (h s hs)

/-- C151. Expected SARSA with `EpsGreedy` whose parameter vanishes in every live state: with probability one the table converges to the optimal action values. -/
theorem C151_expected_sarsa (m : RandomMDP S A) (hm : m.Proper) (L : S → Prop) (hcl : m.Closed L) (γ : ℝ) (hγ0 : 0 ≤ γ) (hγ1 : γ < 1)
    (Qs : Table S A) (hQs : m.OptimalOn L γ Qs) (t : ℕ → Ω → Trans S A) (ht : Experience μ ℱ m L t) (α : ℕ → Ω → ℝ)
    (hα : RobbinsMonro μ ℱ L t α) (Q0 : Table S A) (e : ℕ → Ω → S → ℝ) (hem : ∀ n s, Measurable[ℱ n] (fun ω => e n ω s))
    (he : ∀ n ω s, 0 ≤ e n ω s ∧ e n ω s ≤ 1) (hlim : ∀ᵐ ω ∂μ, ∀ s, L s → Tendsto (fun n => e n ω s) atTop (𝓝 0)) :
    ∀ᵐ ω ∂μ, ∀ s, L s → ∀ a, Tendsto (fun n => tables (fun k Q =>
      expectedSarsa γ (α k ω) Q (t k ω) (epsGreedy (e k ω (t k ω).next) (Q (t k ω).next))) Q0 n s a) atTop (𝓝 (Qs s a)) := by
  obtain ⟨V, hV⟩ := hQs
  have hB0 := reach_nonneg (m := m) hγ1 Q0
  have hπ : ∀ n ω s (q : A → ℝ), Prob (epsGreedy (e n ω s) q) := fun n ω s q => epsGreedy_prob (he n ω s).1 (he n ω s).2 q
  have hupd : ∀ n ω (Q : Table S A), expectedSarsa γ (α n ω) Q (t n ω) (epsGreedy (e n ω (t n ω).next) (Q (t n ω).next)) =
      Q.set (t n ω).state (t n ω).action (Q (t n ω).state (t n ω).action + α n ω * (m.reward (t n ω).state (t n ω).action (t n ω).next +
        γ * (if m.absorbing (t n ω).state (t n ω).action (t n ω).next then 0 else
        ∑ a, epsGreedy (e n ω (t n ω).next) (Q (t n ω).next) a * Q (t n ω).next a) - Q (t n ω).state (t n ω).action)) := by
    intro n ω Q
    rw [← ht.reward, ← ht.absorbing, ← not_ite]
    simp only [mul_comm (epsGreedy _ _ _)]
    rfl
  set x : ℕ → Ω → Table S A := fun n ω => tables (fun k Q =>
      expectedSarsa γ (α k ω) Q (t k ω) (epsGreedy (e k ω (t k ω).next) (Q (t k ω).next))) Q0 n with hx
  have hbd : ∀ n ω, Bounded (reach m γ Q0) (x n ω) := fun n ω =>
    tables_bounded (bounded_reach hγ1) (fun k Q hQ => by
      rw [hupd]
      exact step_bounded hQ (hα.range k ω).1 (hα.range k ω).2 (target_reach hγ0 hγ1 (abs_ite_zero hB0 fun _ => prob_bound (hπ _ _ _ _) (hQ _)) _ _ _) _ _) n
  refine learning_perturbed (ℱ := ℱ) (o := fun n ω => (t n ω).next) (p := fun n ω => m.prob) (x := x)
    (G := fun n ω s a s' => m.reward s a s' + γ * (if m.absorbing s a s' then 0 else ∑ a', epsGreedy (e n ω s') (x n ω s') a' * x n ω s' a'))
    (B := reach m γ Q0) hγ0 hγ1 ht.past ht.known ht.law (fun n ω => hm.1) (fun n ω => hm.2) (fun n h s a y => measurable_const)
    (fun n h s a y => ?_) hα (bounded_reach hγ1)
    (fun n ω h s a y => target_reach hγ0 hγ1 (abs_ite_zero hB0 fun _ => prob_bound (hπ _ _ _ _) (h y)) s a y) (fun ω => rfl) (fun n ω => ?_) ?_
  · refine measurable_const.add (measurable_const.mul ?_)
    split
    · exact measurable_const
    · exact @Finset.measurable_fun_sum _ _ _ _ _ _ (ℱ n) _ Finset.univ (fun a' _ => (epsGreedy_measurable (hem n y) (fun a => h y a) a').mul (h y a'))
  · show SetsOnly _ (expectedSarsa γ (α n ω) (x n ω) (t n ω) (epsGreedy (e n ω (t n ω).next) (x n ω (t n ω).next))) _ _ _
    rw [hupd]
    exact set_setsOnly _ _ _ _
  · filter_upwards [hlim] with ω h ε hε
    exact glie_contracts hm hcl hγ0 hγ1 hV (fun n => hbd n ω) (π := fun n s => epsGreedy (e n ω s) (x n ω s)) (fun n s => hπ n ω s _)
      (fun s hs => squeeze_zero (fun n => (epsGreedy_rest (he n ω s).1 _).1) (fun n => (epsGreedy_rest (he n ω s).1 _).2) (h s hs)) ε hε

/-! ### Exploration -/

/-- Lévy's extension of the Borel-Cantelli lemma: events whose conditional probabilities have an infinite sum happen again and again. -/
theorem again_and_again {F : ℕ → Set Ω} {q : ℕ → Ω → ℝ} (hF : ∀ n, MeasurableSet[ℱ (n + 1)] (F n))
    (hq : ∀ n, μ[Set.indicator (F n) (fun _ => (1 : ℝ)) | ℱ n] =ᵐ[μ] q n) :
    ∀ᵐ ω ∂μ, Tendsto (fun n => ∑ k ∈ Finset.range n, q k ω) atTop atTop → ∀ n, ∃ k, n ≤ k ∧ ω ∈ F k := by
  let G : ℕ → Set Ω := fun n => match n with
    | 0 => ∅
    | n + 1 => F n
  have hG : ∀ n, MeasurableSet[ℱ n] (G n) := fun n => match n with
    | 0 => @MeasurableSet.empty _ (ℱ 0)
    | n + 1 => hF n
  filter_upwards [ae_mem_limsup_atTop_iff (ℱ := ℱ) μ hG, ae_all_iff.2 hq] with ω h hq' hsum n
  have h1 : ω ∈ limsup G atTop := h.2 (hsum.congr fun n => Finset.sum_congr rfl fun k _ => (hq' k).symm)
  rw [mem_limsup_iff_frequently_mem] at h1
  obtain ⟨k, hk, hk'⟩ := (frequently_atTop.1 h1) (n + 1)
  obtain ⟨k, rfl⟩ : ∃ j, k = j + 1 := ⟨k - 1, by omega⟩
  exact ⟨k, by omega, hk'⟩

/-- Number of the first `n` transitions that start in the state. -/
def timesIn (s : S) (t : ℕ → Trans S A) (n : ℕ) : ℕ := ∑ k ∈ Finset.range n, if (t k).state = s then 1 else 0

/-- The parameter of `EpsGreedy` after the first `n` draws, each of which called it with the state: td_policy.py L81. `key` is the index of a state. -/
def epsAfter (p : Policy.Param) (key : S → Policy.Index) (t : ℕ → Trans S A) (n : ℕ) : Policy.Param :=
  p.run ((List.range n).map fun k => .call (key (t k).state))

/-- The value that the `n`-th draw would use in state `s`. -/
def epsAt (p : Policy.Param) (key : S → Policy.Index) (t : ℕ → Trans S A) (n : ℕ) (s : S) : ℝ := ((epsAfter p key t n).call (key s)).2

theorem timesIn_succ (s : S) (t : ℕ → Trans S A) (n : ℕ) : timesIn s t (n + 1) = timesIn s t n + if (t n).state = s then 1 else 0 :=
  Finset.sum_range_succ _ _

theorem timesIn_reindex (f : ℕ → ℝ) (s : S) (t : ℕ → Trans S A) (n : ℕ) :
    ∑ k ∈ Finset.range n, (if (t k).state = s then f (timesIn s t k) else 0) = ∑ i ∈ Finset.range (timesIn s t n), f i := by
  induction n with
  | zero => simp [timesIn]
  | succ n ih =>
    rw [Finset.sum_range_succ, ih, timesIn_succ]
    split
    · rw [Finset.sum_range_succ]
    · simp

theorem timesIn_tendsto {s : S} {t : ℕ → Trans S A} (h : Recurs s t) : Tendsto (timesIn s t) atTop atTop := by
  have hmono : Monotone (timesIn s t) := by
    refine monotone_nat_of_le_succ (fun n => ?_)
    rw [timesIn_succ]
    exact Nat.le_add_right _ _
  refine tendsto_atTop_atTop_of_monotone hmono (fun b => ?_)
  induction b with
  | zero => exact ⟨0, Nat.zero_le _⟩
  | succ b ih =>
    obtain ⟨n, hn⟩ := ih
    obtain ⟨k, hk, hs⟩ := h n
    refine ⟨k + 1, ?_⟩
    rw [timesIn_succ, if_pos hs]
    have := hmono hk
    omega

theorem epsAt_decay {key : S → Policy.Index} (hkey : ∀ s s', key s = key s' → s = s') (v p : ℝ) (t : ℕ → Trans S A) (n : ℕ) (s : S) :
    epsAt (Policy.decayParam v p none none false) key t n s = v / ((timesIn s t n + 1 : ℕ) : ℝ) ^ p := by
  unfold epsAt epsAfter
  rw [Policy.C25_decay_call]
  congr 4
  induction n with
  | zero => simp [timesIn, Policy.visits]
  | succ n ih =>
    rw [List.range_succ, List.map_append, Policy.visits_append, ih]
    simp only [List.map_cons, List.map_nil, Policy.visits, timesIn_succ, Nat.add_zero]
    congr 1
    by_cases h : (t n).state = s
    · rw [h]; simp
    · have : ¬ (key (t n).state = key s) := fun h' => h (hkey _ _ h')
      simp [h, this]

theorem epsAt_range {key : S → Policy.Index} (hkey : ∀ s s', key s = key s' → s = s') {v p : ℝ} (hv0 : 0 < v) (hv1 : v ≤ 1) (hp0 : 0 ≤ p) (t : ℕ → Trans S A)
    (n : ℕ) (s : S) : 0 ≤ epsAt (Policy.decayParam v p none none false) key t n s ∧ epsAt (Policy.decayParam v p none none false) key t n s ≤ 1 := by
  rw [epsAt_decay hkey]
  have : (1 : ℝ) ≤ ((timesIn s t n + 1 : ℕ) : ℝ) ^ p := Real.one_le_rpow (by exact_mod_cast Nat.succ_le_succ (Nat.zero_le _)) hp0
  exact ⟨div_nonneg hv0.le (by linarith), (div_le_one (by linarith)).2 (by linarith)⟩

/-- C151. In a state that is met again and again a decaying parameter vanishes. -/
theorem C151_eps_vanishes {key : S → Policy.Index} (hkey : ∀ s s', key s = key s' → s = s') {v p : ℝ} (hp0 : 0 < p) {t : ℕ → Trans S A} {s : S}
    (h : Recurs s t) : Tendsto (fun n => epsAt (Policy.decayParam v p none none false) key t n s) atTop (𝓝 0) := by
  simp only [epsAt_decay hkey]
  have h1 : Tendsto (fun k : ℕ => ((k + 1 : ℕ) : ℝ) ^ p) atTop atTop :=
    (tendsto_rpow_atTop hp0).comp (tendsto_natCast_atTop_atTop.comp (tendsto_add_atTop_nat 1))
  exact (h1.comp (timesIn_tendsto h)).const_div_atTop v

/-- C151. `EpsGreedy` with a parameter that decays with an exponent of at most 1: with probability one every action is taken again and again in every state that
is met again and again, whatever the tables are and however the environment answers. -/
theorem C151_explores (t : ℕ → Ω → Trans S A) (key : S → Policy.Index) (hkey : ∀ s s', key s = key s' → s = s') (v p : ℝ) (hv0 : 0 < v) (hv1 : v ≤ 1)
    (hp0 : 0 ≤ p) (hp1 : p ≤ 1) (Q : ℕ → Ω → Table S A)
    (hpast : ∀ n s a, MeasurableSet[ℱ n] {ω | (t n ω).state = s ∧ (t n ω).action = a})
    (hd : ActionDraws μ ℱ 𝒢 (fun n ω s => epsGreedy (epsAt (Policy.decayParam v p none none false) key (t · ω) n s) (Q n ω s)) t) :
    ∀ᵐ ω ∂μ, ∀ s, Recurs s (t · ω) → ∀ a n, ∃ k, n ≤ k ∧ (t k ω).state = s ∧ (t k ω).action = a := by
  classical
  rw [ae_all_iff]; intro s
  have main : ∀ᵐ ω ∂μ, ∀ a, Recurs s (t · ω) → ∀ n, ∃ k, n ≤ k ∧ (t k ω).state = s ∧ (t k ω).action = a := by
    rw [ae_all_iff]; intro a
    have hF : ∀ n, MeasurableSet[𝒢 (n + 1)] {ω | (t n ω).state = s ∧ (t n ω).action = a} := fun n => hd.after n _ (hpast n s a)
    have hact : ∀ n, MeasurableSet {ω | (t n ω).action = a} := fun n => by
      have : {ω | (t n ω).action = a} = ⋃ s, {ω | (t n ω).state = s ∧ (t n ω).action = a} := by ext ω; simp
      rw [this]
      exact MeasurableSet.iUnion fun s => ℱ.le n _ (hpast n s a)
    have hq : ∀ n, μ[Set.indicator {ω | (t n ω).state = s ∧ (t n ω).action = a} (fun _ => (1 : ℝ)) | 𝒢 n] =ᵐ[μ]
        fun ω => if (t n ω).state = s then epsGreedy (epsAt (Policy.decayParam v p none none false) key (t · ω) n s) (Q n ω s) a else 0 := by
      intro n
      have e : Set.indicator {ω | (t n ω).state = s ∧ (t n ω).action = a} (fun _ => (1 : ℝ)) =
          Set.indicator {ω | (t n ω).state = s} (Set.indicator {ω | (t n ω).action = a} (fun _ => (1 : ℝ))) := by
        rw [Set.indicator_indicator]; rfl
      rw [e]
      have h1 := condExp_indicator (m := 𝒢 n) (μ := μ) (f := Set.indicator {ω | (t n ω).action = a} (fun _ => (1 : ℝ)))
        ((integrable_const (1 : ℝ)).indicator (hact n)) (hd.state n s)
      filter_upwards [h1, hd.law n a] with ω h h'
      rw [h]
      by_cases hs : (t n ω).state = s
      · rw [Set.indicator_of_mem (by exact hs), h', if_pos hs, hs]
      · rw [Set.indicator_of_notMem (by exact hs), if_neg hs]
    filter_upwards [again_and_again (ℱ := 𝒢) hF hq] with ω h hr n
    refine h ?_ n
    have hdiv : Tendsto (fun n => ∑ i ∈ Finset.range n, v / ((i + 1 : ℕ) : ℝ) ^ p) atTop atTop := by
      refine (not_summable_iff_tendsto_nat_atTop_of_nonneg (fun i => by positivity)).1 (fun hs => ?_)
      have h1 : ¬ Summable (fun k : ℕ => 1 / ((k : ℕ) : ℝ) ^ p) := by
        rw [Real.summable_one_div_nat_rpow]; linarith
      apply h1
      rw [← summable_nat_add_iff 1]
      refine (hs.mul_left v⁻¹).congr (fun k => ?_)
      field_simp
    have hc : (0 : ℝ) < Fintype.card A := by exact_mod_cast Fintype.card_pos
    have h2 := ((hdiv.comp (timesIn_tendsto hr)).atTop_div_const hc)
    refine tendsto_atTop_mono (fun n => ?_) h2
    simp only [Function.comp]
    rw [← timesIn_reindex (fun i => v / ((i + 1 : ℕ) : ℝ) ^ p) s (t · ω) n, Finset.sum_div]
    refine Finset.sum_le_sum fun k _ => ?_
    split
    · rw [← epsAt_decay hkey]
      exact epsGreedy_floor (epsAt_range hkey hv0 hv1 hp0 _ _ _).2 _ _
    · simp
  filter_upwards [main] with ω h hr a
  exact h a hr

/-- Outcomes that are possible happen again and again. -/
theorem outcomes_again {m : RandomMDP S A} {L : S → Prop} {t : ℕ → Ω → Trans S A} (ht : Experience μ ℱ m L t) :
    ∀ᵐ ω ∂μ, ∀ s a s', 0 < m.prob s a s' → (∀ n, ∃ k, n ≤ k ∧ (t k ω).state = s ∧ (t k ω).action = a) →
      ∀ n, ∃ k, n ≤ k ∧ (t k ω).state = s ∧ (t k ω).action = a ∧ (t k ω).next = s' := by
  rw [ae_all_iff]; intro s
  rw [ae_all_iff]; intro a
  rw [ae_all_iff]; intro s'
  have hF : ∀ n, MeasurableSet[ℱ (n + 1)] ({ω | (t n ω).state = s ∧ (t n ω).action = a} ∩ {ω | (t n ω).next = s'}) := fun n =>
    (ℱ.mono (Nat.le_succ n) _ (ht.past n s a)).inter (ht.known n s')
  have hq : ∀ n, μ[Set.indicator ({ω | (t n ω).state = s ∧ (t n ω).action = a} ∩ {ω | (t n ω).next = s'}) (fun _ => (1 : ℝ)) | ℱ n] =ᵐ[μ]
      fun ω => if (t n ω).state = s ∧ (t n ω).action = a then m.prob s a s' else 0 := by
    intro n
    rw [← Set.indicator_indicator]
    have h1 := condExp_indicator (m := ℱ n) (μ := μ) (f := Set.indicator {ω | (t n ω).next = s'} (fun _ => (1 : ℝ)))
      ((integrable_const (1 : ℝ)).indicator (ℱ.le _ _ (ht.known n s'))) (ht.past n s a)
    filter_upwards [h1, ht.law n s'] with ω h h'
    rw [h]
    by_cases hs : (t n ω).state = s ∧ (t n ω).action = a
    · rw [Set.indicator_of_mem (by exact hs), h', if_pos hs, hs.1, hs.2]
    · rw [Set.indicator_of_notMem (by exact hs), if_neg hs]
  filter_upwards [again_and_again (ℱ := ℱ) hF hq] with ω h hp hr n
  obtain ⟨k, hk, h1, h2⟩ := h (by
    have h3 : Tendsto (fun n => (timesSeen s a (t · ω) n : ℝ) * m.prob s a s') atTop atTop :=
      (tendsto_natCast_atTop_atTop.comp (timesSeen_tendsto hr)).atTop_mul_const hp
    refine h3.congr fun n => ?_
    unfold timesSeen
    push_cast
    rw [Finset.sum_mul]
    exact Finset.sum_congr rfl fun k _ => by split <;> simp) n
  exact ⟨k, hk, h1.1, h1.2, h2⟩

/-- C151. In a problem in which every live state can be reached from every other one, with episodes that go on until an absorbing state is reached, an agent with
such a policy meets every live state again and again and takes every action there again and again, with probability one. -/
theorem C151_explores_all (m : RandomMDP S A) (L : S → Prop) (s0 : S) (hcom : m.Communicating L s0) (t : ℕ → Ω → Trans S A) (ht : Experience μ ℱ m L t)
    (hre : ∀ ω, Restarts s0 (t · ω)) (key : S → Policy.Index) (hkey : ∀ s s', key s = key s' → s = s') (v p : ℝ) (hv0 : 0 < v) (hv1 : v ≤ 1)
    (hp0 : 0 ≤ p) (hp1 : p ≤ 1) (Q : ℕ → Ω → Table S A)
    (hd : ActionDraws μ ℱ 𝒢 (fun n ω s => epsGreedy (epsAt (Policy.decayParam v p none none false) key (t · ω) n s) (Q n ω s)) t) :
    ∀ᵐ ω ∂μ, (∀ s, L s → Recurs s (t · ω)) ∧ ExploresForever L (t · ω) := by
  filter_upwards [C151_explores t key hkey v p hv0 hv1 hp0 hp1 Q ht.past hd, outcomes_again ht] with ω h1 h2
  have hstep : ∀ s s', Recurs s (t · ω) → m.Leads s0 s s' → Recurs s' (t · ω) := by
    rintro s s' hr ⟨a, x, hp, rfl⟩ n
    obtain ⟨k, hk, e1, e2, e3⟩ := h2 s a x hp (h1 s hr a) n
    refine ⟨k + 1, by omega, ?_⟩
    rw [hre ω k, ht.absorbing, e1, e2, e3]
  have hsome : ∃ s, Recurs s (t · ω) := by
    by_contra hno
    push Not at hno
    have : ∀ s, ∃ n, ∀ k, n ≤ k → (t k ω).state ≠ s := fun s => by
      have := hno s
      simpa [Recurs] using this
    choose N hN using this
    exact hN _ (∑ s, N s) (Finset.single_le_sum (f := N) (fun _ _ => Nat.zero_le _) (Finset.mem_univ _)) rfl
  obtain ⟨s, hs⟩ := hsome
  have hL : L s := by
    obtain ⟨k, -, hk⟩ := hs 0
    rw [← hk]
    exact ht.live k ω
  have hall : ∀ s', L s' → Recurs s' (t · ω) := fun s' hs' => by
    have := hcom s s' hL hs'
    clear hs'
    induction this with
    | refl => exact hs
    | tail _ hl ih => exact hstep _ _ ih hl
  exact ⟨hall, fun s' hs' a => h1 s' (hall s' hs') a⟩

/-- C151. Q-learning with `EpsGreedy` and two decaying parameters, one for each state in the policy with an exponent in (0, 1], one for each pair as learning rate with an
exponent in (1/2, 1], in any finite problem in which every live state can be reached from every other one: with probability one the table converges to the optimal action
values, and the probability that the policy takes an action that is not optimal vanishes in every live state. Nothing is assumed about what the agent explores. -/
theorem C151_q_learning (m : RandomMDP S A) (hm : m.Proper) (L : S → Prop) (hcl : m.Closed L) (s0 : S) (hcom : m.Communicating L s0) (γ : ℝ) (hγ0 : 0 ≤ γ)
    (hγ1 : γ < 1) (Qs : Table S A) (hQs : m.OptimalOn L γ Qs) (t : ℕ → Ω → Trans S A) (ht : Experience μ ℱ m L t) (hre : ∀ ω, Restarts s0 (t · ω))
    (key : S → Policy.Index) (hkey : ∀ s s', key s = key s' → s = s') (v p : ℝ) (hv0 : 0 < v) (hv1 : v ≤ 1) (hp0 : 0 < p) (hp1 : p ≤ 1)
    (key2 : S → A → Policy.Index) (hkey2 : ∀ s a s' a', key2 s a = key2 s' a' → s = s' ∧ a = a') (w r : ℝ) (hw0 : 0 < w) (hw1 : w ≤ 1) (hr0 : 1 / 2 < r) (hr1 : r ≤ 1)
    (Q0 : Table S A) (Q : ℕ → Ω → Table S A)
    (hQ : ∀ n ω, Q n ω = tables (fun k Q => qLearning γ (rateAt (Policy.decayParam w r none none false) key2 (t · ω) k) Q (t k ω)) Q0 n)
    (hd : ActionDraws μ ℱ 𝒢 (fun n ω s => epsGreedy (epsAt (Policy.decayParam v p none none false) key (t · ω) n s) (Q n ω s)) t) :
    ∀ᵐ ω ∂μ, ∀ s, L s → (∀ a, Tendsto (fun n => Q n ω s a) atTop (𝓝 (Qs s a))) ∧
      ∀ a, ¬ Maximises (Qs s) a →
        Tendsto (fun n => epsGreedy (epsAt (Policy.decayParam v p none none false) key (t · ω) n s) (Q n ω s) a) atTop (𝓝 0) := by
  have hexp := C151_explores_all m L s0 hcom t ht hre key hkey v p hv0 hv1 hp0.le hp1 Q hd
  have hα := C145_decay_rates (ℱ := ℱ) (μ := μ) L t ht.past key2 hkey2 w r hw0 hw1 hr0 hr1 (hexp.mono fun ω h => h.2)
  filter_upwards [hexp, C145_q_learning m hm L hcl γ hγ0 hγ1 Qs hQs t ht _ hα Q0, C145_greedy m hm L hcl γ hγ0 hγ1 Qs hQs t ht _ hα Q0] with ω h1 h2 h3 s hs
  refine ⟨fun a => by simp only [hQ]; exact h2 s hs a, fun a ha => ?_⟩
  have hz := C151_eps_vanishes (v := v) hkey hp0 (h1.1 s hs)
  refine squeeze_zero' (Eventually.of_forall fun n => (epsGreedy_prob (epsAt_range hkey hv0 hv1 hp0.le _ _ _).1 (epsAt_range hkey hv0 hv1 hp0.le _ _ _).2 _).1 a) ?_ hz
  filter_upwards [h3] with n hn
  have hnot : a ∉ best (Q n ω s) := fun h => ha (hn s hs a (by rw [← hQ]; exact mem_best.1 h))
  have h4 := (epsGreedy_rest (epsAt_range hkey hv0 hv1 hp0.le (t · ω) n s).1 (Q n ω s)).2
  exact (Finset.single_le_sum (fun a _ => (epsGreedy_prob (epsAt_range hkey hv0 hv1 hp0.le _ _ _).1 (epsAt_range hkey hv0 hv1 hp0.le _ _ _).2 _).1 a)
    (Finset.mem_compl.2 hnot)).trans h4

end

end Verif.TD
