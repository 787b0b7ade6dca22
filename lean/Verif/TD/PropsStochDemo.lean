/-
Property C145, continued: experience made with independent random draws, and a random problem that meets the hypotheses.
-/
import Verif.TD.PropsStochRun
import Mathlib.Probability.ConditionalExpectation
import Mathlib.Probability.Independence.InfinitePi

namespace Verif.TD

open Filter Topology MeasureTheory ProbabilityTheory

noncomputable section

variable {S A : Type} [DecidableEq S] [DecidableEq A] [Fintype S] [Fintype A] [Nonempty A]
variable {Ω : Type} [mΩ : MeasurableSpace Ω] {μ : Measure Ω} [IsProbabilityMeasure μ] {ℱ : Filtration ℕ mΩ}

/-- C145. Where the experience of the other theorems comes from: if every next state is chosen by a random number that is independent of
the past, and the number chooses each next state with its probability, then the next states have the probabilities of the
problem given the past. (`choose` is what `np.random.choice` does with the number `U n` and a row of the table `p`.) -/
theorem C145_draws {Y : Type} [mY : MeasurableSpace Y] (m : RandomMDP S A) (L : S → Prop) (choose : S → A → Y → S)
    (hmeas : ∀ s a s', MeasurableSet {y | choose s a y = s'}) (U : ℕ → Ω → Y) (hU : ∀ n, Measurable[ℱ (n + 1)] (U n))
    (hind : ∀ n, Indep (MeasurableSpace.comap (U n) mY) (ℱ n) μ)
    (hprob : ∀ n s a s', μ.real {ω | choose s a (U n ω) = s'} = m.prob s a s') (t : ℕ → Ω → Trans S A)
    (hlive : ∀ n ω, L (t n ω).state)
    (hpast : ∀ n s a, MeasurableSet[ℱ n] {ω | (t n ω).state = s ∧ (t n ω).action = a})
    (hnext : ∀ n ω, (t n ω).next = choose (t n ω).state (t n ω).action (U n ω))
    (hrew : ∀ n ω, (t n ω).reward = m.reward (t n ω).state (t n ω).action (t n ω).next)
    (habs : ∀ n ω, (t n ω).absorbing = m.absorbing (t n ω).state (t n ω).action (t n ω).next) : Experience μ ℱ m L t := by
  have hset : ∀ n s', {ω | (t n ω).next = s'} =
      ⋃ j : S × A, ({ω | (t n ω).state = j.1 ∧ (t n ω).action = j.2} ∩ {ω | choose j.1 j.2 (U n ω) = s'}) := by
    intro n s'
    ext ω
    simp only [Set.mem_setOf_eq, Set.mem_iUnion, Set.mem_inter_iff]
    constructor
    · intro h; exact ⟨((t n ω).state, (t n ω).action), ⟨rfl, rfl⟩, by rw [← hnext]; exact h⟩
    · rintro ⟨j, ⟨h1, h2⟩, h3⟩; rw [hnext, h1, h2]; exact h3
  have hUm : ∀ n s a s', MeasurableSet[MeasurableSpace.comap (U n) mY] {ω | choose s a (U n ω) = s'} := fun n s a s' =>
    ⟨{y | choose s a y = s'}, hmeas s a s', rfl⟩
  have hUl : ∀ n, MeasurableSpace.comap (U n) mY ≤ ℱ (n + 1) := fun n => (hU n).comap_le
  refine ⟨hlive, hpast, fun n s' => ?_, fun n s' => ?_, hrew, habs⟩
  · rw [hset]
    exact MeasurableSet.iUnion (fun j => ((ℱ.mono (Nat.le_succ n)) _ (hpast n j.1 j.2)).inter (hUl n _ (hUm n _ _ _)))
  · -- the indicator, pair by pair
    have e : Set.indicator {ω | (t n ω).next = s'} (fun _ => (1 : ℝ)) =
        ∑ j : S × A, (Set.indicator {ω | (t n ω).state = j.1 ∧ (t n ω).action = j.2} (fun _ => (1 : ℝ))) *
          Set.indicator {ω | choose j.1 j.2 (U n ω) = s'} (fun _ => (1 : ℝ)) := by
      funext ω
      rw [Finset.sum_apply, Finset.sum_eq_single ((t n ω).state, (t n ω).action)]
      · simp [Set.indicator, hnext]
      · intro j _ hj
        have : ω ∉ {ω | (t n ω).state = j.1 ∧ (t n ω).action = j.2} := fun h => hj (Prod.ext h.1.symm h.2.symm)
        rw [Pi.mul_apply, Set.indicator_of_notMem this, zero_mul]
      · simp
    have hm1 : ∀ j : S × A, StronglyMeasurable[ℱ n] (Set.indicator {ω | (t n ω).state = j.1 ∧ (t n ω).action = j.2} (fun _ => (1 : ℝ))) :=
      fun j => stronglyMeasurable_const.indicator (hpast n j.1 j.2)
    have hm2 : ∀ j : S × A, StronglyMeasurable[MeasurableSpace.comap (U n) mY]
        (Set.indicator {ω | choose j.1 j.2 (U n ω) = s'} (fun _ => (1 : ℝ))) :=
      fun j => stronglyMeasurable_const.indicator (hUm n j.1 j.2 s')
    have hle : MeasurableSpace.comap (U n) mY ≤ mΩ := (hUl n).trans (ℱ.le _)
    have hi2 : ∀ j : S × A, Integrable (Set.indicator {ω | choose j.1 j.2 (U n ω) = s'} (fun _ => (1 : ℝ))) μ := fun j =>
      (integrable_const _).indicator (hle _ (hUm n _ _ _))
    have hi : ∀ j : S × A, Integrable (Set.indicator {ω | (t n ω).state = j.1 ∧ (t n ω).action = j.2} (fun _ => (1 : ℝ)) *
        Set.indicator {ω | choose j.1 j.2 (U n ω) = s'} (fun _ => (1 : ℝ))) μ := fun j =>
      (hi2 j).bdd_mul (c := 1) ((hm1 j).mono (ℱ.le n)).aestronglyMeasurable (Eventually.of_forall (fun ω => by
        simp only [Set.indicator]; split <;> simp))
    rw [e]
    have hone : ∀ j : S × A, μ[Set.indicator {ω | (t n ω).state = j.1 ∧ (t n ω).action = j.2} (fun _ => (1 : ℝ)) *
        Set.indicator {ω | choose j.1 j.2 (U n ω) = s'} (fun _ => (1 : ℝ)) | ℱ n] =ᵐ[μ]
        fun ω => Set.indicator {ω | (t n ω).state = j.1 ∧ (t n ω).action = j.2} (fun _ => (1 : ℝ)) ω * m.prob j.1 j.2 s' := by
      intro j
      have g1 := condExp_mul_of_stronglyMeasurable_left (hm1 j) (hi j) (hi2 j)
      have g2 := condExp_indep_eq hle (ℱ.le n) (hm2 j) (hind n)
      have g3 : μ[Set.indicator {ω | choose j.1 j.2 (U n ω) = s'} (fun _ => (1 : ℝ))] = m.prob j.1 j.2 s' := by
        rw [integral_indicator (hle _ (hUm n _ _ _)), ← hprob n]
        simp
      filter_upwards [g1, g2] with ω k1 k2
      rw [k1, Pi.mul_apply, k2, g3]
    filter_upwards [condExp_finsetSum (s := Finset.univ) (fun j _ => hi j) (ℱ n), ae_all_iff.2 hone] with ω k1 k2
    rw [k1, Finset.sum_apply, Finset.sum_congr rfl (fun j _ => k2 j), Finset.sum_eq_single ((t n ω).state, (t n ω).action)]
    · simp [Set.indicator]
    · intro j _ hj
      have : ω ∉ {ω | (t n ω).state = j.1 ∧ (t n ω).action = j.2} := fun h => hj (Prod.ext h.1.symm h.2.symm)
      rw [Set.indicator_of_notMem this, zero_mul]
    · simp

/-! ### An example: a coin decides whether an episode goes on -/

/-- Fair coin tosses. -/
def coin : Measure Bool := (2⁻¹ : ENNReal) • Measure.dirac true + (2⁻¹ : ENNReal) • Measure.dirac false

instance : IsProbabilityMeasure coin := ⟨by simp [coin, ENNReal.inv_two_add_inv_two]⟩

def coins : Measure (ℕ → Bool) := Measure.infinitePi (fun _ => coin)

instance : IsProbabilityMeasure coins := by unfold coins; infer_instance

/-- What the first `n` tosses tell. -/
def tossed : Filtration ℕ (inferInstance : MeasurableSpace (ℕ → Bool)) :=
  { seq := fun n => ⨆ k ∈ Set.Iio n, MeasurableSpace.comap (fun ω : ℕ → Bool => ω k) inferInstance
    mono' := fun _ _ h => biSup_mono (fun _ hk => lt_of_lt_of_le hk h)
    le' := fun _ => iSup₂_le (fun k _ => (measurable_pi_apply k).comap_le) }

theorem coins_indep (n : ℕ) : Indep (MeasurableSpace.comap (fun ω : ℕ → Bool => ω n) inferInstance) (tossed n) coins := by
  have h1 : iIndepFun (fun (i : ℕ) (ω : ℕ → Bool) => ω i) coins := iIndepFun_infinitePi (X := fun _ x => x) (fun _ => measurable_id)
  have h2 := indep_iSup_of_disjoint (S := {n}) (T := Set.Iio n)
    (fun i => (measurable_pi_apply i).comap_le) ((iIndepFun_iff_iIndep _ _ _).1 h1) (by simp)
  rw [iSup_singleton] at h2
  exact h2

theorem coins_half (n : ℕ) (b : Bool) : coins.real {ω | ω n = b} = 1 / 2 := by
  have h1 : coins {ω | ω n = b} = coin {b} := by
    have := congrArg (fun ν => ν {b}) (Measure.infinitePi_map_eval (fun _ : ℕ => coin) n)
    rw [Measure.map_apply (measurable_pi_apply n) (measurableSet_singleton b)] at this
    exact this
  rw [Measure.real, h1]
  cases b <;> simp [coin]

/-- One live state (`false`); a coin decides whether the episode ends (`true`); the second action is rewarded at the end. -/
def coinMDP : RandomMDP Bool Bool :=
  { prob := fun _ _ _ => 1 / 2, reward := fun _ a s' => if a && s' then 1 else 0, absorbing := fun _ _ s' => s' }

theorem coinMDP_proper : coinMDP.Proper := ⟨fun _ _ _ => by norm_num [coinMDP], fun _ _ => by simp [coinMDP]⟩

theorem coinMDP_closed : coinMDP.Closed (fun s => s = false) := fun _ _ _ _ _ h => h

/-- The two actions are tried in turn. -/
def coinTrans (n : ℕ) (ω : ℕ → Bool) : Trans Bool Bool :=
  { state := false, action := n % 2 = 1, reward := if decide (n % 2 = 1) && ω n then 1 else 0, next := ω n, absorbing := ω n }

theorem coin_experience : Experience coins tossed coinMDP (fun s => s = false) coinTrans := by
  refine C145_draws coinMDP _ (fun _ _ y => y) (fun _ _ s' => measurableSet_singleton s') (fun n ω => ω n) (fun n => ?_) coins_indep
    (fun n _ _ s' => coins_half n s') coinTrans (fun _ _ => rfl) (fun n s a => ?_) (fun _ _ => rfl) (fun _ _ => rfl) (fun _ _ => rfl)
  · refine Measurable.mono (comap_measurable _) ?_ le_rfl
    exact le_biSup (fun k => MeasurableSpace.comap (fun ω : ℕ → Bool => ω k) inferInstance) (show n ∈ Set.Iio (n + 1) by simp)
  · simp only [coinTrans]
    exact MeasurableSet.const _

theorem coin_explores (ω : ℕ → Bool) : ExploresForever (fun s => s = false) (coinTrans · ω) := by
  intro s hs a n
  subst hs
  cases a
  · exact ⟨2 * n, by omega, rfl, by simp [coinTrans]⟩
  · exact ⟨2 * n + 1, by omega, rfl, by simp [coinTrans]⟩

def coinKey (s a : Bool) : Policy.Index := [s.toNat, a.toNat]

theorem coinKey_inj (s a s' a' : Bool) (h : coinKey s a = coinKey s' a') : s = s' ∧ a = a' := by
  revert s a s' a'; decide

example : ∃ Qs, coinMDP.OptimalOn (fun s => s = false) (1 / 2) Qs ∧ ∀ᵐ ω ∂coins, ∀ s, s = false → ∀ a,
    Tendsto (fun n => tables (fun k Q => qLearning (1 / 2)
      (rateAt (Policy.decayParam 1 1 none none false) coinKey (coinTrans · ω) k) Q (coinTrans k ω)) (fun _ _ => 0) n s a)
      atTop (𝓝 (Qs s a)) := by
  obtain ⟨Qs, hQs⟩ := C145_optimal_exists coinMDP coinMDP_proper (fun s => s = false) (1 / 2) (by norm_num) (by norm_num)
  refine ⟨Qs, hQs, ?_⟩
  exact C145_q_learning coinMDP coinMDP_proper _ coinMDP_closed (1 / 2) (by norm_num) (by norm_num) Qs hQs coinTrans coin_experience _
    (C145_decay_rates _ coinTrans coin_experience.past coinKey coinKey_inj 1 1 (by norm_num) (by norm_num) (by norm_num) (by norm_num)
      (Eventually.of_forall coin_explores)) _

/-! ### The same problem in a run of `learn` -/

/-- The world: the tosses, how many have been used, and the learning rate parameter. -/
structure CoinWorld where
  tosses : ℕ → Bool
  used : ℕ
  rate : Policy.Param

def coinUser : User CoinWorld Bool Bool (Table Bool Bool) :=
  { horizon := none
    envReset := fun e _ => (e, false)
    envStep := fun e a => ({ e with used := e.used + 1 }, (e.tosses e.used, if a && e.tosses e.used then 1 else 0, e.tosses e.used))
    draw := fun e _ _ => (e, e.used % 2 = 1)
    corePre := [], agentPre := [], callbackStep := fun e _ _ => e, callbacksFit := [] }

def coinWrite (e : CoinWorld) (p : Policy.Param) : CoinWorld := { e with rate := p }

theorem coin_owns : OwnsRate coinUser CoinWorld.rate :=
  ⟨by simp [coinUser], fun _ _ => rfl, fun _ _ => rfl, fun _ _ _ => rfl, fun _ _ _ => rfl, by simp [coinUser]⟩

def coinPrev (ω : ℕ → Bool) : Core.St (CoinWorld × Table Bool Bool) Bool Bool ℝ Unit Unit :=
  { world := (⟨ω, 0, Policy.decayParam 1 1 none none false⟩, fun _ _ => 0), state := none, policyState := none, theta := none,
    episodeSteps := 0, nextAction := none, totalEpisodes := 0, totalSteps := 0, currentEpisodes := 0, currentSteps := 0, last := true,
    rows := [], thetas := [], trace := [] }

def coinSys : Core.Sys (CoinWorld × Table Bool Bool) Bool Bool ℝ Unit Unit :=
  tdSys coinUser (qLearningRule (1 / 2) (rateOf CoinWorld.rate coinWrite coinKey))

theorem coin_iter {c : Core.Cfg Bool} (hf : c.fitMode = .steps 1) (hc : c.capacity = some 1) (hini : c.initialStates = none) {ω : ℕ → Bool}
    {s s' : Core.St (CoinWorld × Table Bool Bool) Bool Bool ℝ Unit Unit} (hrows : s.rows = []) (hna : s.nextAction = none)
    (hst : s.last = false → s.state = some false) (hw : s.world.1.tosses = ω) (h : Core.iter coinSys c s = .ok s') :
    s'.nextAction = none ∧ (s'.last = false → s'.state = some false) ∧ s'.world.1.tosses = ω ∧ s'.world.1.used = s.world.1.used + 1 ∧
      (Core.steps s'.trace).map toTrans = (Core.steps s.trace).map toTrans ++ [coinTrans s.world.1.used ω] := by
  subst hw
  unfold Core.iter at h
  rcases Bool.eq_false_or_eq_true s.last with hl | hl
  · simp [hl, Core.reset, Core.getInitialState, hini, coinSys, tdSys, coinUser, Core.preprocess, Core.step, Core.drawAction, hrows,
      Core.isFull, hc, Core.agentPreprocess, Core.isLast] at h
    subst h
    simp [Core.fitPhase, Core.fitRequired, hf, qLearningRule, rateOf, coinWrite, Core.steps_append, Core.steps, toTrans, coinTrans]
  · simp [hl, hst hl, coinSys, tdSys, coinUser, Core.preprocess, Core.step, Core.drawAction, hrows, hna,
      Core.isFull, hc, Core.agentPreprocess, Core.isLast] at h
    subst h
    simp [Core.fitPhase, Core.fitRequired, hf, qLearningRule, rateOf, coinWrite, Core.steps_append, Core.steps, toTrans, coinTrans]

theorem coin_reach {n : ℕ} {ω : ℕ → Bool} {s : Core.St (CoinWorld × Table Bool Bool) Bool Bool ℝ Unit Unit}
    (h : Core.Reach coinSys (stepsCfg n) (coinPrev ω) s) :
    s.nextAction = none ∧ (s.last = false → s.state = some false) ∧ s.world.1.tosses = ω ∧ s.world.1.used = s.totalSteps ∧
      (Core.steps s.trace).map toTrans = (List.range s.totalSteps).map (coinTrans · ω) := by
  induction h with
  | start => exact ⟨rfl, by simp [Core.start], rfl, rfl, by simp [Core.start, Core.steps]⟩
  | @iter s s' hr hm hi ih =>
    obtain ⟨h1, h2, h3, h4, h5⟩ := ih
    obtain ⟨g1, g2, g3, g4, g5⟩ := coin_iter rfl rfl rfl (rows_empty rfl hr) h1 h2 h3 hi
    refine ⟨g1, g2, g3, by rw [g4, h4, iter_totalSteps hi], ?_⟩
    rw [g5, h5, iter_totalSteps hi, List.range_succ, List.map_append, h4]
    rfl

/-- All the hypotheses of `C145_learn` are met by the runs of this agent. -/
example : ∃ Qs : Table Bool Bool, coinMDP.OptimalOn (fun s => s = false) (1 / 2) Qs ∧
    ∃ s : ℕ → (ℕ → Bool) → Core.St (CoinWorld × Table Bool Bool) Bool Bool ℝ Unit Unit,
      (∀ n ω, Core.learn coinSys n (coinPrev ω) (some n) none (some 1) none = some (.ok (s n ω))) ∧
      ∀ᵐ ω ∂coins, ∀ x, x = false → ∀ a, Tendsto (fun n => (s n ω).world.2 x a) atTop (𝓝 (Qs x a)) := by
  obtain ⟨Qs, hQs⟩ := C145_optimal_exists coinMDP coinMDP_proper (fun s => s = false) (1 / 2) (by norm_num) (by norm_num)
  have hex : ∀ n ω, ∃ s, Core.learn coinSys n (coinPrev ω) (some n) none (some 1) none = some (.ok s) := fun n ω => by
    obtain ⟨s, hs⟩ := Core.C01_learn_by_steps coinSys (coinPrev ω) n 1 le_rfl
    exact ⟨s, hs.1 n le_rfl⟩
  choose s hs using hex
  refine ⟨Qs, hQs, s, hs, ?_⟩
  refine C145_learn coinUser CoinWorld.rate coinWrite coinKey coin_owns (fun _ _ => rfl) coinKey_inj 1 1 (by norm_num) (by norm_num)
    (by norm_num) (by norm_num) coinMDP coinMDP_proper _ coinMDP_closed (1 / 2) (by norm_num) (by norm_num) Qs hQs (fun _ _ => 0) coinPrev s
    (fun n ω => ⟨n, hs n ω⟩) (fun ω => ⟨rfl, rfl⟩) coinTrans (fun n ω => ?_) coin_experience (Eventually.of_forall coin_explores)
  obtain ⟨r, hn⟩ := learn_steps_reach (hs n ω)
  have hle := (reach_mono (Nat.le_refl n) r).2
  have := (coin_reach r).2.2.2.2
  rw [this, Nat.le_antisymm hle hn]

end

end Verif.TD
