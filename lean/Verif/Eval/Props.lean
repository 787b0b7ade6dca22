/-
Property C152: the returns of the episodes of an evaluation are independent, their mean is an unbiased and consistent estimate of the performance of the policy, and it has the
usual confidence interval.
-/
import Verif.Eval.LemmasRun
import Mathlib.Probability.StrongLaw
import Mathlib.Probability.Moments.SubGaussian
import Mathlib.Probability.Distributions.Uniform
import Mathlib.Probability.ProbabilityMassFunction.Integrals

namespace Verif.Eval

open MeasureTheory ProbabilityTheory Filter Topology
open Verif.System (WholeEpisode returnOf toRow)
open Verif.Core (Sample)

noncomputable section

variable {E S X A P T U : Type} {m : Sim S X A P T U} {γ C : ℝ} {H : ℕ} {episodic : Bool} {callback : E → Sample X A ℝ P → E}

/-- `np.mean(dataset.compute_J(gamma))`, the usual way to score an evaluation: dataset.py L453-479. -/
def meanJ (γ : ℝ) (rows : List (Sample X A ℝ P)) : ℝ := (Dataset.computeJ γ (rows.map toRow)).sum / (Dataset.computeJ γ (rows.map toRow)).length

theorem computeJ_run {c : Core.Cfg X} {prev s : Core.St (E × S × (ℕ → U)) X A ℝ P T} {st : ℕ → U → S} {N : ℕ} (hN : 1 ≤ N) (hH : 1 ≤ H) (hb : c.budget = .episodes N)
    (hf : c.fitMode = .never)
    (hget : ∀ s : Core.St (E × S × (ℕ → U)) X A ℝ P T, s.totalEpisodes < N → ∀ req, Core.getInitialState c s = .ok req → ∀ u, m.startOf req u = st s.totalEpisodes u)
    (h : Core.Reach (simSys m H episodic callback) c prev s) (hm : Core.moveRequired c.budget s = false) :
    Dataset.computeJ γ (s.rows.map toRow) = (List.range N).map fun k => returns m γ H st k prev.world.2.2 := by
  obtain ⟨eps, cur, hI⟩ := run_inv (γ := γ) hH hb hf hget h
  have hinv := (Core.inv_reach h).budget
  rw [hb] at hinv hm
  have htot : s.totalEpisodes = N := Nat.le_antisymm hinv.1 (by simpa [Core.moveRequired] using hm)
  obtain ⟨h1, -⟩ := hI.over (hinv.2 htot)
  have hrows : s.rows = eps.flatten := by rw [hI.rows, h1, List.append_nil]
  have hne : eps ≠ [] := by
    intro h0
    have := congrArg List.length hI.returns
    rw [h0, htot] at this
    simp at this
    omega
  have hl : (eps.flatten.map toRow : List (Dataset.Row X A ℝ (Option P))) ≠ [] := by
    intro h0
    obtain ⟨e, he⟩ := List.exists_mem_of_ne_nil _ hne
    obtain ⟨i, a, q1, -⟩ := hI.whole e he
    have : a ∈ eps.flatten := List.mem_flatten.2 ⟨e, he, by simp [q1]⟩
    rw [List.map_eq_nil_iff] at h0
    rw [h0] at this
    cases this
  rw [hrows, Dataset.C08_compute_J γ _ _ (System.isEpisodes_of hI.whole) hl, List.map_map, ← htot, ← hI.returns]
  refine List.map_congr_left fun e _ => ?_
  exact System.returnOf_eq γ e

/-- C152, the dataset. `compute_J` of the dataset that `evaluate(n_episodes=N)` returns is the list of the returns of `N` episodes, each played from the random numbers that the
one before has left. -/
theorem C152_returns (prev s : Core.St (E × S × (ℕ → U)) X A ℝ P T) (fuel N : ℕ) (hN : 1 ≤ N) (hH : 1 ≤ H)
    (h : Core.evaluate (simSys m H episodic callback) fuel prev none none (some N) = some (.ok s)) :
    Dataset.computeJ γ (s.rows.map toRow) = (List.range N).map fun k => returns m γ H (fun _ => m.start) k prev.world.2.2 := by
  unfold Core.evaluate at h
  have hcfg : Core.evaluateCfg (simSys m H episodic callback) none none (some N) =
      .ok { budget := .episodes N, fitMode := .never, initialStates := none, capacity := some (H * N) } := by
    simp [Core.evaluateCfg, Core.datasetCapacity, Core.initializeRun, simSys]
  rw [hcfg] at h
  obtain ⟨hre, hmv⟩ := Core.loop_reach Core.Reach.start h
  refine computeJ_run hN hH rfl rfl ?_ hre hmv
  intro s _ req hreq u
  simp [Core.getInitialState] at hreq
  rw [← hreq]
  rfl

/-- C152, the dataset, with the argument `initial_states`. -/
theorem C152_returns_from (prev s : Core.St (E × S × (ℕ → U)) X A ℝ P T) (fuel : ℕ) (xs : List X) (hN : xs ≠ []) (hH : 1 ≤ H)
    (h : Core.evaluate (simSys m H episodic callback) fuel prev (some xs) none none = some (.ok s)) :
    Dataset.computeJ γ (s.rows.map toRow) = (List.range xs.length).map fun k => returns m γ H (fun k => m.startOf xs[k]?) k prev.world.2.2 := by
  unfold Core.evaluate at h
  have hcfg : Core.evaluateCfg (simSys m H episodic callback) (some xs) none none =
      .ok { budget := .episodes xs.length, fitMode := .never, initialStates := some xs, capacity := some (H * xs.length) } := by
    simp [Core.evaluateCfg, Core.datasetCapacity, Core.initializeRun, simSys]
  rw [hcfg] at h
  obtain ⟨hre, hmv⟩ := Core.loop_reach Core.Reach.start h
  refine computeJ_run (List.length_pos_of_ne_nil hN) hH rfl rfl ?_ hre hmv
  intro s hs req hreq u
  have hne : ¬ xs.length = s.totalEpisodes := by omega
  simp only [Core.getInitialState, Core.Budget.episodes.injEq, hne, if_false, List.getElem?_eq_getElem hs, Except.ok.injEq] at hreq
  rw [← hreq, List.getElem?_eq_getElem hs]

variable [MeasurableSpace S] [MeasurableSpace X] [MeasurableSpace A] [MeasurableSpace P] [MeasurableSpace U] {ν : Measure U} [IsProbabilityMeasure ν]

/-- C152. With the argument `initial_states` the returns of the episodes are independent, and the expected return of each one is the value of the policy from its initial state. -/
theorem C152_initial_states (hm : m.Regular C) (hC : 0 ≤ C) (hH : 1 ≤ H) (xs : List X) (hN : xs ≠ []) (prev s : (ℕ → U) → Core.St (E × S × (ℕ → U)) X A ℝ P T)
    (hprev : ∀ ω, (prev ω).world.2.2 = ω) (fuel : (ℕ → U) → ℕ)
    (h : ∀ ω, Core.evaluate (simSys m H episodic callback) (fuel ω) (prev ω) (some xs) none none = some (.ok (s ω))) :
    (∀ ω, (Dataset.computeJ γ ((s ω).rows.map toRow)).length = xs.length) ∧
    iIndepFun (fun (k : Fin xs.length) ω => (Dataset.computeJ γ ((s ω).rows.map toRow)).getD k 0) (draws ν) ∧
    ∀ k : Fin xs.length, ∫ ω, (Dataset.computeJ γ ((s ω).rows.map toRow)).getD k 0 ∂draws ν = m.performance ν γ H (m.place xs[k]) := by
  have hst : ∀ k : ℕ, Measurable (m.startOf xs[k]?) := fun k => by
    cases xs[k]? with
    | none => exact hm.start
    | some x => exact hm.place x
  have hJ := fun ω => C152_returns_from (γ := γ) (prev ω) (s ω) (fuel ω) xs hN hH (h ω)
  simp only [hprev] at hJ
  have hk : ∀ (k : Fin xs.length) ω, (Dataset.computeJ γ ((s ω).rows.map toRow)).getD k 0 = returns m γ H (fun k => m.startOf xs[k]?) k ω := fun k ω => by
    rw [hJ]; simp
  refine ⟨fun ω => by rw [hJ]; simp, ?_, fun k => ?_⟩
  · simp only [hk]
    exact (returns_independent hm H hst).precomp Fin.val_injective
  · simp only [hk]
    rw [returns_mean hm hC H hst]
    simp only [List.getElem?_eq_getElem k.isLt]
    rfl

/-- C152. With the argument `n_episodes` the returns of the episodes are independent and identically distributed, and their expectation is the performance of the policy. -/
theorem C152_independent (hm : m.Regular C) (hC : 0 ≤ C) (hH : 1 ≤ H) (N : ℕ) (hN : 1 ≤ N) (prev s : (ℕ → U) → Core.St (E × S × (ℕ → U)) X A ℝ P T)
    (hprev : ∀ ω, (prev ω).world.2.2 = ω) (fuel : (ℕ → U) → ℕ)
    (h : ∀ ω, Core.evaluate (simSys m H episodic callback) (fuel ω) (prev ω) none none (some N) = some (.ok (s ω))) :
    (∀ ω, (Dataset.computeJ γ ((s ω).rows.map toRow)).length = N) ∧
    iIndepFun (fun (k : Fin N) ω => (Dataset.computeJ γ ((s ω).rows.map toRow)).getD k 0) (draws ν) ∧
    (∀ k k' : Fin N, IdentDistrib (fun ω => (Dataset.computeJ γ ((s ω).rows.map toRow)).getD k 0) (fun ω => (Dataset.computeJ γ ((s ω).rows.map toRow)).getD k' 0)
      (draws ν) (draws ν)) ∧
    ∀ k : Fin N, ∫ ω, (Dataset.computeJ γ ((s ω).rows.map toRow)).getD k 0 ∂draws ν = m.performance ν γ H m.start := by
  have hst : ∀ _ : ℕ, Measurable m.start := fun _ => hm.start
  have hJ := fun ω => C152_returns (γ := γ) (prev ω) (s ω) (fuel ω) N hN hH (h ω)
  simp only [hprev] at hJ
  have hk : ∀ (k : Fin N) ω, (Dataset.computeJ γ ((s ω).rows.map toRow)).getD k 0 = returns m γ H (fun _ => m.start) k ω := fun k ω => by
    rw [hJ]; simp
  refine ⟨fun ω => by rw [hJ]; simp, ?_, fun k k' => ?_, fun k => ?_⟩
  · simp only [hk]
    exact (returns_independent hm H hst).precomp Fin.val_injective
  · simp only [hk]
    exact ⟨(measurable_returns hm H hst k).aemeasurable, (measurable_returns hm H hst k').aemeasurable, by rw [returns_one hm H hst, returns_one hm H hst]⟩
  · simp only [hk]
    exact returns_mean hm hC H hst k

omit [MeasurableSpace S] [MeasurableSpace X] [MeasurableSpace A] [MeasurableSpace P] [MeasurableSpace U] in
theorem meanJ_run (N : ℕ) (hN : 1 ≤ N) (hH : 1 ≤ H) (prev s : Core.St (E × S × (ℕ → U)) X A ℝ P T) (fuel : ℕ)
    (h : Core.evaluate (simSys m H episodic callback) fuel prev none none (some N) = some (.ok s)) :
    meanJ γ s.rows = (∑ k ∈ Finset.range N, returns m γ H (fun _ => m.start) k prev.world.2.2) / N := by
  unfold meanJ
  rw [C152_returns prev s fuel N hN hH h, List.length_map, List.length_range, Finset.sum_eq_multiset_sum]
  rfl

/-- C152. The mean of the returns is an unbiased estimate of the performance of the policy. -/
theorem C152_unbiased (hm : m.Regular C) (hC : 0 ≤ C) (hH : 1 ≤ H) (N : ℕ) (hN : 1 ≤ N) (prev s : (ℕ → U) → Core.St (E × S × (ℕ → U)) X A ℝ P T)
    (hprev : ∀ ω, (prev ω).world.2.2 = ω) (fuel : (ℕ → U) → ℕ)
    (h : ∀ ω, Core.evaluate (simSys m H episodic callback) (fuel ω) (prev ω) none none (some N) = some (.ok (s ω))) :
    ∫ ω, meanJ γ (s ω).rows ∂draws ν = m.performance ν γ H m.start := by
  have hst : ∀ _ : ℕ, Measurable m.start := fun _ => hm.start
  have hN0 : (N : ℝ) ≠ 0 := by positivity
  simp only [fun ω => meanJ_run (γ := γ) N hN hH (prev ω) (s ω) (fuel ω) (h ω), hprev]
  rw [integral_div, integral_finsetSum]
  · simp only [returns_mean hm hC H hst]
    simp [hN0]
  · exact fun k _ => Integrable.of_bound (measurable_returns hm H hst k).aestronglyMeasurable (bound C γ H) (Eventually.of_forall fun ω => returns_bound hm hC H _ k ω)

/-- C152. With more and more episodes the mean of the returns converges, with probability one, to the performance of the policy. -/
theorem C152_consistent (hm : m.Regular C) (hC : 0 ≤ C) (hH : 1 ≤ H) (prev : (ℕ → U) → Core.St (E × S × (ℕ → U)) X A ℝ P T)
    (s : ℕ → (ℕ → U) → Core.St (E × S × (ℕ → U)) X A ℝ P T) (hprev : ∀ ω, (prev ω).world.2.2 = ω) (fuel : ℕ → (ℕ → U) → ℕ)
    (h : ∀ N ω, 1 ≤ N → Core.evaluate (simSys m H episodic callback) (fuel N ω) (prev ω) none none (some N) = some (.ok (s N ω))) :
    ∀ᵐ ω ∂draws ν, Tendsto (fun N => meanJ γ (s N ω).rows) atTop (𝓝 (m.performance ν γ H m.start)) := by
  have hst : ∀ _ : ℕ, Measurable m.start := fun _ => hm.start
  have hint : Integrable (returns m γ H (fun _ => m.start) 0) (draws ν) :=
    Integrable.of_bound (measurable_returns hm H hst 0).aestronglyMeasurable (bound C γ H) (Eventually.of_forall fun ω => returns_bound hm hC H _ 0 ω)
  have hlaw := strong_law_ae_real (μ := draws ν) (returns m γ H fun _ => m.start) hint (fun i j hij => (returns_independent hm H hst).indepFun hij)
    (fun i => ⟨(measurable_returns hm H hst i).aemeasurable, (measurable_returns hm H hst 0).aemeasurable, by rw [returns_one hm H hst, returns_one hm H hst]⟩)
  filter_upwards [hlaw] with ω hω
  rw [returns_mean hm hC H hst] at hω
  refine hω.congr' ?_
  filter_upwards [eventually_ge_atTop 1] with N hN
  rw [meanJ_run N hN hH (prev ω) (s N ω) (fuel N ω) (h N ω hN), hprev]

theorem returns_confidence (hm : m.Regular C) (hC : 0 < C) (hH : 1 ≤ H) (N : ℕ) (hN : 1 ≤ N) (ε : ℝ) (hε : 0 ≤ ε) :
    (draws ν).real {ω | ε ≤ |(∑ k ∈ Finset.range N, returns m γ H (fun _ => m.start) k ω) / N - m.performance ν γ H m.start|} ≤
      2 * Real.exp (-(N * ε ^ 2) / (2 * (C * ∑ i ∈ Finset.range H, |γ| ^ i) ^ 2)) := by
  have hst : ∀ _ : ℕ, Measurable m.start := fun _ => hm.start
  have hNpos : (0 : ℝ) < N := by positivity
  set B := C * ∑ i ∈ Finset.range H, |γ| ^ i with hB
  have hB0 : 0 < B := by
    obtain ⟨l, rfl⟩ : ∃ l, H = l + 1 := ⟨H - 1, by omega⟩
    refine mul_pos hC ?_
    rw [Finset.sum_range_succ']
    have : 0 ≤ ∑ i ∈ Finset.range l, |γ| ^ (i + 1) := Finset.sum_nonneg fun _ _ => pow_nonneg (abs_nonneg _) _
    simp only [pow_zero]
    linarith
  set Y : ℕ → (ℕ → U) → ℝ := fun k ω => returns m γ H (fun _ => m.start) k ω - m.performance ν γ H m.start with hY
  have hsub : ∀ k, HasSubgaussianMGF (Y k) ((‖B - -B‖₊ / 2) ^ 2) (draws ν) := by
    intro k
    have := hasSubgaussianMGF_of_mem_Icc (μ := draws ν) (X := returns m γ H (fun _ => m.start) k) (a := -B) (b := B) (measurable_returns hm H hst k).aemeasurable
      (Eventually.of_forall fun ω => abs_le.1 (returns_bound hm hC.le H _ k ω))
    rw [returns_mean hm hC.le H hst] at this
    exact this
  have hind : iIndepFun Y (draws ν) :=
    (returns_independent hm H hst).comp (fun _ x => x - m.performance ν γ H m.start) (fun _ => measurable_id.sub_const _)
  have hc : (((‖B - -B‖₊ / 2) ^ 2 : NNReal) : ℝ) = B ^ 2 := by
    push_cast
    rw [Real.norm_eq_abs, abs_of_pos (by linarith)]
    ring
  have hup := HasSubgaussianMGF.measure_sum_range_ge_le_of_iIndepFun (n := N) hind (fun i _ => hsub i) (ε := N * ε) (by positivity)
  have hdown := HasSubgaussianMGF.measure_sum_range_ge_le_of_iIndepFun (n := N) (X := fun k => -Y k) (hind.comp (fun _ x => -x) (fun _ => measurable_neg)) (fun i _ => (hsub i).neg) (ε := N * ε)
    (by positivity)
  rw [hc] at hup hdown
  have hexp : -((N : ℝ) * ε) ^ 2 / (2 * N * B ^ 2) = -(N * ε ^ 2) / (2 * B ^ 2) := by field_simp
  rw [hexp] at hup hdown
  have hmean : ∀ ω, (∑ k ∈ Finset.range N, returns m γ H (fun _ => m.start) k ω) / N - m.performance ν γ H m.start = (∑ k ∈ Finset.range N, Y k ω) / N := by
    intro ω
    rw [hY]
    simp only [Finset.sum_sub_distrib, Finset.sum_const, Finset.card_range, nsmul_eq_mul]
    field_simp
  have hset : {ω | ε ≤ |(∑ k ∈ Finset.range N, returns m γ H (fun _ => m.start) k ω) / N - m.performance ν γ H m.start|} ⊆
      {ω | N * ε ≤ ∑ k ∈ Finset.range N, Y k ω} ∪ {ω | N * ε ≤ ∑ k ∈ Finset.range N, (-Y k) ω} := by
    intro ω hω
    simp only [Set.mem_ofPred_eq, hmean] at hω
    simp only [Set.mem_union, Set.mem_ofPred_eq, Pi.neg_apply, Finset.sum_neg_distrib]
    rcases le_abs.1 hω with hω | hω
    · left
      rw [le_div_iff₀ hNpos] at hω
      linarith
    · right
      rw [← neg_div, le_div_iff₀ hNpos] at hω
      linarith
  calc (draws ν).real {ω | ε ≤ |(∑ k ∈ Finset.range N, returns m γ H (fun _ => m.start) k ω) / N - m.performance ν γ H m.start|}
      ≤ (draws ν).real ({ω | N * ε ≤ ∑ k ∈ Finset.range N, Y k ω} ∪ {ω | N * ε ≤ ∑ k ∈ Finset.range N, (-Y k) ω}) := measureReal_mono hset
    _ ≤ _ := measureReal_union_le _ _
    _ ≤ 2 * Real.exp (-(N * ε ^ 2) / (2 * B ^ 2)) := by rw [two_mul]; exact add_le_add hup hdown

/-- C152. The mean of the returns of `N` episodes is further than `ε` from the performance of the policy with probability at most `2 exp (-N ε² / (2 B²))`, where `B` bounds
the discounted returns. -/
theorem C152_confidence (hm : m.Regular C) (hC : 0 < C) (hH : 1 ≤ H) (N : ℕ) (hN : 1 ≤ N) (prev s : (ℕ → U) → Core.St (E × S × (ℕ → U)) X A ℝ P T)
    (hprev : ∀ ω, (prev ω).world.2.2 = ω) (fuel : (ℕ → U) → ℕ)
    (h : ∀ ω, Core.evaluate (simSys m H episodic callback) (fuel ω) (prev ω) none none (some N) = some (.ok (s ω))) (ε : ℝ) (hε : 0 ≤ ε) :
    (draws ν).real {ω | ε ≤ |meanJ γ (s ω).rows - m.performance ν γ H m.start|} ≤
      2 * Real.exp (-(N * ε ^ 2) / (2 * (C * ∑ i ∈ Finset.range H, |γ| ^ i) ^ 2)) := by
  simp only [fun ω => meanJ_run (γ := γ) N hN hH (prev ω) (s ω) (fuel ω) (h ω), hprev]
  exact returns_confidence hm hC hH N hN ε hε

/-! ### A concrete case: tossing a coin at most `H` times until it shows heads, which pays one -/

/-- The coin game. -/
def coin : Sim Bool Bool Unit Unit Unit Bool :=
  { start := fun _ => false, place := fun x _ => x, see := id, next := fun _ _ u => u, reward := fun _ _ s' => if s' then 1 else 0, absorbing := fun _ _ s' => s',
    begins := fun _ _ => ((), ()), act := fun _ _ _ => ((), ()) }

/-- A fair coin. -/
def fair : Measure Bool := (PMF.uniformOfFintype Bool).toMeasure

instance : IsProbabilityMeasure fair := by unfold fair; infer_instance

theorem coin_regular : coin.Regular 1 where
  start := measurable_of_finite _
  place := fun _ => measurable_of_finite _
  see := measurable_of_finite _
  next := measurable_of_finite _
  reward := measurable_of_finite _
  absorbing := Set.Finite.measurableSet (Set.toFinite _)
  begins := measurable_of_finite _
  act := measurable_of_finite _
  bound := fun s a s' => by cases s' <;> simp [coin]

theorem integral_fair (f : Bool → ℝ) : ∫ u, f u ∂fair = (f true + f false) / 2 := by
  unfold fair
  rw [PMF.integral_eq_sum]
  simp
  ring

/-- With two tosses the coin game pays 3/4 on average. -/
theorem coin_performance : coin.performance fair 1 2 coin.start = 3 / 4 := by
  simp only [Sim.performance, Sim.value, integral_fair, coin]
  norm_num

/-- The state before the evaluation. -/
def coinPrev (ω : ℕ → Bool) : Core.St (Unit × Bool × (ℕ → Bool)) Bool Unit ℝ Unit Unit :=
  { world := ((), false, ω), state := none, policyState := none, theta := none, episodeSteps := 0, nextAction := none, totalEpisodes := 0, totalSteps := 0,
    currentEpisodes := 0, currentSteps := 0, last := true, rows := [], thetas := [], trace := [] }

/-- The evaluation of the coin game over `N` episodes. -/
theorem coin_runs (N : ℕ) : ∃ s : (ℕ → Bool) → Core.St (Unit × Bool × (ℕ → Bool)) Bool Unit ℝ Unit Unit, ∀ ω,
    Core.evaluate (simSys coin 2 true fun e _ => e) (N * 2) (coinPrev ω) none none (some N) = some (.ok (s ω)) := by
  have := fun ω => Core.C04_evaluate_episodes (simSys coin 2 true fun e _ => e) (coinPrev ω) N 2 rfl (by norm_num)
  choose s hs using this
  exact ⟨s, fun ω => (hs ω).1 _ le_rfl⟩

/-- C152, not vacuous: the mean return of `N` games is 3/4 on average, and converges to 3/4. -/
example (N : ℕ) (hN : 1 ≤ N) : ∃ s : (ℕ → Bool) → Core.St (Unit × Bool × (ℕ → Bool)) Bool Unit ℝ Unit Unit,
    (∀ ω, Core.evaluate (simSys coin 2 true fun e _ => e) (N * 2) (coinPrev ω) none none (some N) = some (.ok (s ω))) ∧
    ∫ ω, meanJ 1 (s ω).rows ∂draws fair = 3 / 4 := by
  obtain ⟨s, hs⟩ := coin_runs N
  refine ⟨s, hs, ?_⟩
  rw [C152_unbiased coin_regular zero_le_one (by norm_num) N hN coinPrev s (fun _ => rfl) (fun _ => N * 2) hs, coin_performance]

example : ∃ s : ℕ → (ℕ → Bool) → Core.St (Unit × Bool × (ℕ → Bool)) Bool Unit ℝ Unit Unit,
    (∀ N ω, 1 ≤ N → Core.evaluate (simSys coin 2 true fun e _ => e) (N * 2) (coinPrev ω) none none (some N) = some (.ok (s N ω))) ∧
    ∀ᵐ ω ∂draws fair, Tendsto (fun N => meanJ 1 (s N ω).rows) atTop (𝓝 (3 / 4)) := by
  choose s hs using coin_runs
  refine ⟨s, fun N ω _ => hs N ω, ?_⟩
  rw [← coin_performance]
  exact C152_consistent coin_regular zero_le_one (by norm_num) coinPrev s (fun _ => rfl) (fun N _ => N * 2) fun N ω _ => hs N ω

example (N : ℕ) (hN : 1 ≤ N) (ε : ℝ) (hε : 0 ≤ ε) : ∃ s : (ℕ → Bool) → Core.St (Unit × Bool × (ℕ → Bool)) Bool Unit ℝ Unit Unit,
    (∀ ω, Core.evaluate (simSys coin 2 true fun e _ => e) (N * 2) (coinPrev ω) none none (some N) = some (.ok (s ω))) ∧
    (draws fair).real {ω | ε ≤ |meanJ 1 (s ω).rows - 3 / 4|} ≤ 2 * Real.exp (-(N * ε ^ 2) / 8) ∧
    iIndepFun (fun (k : Fin N) ω => (Dataset.computeJ 1 ((s ω).rows.map toRow)).getD k 0) (draws fair) := by
  obtain ⟨s, hs⟩ := coin_runs N
  refine ⟨s, hs, ?_, (C152_independent (ν := fair) coin_regular zero_le_one (by norm_num) N hN coinPrev s (fun _ => rfl) (fun _ => N * 2) hs).2.1⟩
  have := C152_confidence (ν := fair) (γ := 1) coin_regular zero_lt_one (by norm_num) N hN coinPrev s (fun _ => rfl) (fun _ => N * 2) hs ε hε
  rw [coin_performance] at this
  convert this using 4
  norm_num

/-- With initial states: a game that starts with heads is played like any other one. -/
example : ∃ s : (ℕ → Bool) → Core.St (Unit × Bool × (ℕ → Bool)) Bool Unit ℝ Unit Unit,
    (∀ ω, Core.evaluate (simSys coin 2 true fun e _ => e) 4 (coinPrev ω) (some [true, false]) none none = some (.ok (s ω))) ∧
    iIndepFun (fun (k : Fin 2) ω => (Dataset.computeJ 1 ((s ω).rows.map toRow)).getD k 0) (draws fair) := by
  have := fun ω => Core.C04_evaluate_initial_states (simSys coin 2 true fun e _ => e) (coinPrev ω) [true, false] 2 rfl (by norm_num)
  choose s hs using this
  have hr := fun ω => (hs ω).1 4 (by norm_num)
  exact ⟨s, hr, (C152_initial_states (ν := fair) coin_regular zero_le_one (by norm_num) _ (by simp) coinPrev s (fun _ => rfl) (fun _ => 4) hr).2.1⟩

theorem coin_one (ω : ℕ → Bool) : ∃ s, Core.evaluate (simSys coin 2 true fun e _ => e) 2 (coinPrev ω) none (some 1) none = some (.ok s) ∧
    Dataset.computeJ 1 (s.rows.map toRow) = [if ω 3 then 1 else 0] := by
  have hr : ∀ s, Core.evaluate (simSys coin 2 true fun e _ => e) 2 (coinPrev ω) none (some 1) none = some (.ok s) →
      s.rows = [⟨false, (), if ω 3 then 1 else 0, ω 3, ω 3, Core.isLast (some 2) 1 (ω 3), some (), some ()⟩] := by
    intro s hs
    have : (match Core.evaluate (simSys coin 2 true fun e _ => e) 2 (coinPrev ω) none (some 1) none with
        | some (.ok s) => s.rows
        | _ => []) = [⟨false, (), if ω 3 then 1 else 0, ω 3, ω 3, Core.isLast (some 2) 1 (ω 3), some (), some ()⟩] := rfl
    rw [hs] at this
    exact this
  refine ⟨_, rfl, ?_⟩
  rw [hr _ rfl]
  cases h : ω 3 <;> simp [Dataset.computeJ, Dataset.computeJLoop, toRow, Core.isLast]

/-- C152, the negative half: with the argument `n_steps` the last episode can be cut before its end, and the mean of the returns is biased. -/
theorem C152_steps_refuted : ∃ s : (ℕ → Bool) → Core.St (Unit × Bool × (ℕ → Bool)) Bool Unit ℝ Unit Unit,
    (∀ ω, Core.evaluate (simSys coin 2 true fun e _ => e) 2 (coinPrev ω) none (some 1) none = some (.ok (s ω))) ∧
    ∫ ω, meanJ 1 (s ω).rows ∂draws fair = 1 / 2 ∧ coin.performance fair 1 2 coin.start = 3 / 4 := by
  choose s hs hJ using coin_one
  refine ⟨s, hs, ?_, coin_performance⟩
  have h1 : ∀ ω, meanJ 1 (s ω).rows = if ω 3 then 1 else 0 := fun ω => by
    unfold meanJ
    rw [hJ]
    simp
  simp only [h1]
  have h2 := integral_map (μ := draws fair) (φ := fun ω : ℕ → Bool => ω 3) (measurable_pi_apply 3).aemeasurable
    (f := fun b : Bool => if b then (1 : ℝ) else 0) (measurable_of_finite _).aestronglyMeasurable
  rw [show (draws fair).map (fun ω : ℕ → Bool => ω 3) = fair from Measure.infinitePi_map_eval (fun _ => fair) 3] at h2
  rw [← h2, integral_fair]
  norm_num

end

end Verif.Eval
