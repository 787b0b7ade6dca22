/-
Property C94: what the baselines computed from the batch cost: a bias of REINFORCE that vanishes with the number of episodes, and a
bias of GPOMDP that does not.
-/
import Verif.Search.PropsConsistent
import Mathlib.Analysis.Calculus.Deriv.Inv
import Mathlib.Tactic.Positivity

namespace Verif.Search

open MeasureTheory ProbabilityTheory Filter Topology Finset

variable {S A O : Type} {d : ℕ}

/-- C94. If all the episodes of the batch that reach a time step get the same reward there, for example one unit for each step before
the end or the cost of time, the gradient of GPOMDP is zero, whatever the lengths and the returns of the episodes. -/
theorem C94_gpomdp_blind (diffLog : Vec d → S → A → Vec d) (γ : ℝ) (opt : O → Vec d → Vec d → O × Vec d) (g : PG (Gpomdp d) d O)
    (hg : Reach (gpomdp S A d) diffLog γ opt (gpomdpNew d) (fun D => ∃ eps, Splits D eps []) g) (D : List (Step S A))
    (eps : List (List (Step S A))) (hD : Splits D eps []) (hn : 2 ≤ eps.length) (c : ℕ → ℝ)
    (hc : ∀ e ∈ eps, ∀ t (ht : t < e.length), e[t].reward = c t) :
    (pgFit (gpomdp S A d) diffLog γ opt g D).2 = some 0 := by
  rw [((C57_gpomdp_partial diffLog γ opt g hg D eps [] hD).2 (by omega)).1]
  congr 1
  funext j
  rw [gpomdpSpec, average_congr _ _ (fun _ => 0)]
  · simp [average]
  · intro e he
    refine List.sum_eq_zero ?_
    intro x hx
    obtain ⟨t, ht, rfl⟩ := List.mem_map.1 hx
    have ht' := List.mem_range.1 ht
    refine bestBaseline_const _ (γ ^ t * c t) ?_ (scoreSum (diffLog g.theta) (e.take (t + 1)) j, rewardAt γ e t) ?_
    · intro p hp
      obtain ⟨e', he', rfl⟩ := List.mem_map.1 hp
      obtain ⟨hm, hl⟩ := List.mem_filter.1 he'
      have hl : t < e'.length := by simpa using hl
      have hm : e' ∈ eps := by
        rcases List.mem_append.1 hm with hm | hm
        · exact hm
        · rw [List.mem_singleton.1 hm] at hl
          simp at hl
      simp [rewardAt, List.getElem?_eq_getElem hl, hc e' hm t hl]
    · refine List.mem_map.2 ⟨e, List.mem_filter.2 ⟨List.mem_append_left _ he, by simpa using ht'⟩, rfl⟩

/-- Non-trivial instance: two episodes of one and two steps, with one unit for each step, and a new agent. -/
example : Splits [sampleOf 1 1 true, sampleOf 2 1 false, sampleOf 1 1 true]
      [[sampleOf 1 1 true], [sampleOf 2 1 false, sampleOf 1 1 true]] [] ∧
    (∀ e ∈ [[sampleOf 1 1 true], [sampleOf 2 1 false, sampleOf 1 1 true]], ∀ t (ht : t < e.length), e[t].reward = (fun _ => 1) t) ∧
    Reach (gpomdp ℝ Unit 1) (fun _ x _ => fun _ => x) (9 / 10) (fun (_ : Unit) t _ => ((), t))
      (gpomdpNew 1) (fun D => ∃ eps, Splits D eps []) { alg := gpomdpNew 1, theta := 0, opt := () } := by
  refine ⟨⟨rfl, ?_, by simp⟩, ?_, .new _ _⟩
  · intro e he
    rcases List.mem_cons.1 he with rfl | he
    · exact ⟨[], _, rfl, rfl, by simp⟩
    · rw [List.mem_singleton.1 he]
      exact ⟨[sampleOf 2 1 false], _, rfl, rfl, by simp [sampleOf]⟩
  · intro e he t ht
    have : ∀ x ∈ e, x.reward = 1 := by
      rcases List.mem_cons.1 he with rfl | he
      · simp [sampleOf]
      · rw [List.mem_singleton.1 he]
        simp [sampleOf]
    exact this _ (List.getElem_mem ht)

/-- One state; the action `true` goes on and the action `false` ends the episode. Each step is rewarded with one. -/
def survival : Process Unit Bool :=
  { start := fun _ => 1, trans := fun _ _ _ => 1, reward := fun _ _ _ => 1, absorbing := fun _ a _ => !a }

theorem survival_proper : survival.Proper :=
  ⟨by simp [survival], by simp [survival], by simp [survival], by simp [survival]⟩

theorem survival_return (θ : Vec 1) (γ : ℝ) :
    expected survival (logistic θ) 2 (ret γ) = 1 + γ * (Real.exp (θ 0) / (1 + Real.exp (θ 0))) := by
  have hp : (1 + Real.exp (θ 0)) ≠ 0 := by positivity
  simp [expected, expect, survival, logistic, ret, Process.sample]
  field_simp
  ring

theorem sigmoid_deriv (x : ℝ) :
    HasDerivAt (fun y => Real.exp y / (1 + Real.exp y)) (Real.exp x / (1 + Real.exp x) ^ 2) x := by
  have hp : (1 + Real.exp x) ≠ 0 := by positivity
  refine ((Real.hasDerivAt_exp x).fun_div ((Real.hasDerivAt_exp x).const_add 1) hp).congr_deriv ?_
  field_simp
  ring

/-- C94 fails for GPOMDP when episodes can end early. In the survival task, with two steps at most and a policy that goes on with a
probability that increases with its weight, the expected return increases with the weight; but the gradient computed by GPOMDP is
zero, almost surely and for any number of episodes, so that it does not even converge to the gradient of the expected return. -/
theorem C94_gpomdp_refuted (γ : ℝ) (hγ : 0 < γ) (opt : O → Vec 1 → Vec 1 → O × Vec 1) (g : PG (Gpomdp 1) 1 O)
    (hg : Reach (gpomdp Unit Bool 1) logisticScore γ opt (gpomdpNew 1) (fun D => ∃ eps, Splits D eps []) g) {Ω : Type}
    [MeasurableSpace Ω] (μ : Measure Ω) (X : ℕ → Ω → List (Step Unit Bool)) (hX : Episodes μ survival (logistic g.theta) 2 X) :
    survival.Proper ∧ IsScore (S := Unit) logistic logisticScore ∧
    (∃ J', 0 < J' ∧ HasDerivAt (fun y => expected survival (logistic (Function.update g.theta 0 y)) 2 (ret γ)) J' (g.theta 0)) ∧
    ∀ᵐ ω ∂μ, ∀ n, 2 ≤ n → (pgFit (gpomdp Unit Bool 1) logisticScore γ opt g (firstN X n ω)).2 = some 0 := by
  refine ⟨survival_proper, logistic_isScore, ⟨γ * (Real.exp (g.theta 0) / (1 + Real.exp (g.theta 0)) ^ 2), by positivity, ?_⟩, ?_⟩
  · simp only [survival_return, Function.update_self]
    exact ((sigmoid_deriv (g.theta 0)).const_mul γ).const_add 1
  · have h1 : ∀ᵐ e ∂law survival (logistic g.theta) 2, ∀ x ∈ e, x.reward = 1 := by
      have := ae_law survival (logistic g.theta) (fun _ _ e => ∀ x ∈ e, x.reward = 1) (fun s => by simp)
        (fun h s a s' _ => by simp [Process.sample, survival])
        (fun h s a s' e _ he => by
          intro x hx
          rcases List.mem_cons.1 hx with rfl | hx
          · rfl
          · exact he x hx) 2
      filter_upwards [this] with e he
      exact he.choose_spec
    filter_upwards [hX.splits, hX.ae h1] with ω hs hr n hn
    refine C94_gpomdp_blind logisticScore γ opt g hg _ _ (hs n) (by simpa [batch] using hn) (fun _ => 1) ?_
    intro e he t ht
    obtain ⟨i, _, rfl⟩ := List.mem_map.1 he
    exact hr i _ (List.getElem_mem ht)

/-- The hypotheses are met: a new agent, and independent episodes of the survival task. -/
example : ∃ (μ : Measure (ℕ → List (Step Unit Bool))), IsProbabilityMeasure μ ∧
    Episodes μ survival (logistic (fun _ => 0)) 2 (fun i ω => ω i) ∧
    Reach (gpomdp Unit Bool 1) logisticScore 1 (fun (_ : Unit) t _ => ((), t)) (gpomdpNew 1) (fun D => ∃ eps, Splits D eps [])
      { alg := gpomdpNew 1, theta := fun _ => 0, opt := () } := by
  obtain ⟨μ, h1, h2⟩ := episodes_exist survival survival_proper (logistic (fun _ => 0))
    (fun s a => (logistic_isScore.1 _ s a).le) (logistic_isScore.2.1 _) 2
  exact ⟨μ, h1, h2, .new _ _⟩

/-- One step; the action `true` is rewarded with one. -/
def choice : Process Unit Bool :=
  { start := fun _ => 1, trans := fun _ _ _ => 1, reward := fun _ a _ => if a then 1 else 0, absorbing := fun _ _ _ => false }

theorem choice_proper : choice.Proper := ⟨by simp [choice], by simp [choice], by simp [choice], by simp [choice]⟩

/-- The hypotheses of the two theorems on consistency are met by new agents and independent episodes of any horizon, for REINFORCE
also in the survival task. -/
example (h : ℕ) : ∃ (μ ν : Measure (ℕ → List (Step Unit Bool))),
    Episodes μ survival (logistic (fun _ => 0)) (h + 1) (fun i ω => ω i) ∧
    Reach (reinforce Unit Bool 1) logisticScore 1 (fun (_ : Unit) t _ => ((), t)) (reinforceNew 1) (fun _ => True)
      { alg := reinforceNew 1, theta := fun _ => 0, opt := () } ∧
    Episodes ν choice (logistic (fun _ => 0)) (h + 1) (fun i ω => ω i) ∧ (∀ s a s', choice.absorbing s a s' = false) ∧
    Reach (gpomdp Unit Bool 1) logisticScore 1 (fun (_ : Unit) t _ => ((), t)) (gpomdpNew 1) (fun D => ∃ eps, Splits D eps [])
      { alg := gpomdpNew 1, theta := fun _ => 0, opt := () } := by
  obtain ⟨μ, _, h2⟩ := episodes_exist survival survival_proper (logistic (fun _ => 0))
    (fun s a => (logistic_isScore.1 _ s a).le) (logistic_isScore.2.1 _) (h + 1)
  obtain ⟨ν, _, h3⟩ := episodes_exist choice choice_proper (logistic (fun _ => 0))
    (fun s a => (logistic_isScore.1 _ s a).le) (logistic_isScore.2.1 _) (h + 1)
  exact ⟨μ, ν, h2, .new _ _, h3, fun _ _ _ => rfl, .new _ _⟩

/-- C94 fails for REINFORCE with finitely many episodes: the baseline is computed from the episodes that it is subtracted from. With
two independent episodes the expectation of the gradient is half the derivative of the expected return. -/
theorem C94_baseline_refuted : choice.Proper ∧ IsScore (S := Unit) logistic logisticScore ∧ ∃ J', J' ≠ 0 ∧
    HasDerivAt (fun y => expected choice (logistic (Function.update (fun _ => 0) 0 y)) 1 (ret 1)) J' 0 ∧
    expected choice (logistic (fun _ => 0)) 1 (fun e₁ => expected choice (logistic (fun _ => 0)) 1 (fun e₂ =>
      reinforceSpec (logisticScore (fun _ => 0)) 1 [e₁, e₂] 0)) = J' / 2 := by
  refine ⟨choice_proper, logistic_isScore, 1 / 4, by norm_num, ?_, ?_⟩
  · have : ∀ y : ℝ, expected choice (logistic (Function.update (fun _ => 0) 0 y)) 1 (ret 1) = Real.exp y / (1 + Real.exp y) := by
      intro y
      simp [expected, expect, choice, logistic, ret, Process.sample]
    simp only [this]
    refine (sigmoid_deriv 0).congr_deriv ?_
    norm_num
  · simp [expected, expect, choice, logistic, logisticScore, ret, Process.sample, reinforceSpec, scoreSum, average, bestBaseline]
    norm_num

end Verif.Search
