/-
Property C153, vectorized environments: an evaluation over a number of episodes returns exactly that many returns, whose mean is an unbiased estimate of the performance.
-/
import Verif.Eval.LemmasVectorRun
import Verif.Eval.Props

namespace Verif.Eval

open MeasureTheory ProbabilityTheory Filter Topology
open Verif.Dataset (Row)
open Verif.Vector (Logic freshLogic)

noncomputable section

variable {S X A P T U : Type} {m : Sim S X A P T U} {γ C : ℝ} {n H N : ℕ} {episodic : Bool} {noReward : ℝ} {garbage : ℕ → ℕ → ℕ → Bool × P × P}

/-- C153, vectorized environments. On a core whose last `learn` had no number of episodes per fit below `N`, `evaluate(n_episodes=N)` ends, and `compute_J` of the dataset that it
returns has exactly `N` elements. -/
theorem C153_returns (hn : 1 < n) (hH : 1 ≤ H) (hN : 1 ≤ N) (l : Logic) (hl : ∀ k, l.perFitEps = some k → N ≤ k)
    (w : (ℕ → S) × Draws U × (ℕ → Draws U)) (x0 : ℕ → X) (p0 : ℕ → P) (fuel : ℕ) (hfuel : N * H ≤ fuel) :
    ∃ s rows, Vector.evaluate (vecSys m episodic noReward garbage : Vector.Sys _ X A ℝ P T) l n (some H) none (some N) (H * N) w x0 p0 fuel = .ok (some (s, some rows)) ∧
      (Dataset.computeJ γ rows).length = N := by
  obtain ⟨s, ds, h, -⟩ := Vector.C22_episodes (vecSys m episodic noReward garbage : Vector.Sys _ X A ℝ P T) freshLogic n H N (H * N) w x0 p0 hn (by omega) rfl rfl fuel hfuel
  obtain ⟨rows, hd, hlen, -⟩ := evaluate_sim (γ := γ) hn hH hN rfl w x0 p0 fuel h
  rw [Vector.C23_evaluate_partial _ l n N (H * N) (some H) w x0 p0 fuel hl]
  exact ⟨s, rows, by rw [h, hd], hlen⟩

variable [MeasurableSpace S] [MeasurableSpace X] [MeasurableSpace A] [MeasurableSpace P] [MeasurableSpace U] {ν : Measure U} [IsProbabilityMeasure ν]

/-- C153, vectorized environments. The mean of the returns is an unbiased estimate of the performance of the policy: short episodes, which leave their environment free for
another one, are not over-represented, because the environments that start a new episode are only as many as the episodes still missing. -/
theorem C153_unbiased (hm : m.Regular C) (hC : 0 ≤ C) (hn : 1 < n) (hH : 1 ≤ H) (hN : 1 ≤ N) (l : Logic) (hl : ∀ k, l.perFitEps = some k → N ≤ k)
    (hid : ℕ → S) (now : Draws U) (x0 : ℕ → X) (p0 : ℕ → P) (fuel : ℕ)
    (s : (ℕ → Draws U) → Vector.St ((ℕ → S) × Draws U × (ℕ → Draws U)) X A ℝ P T) (rows : (ℕ → Draws U) → List (Row X A ℝ Unit))
    (h : ∀ ω, Vector.evaluate (vecSys m episodic noReward garbage) l n (some H) none (some N) (H * N) (hid, now, ω) x0 p0 fuel = .ok (some (s ω, some (rows ω)))) :
    ∫ ω, (Dataset.computeJ γ (rows ω)).sum / (Dataset.computeJ γ (rows ω)).length ∂draws (draws (quad ν)) = m.performance ν γ H m.start := by
  have hN0 : (N : ℝ) ≠ 0 := by positivity
  have key : ∀ ω, (Dataset.computeJ γ (rows ω)).sum / (Dataset.computeJ γ (rows ω)).length =
      total m ν γ n H N (proc m γ n H N (initial hid p0) fuel ω) / N := by
    intro ω
    have hω := h ω
    rw [Vector.C23_evaluate_partial _ l n N (H * N) (some H) _ x0 p0 fuel hl] at hω
    obtain ⟨r, hr, h1, h2, h3, h4⟩ := evaluate_sim (γ := γ) hn hH hN rfl (hid, now, ω) x0 p0 fuel hω
    cases hr
    have hp : ∑ i ∈ Finset.range n, pot m ν γ H (proc m γ n H N (initial hid p0) fuel ω) i = 0 :=
      Finset.sum_eq_zero fun i hi => by
        unfold pot
        exact if_neg (by rw [h4 i (Finset.mem_range.1 hi)]; simp)
    rw [h1, h2]
    unfold total
    rw [hp, h3]
    simp
  simp only [key]
  rw [integral_div, proc_mean hm hC hH fuel _ (initial_inv n H N hid p0)]
  have h0 : ∑ i ∈ Finset.range n, pot m ν γ H (initial hid p0 : Cs S P) i = 0 := Finset.sum_eq_zero fun i _ => by simp [pot, initial]
  unfold total
  rw [h0]
  simp [initial, hN0]

/-- C153, vectorized environments, not vacuous: the mean return of `N` coin games on `n` environments is 3/4 on average, although games that end at the first toss are shorter. -/
example (n N : ℕ) (hn : 1 < n) (hN : 1 ≤ N) :
    ∃ (s : (ℕ → Draws Bool) → Vector.St ((ℕ → Bool) × Draws Bool × (ℕ → Draws Bool)) Bool Unit ℝ Unit Unit) (rows : (ℕ → Draws Bool) → List (Row Bool Unit ℝ Unit)),
      (∀ ω, Vector.evaluate (vecSys coin true 0 fun _ _ _ => (false, (), ())) freshLogic n (some 2) none (some N) (2 * N) (fun _ => false, fun _ => (false, false, false, false), ω)
        (fun _ => false) (fun _ => ()) (N * 2) = .ok (some (s ω, some (rows ω)))) ∧
      ∫ ω, (Dataset.computeJ 1 (rows ω)).sum / (Dataset.computeJ 1 (rows ω)).length ∂draws (draws (quad fair)) = 3 / 4 := by
  have := fun ω => C153_returns (m := coin) (γ := 1) (episodic := true) (noReward := 0) (garbage := fun _ _ _ => (false, (), ())) (n := n) (H := 2) (N := N) hn (by norm_num) hN
    freshLogic (fun k h => by cases h) (fun _ => false, fun _ => (false, false, false, false), ω) (fun _ => false) (fun _ => ()) (N * 2) le_rfl
  choose s rows hs using this
  refine ⟨s, rows, fun ω => (hs ω).1, ?_⟩
  rw [C153_unbiased (ν := fair) coin_regular zero_le_one hn (by norm_num) hN freshLogic (fun k h => by cases h) _ _ _ _ _ s rows fun ω => (hs ω).1, coin_performance]

end

end Verif.Eval
