/-
C74: true online SARSA(λ) computes the online λ-return algorithm exactly, and SARSA(λ) with linear features keeps the discounted
sum of the features of the episode.
-/
import Verif.TD.Props
import Mathlib.Tactic.LinearCombination

namespace Verif.TD

noncomputable section

open Finset

/-! ### Specification -/

/-- What an agent with linear features meets in an episode: the features of the pairs it visits, the rewards, the steps that end
the episode and the learning rates. -/
structure Episode (d : Nat) where
  feats : ℕ → Fin d → ℝ
  reward : ℕ → ℝ
  stop : ℕ → Bool
  rate : ℕ → ℝ

/-- The value of the pair after step `t`, by the weights `θ t` of that time. -/
def Episode.boot {d : Nat} (ep : Episode d) (θ : ℕ → Fin d → ℝ) (t : ℕ) : ℝ :=
  if ep.stop t then 0 else ∑ i, θ t i * ep.feats (t + 1) i

/-- The return of `n + 1` steps from step `k`. -/
def Episode.nStep {d : Nat} (ep : Episode d) (γ : ℝ) (θ : ℕ → Fin d → ℝ) (k n : ℕ) : ℝ :=
  ∑ i ∈ range (n + 1), γ ^ i * ep.reward (k + i) + γ ^ (n + 1) * ep.boot θ (k + n)

/-- The interim λ-return of step `k` with the knowledge of the first `h` steps. -/
def Episode.lamReturn {d : Nat} (ep : Episode d) (γ lam : ℝ) (θ : ℕ → Fin d → ℝ) (k h : ℕ) : ℝ :=
  (1 - lam) * ∑ n ∈ range (h - k - 1), lam ^ n * ep.nStep γ θ k n + lam ^ (h - k - 1) * ep.nStep γ θ k (h - k - 1)

/-- The online λ-return algorithm at time `h`: the weights after it has gone, once more from the initial weights, through the first
`k` steps with their interim λ-returns as targets. -/
def Episode.forward {d : Nat} (ep : Episode d) (γ lam : ℝ) (θ : ℕ → Fin d → ℝ) (w : Fin d → ℝ) (h : ℕ) : ℕ → Fin d → ℝ
  | 0 => w
  | k + 1 => fun i => ep.forward γ lam θ w h k i +
      ep.rate k * (ep.lamReturn γ lam θ k h - ∑ j, ep.forward γ lam θ w h k j * ep.feats k j) * ep.feats k i

/-! ### The agent in an episode -/

/-- The agent after `t` updates of an episode. -/
def onlineRun {d : Nat} (ep : Episode d) (γ lam : ℝ) (g : TrueOnline d) : ℕ → TrueOnline d
  | 0 => trueOnlineStart g
  | t + 1 => trueOnline γ lam (ep.rate t) (onlineRun ep γ lam g t) (ep.feats t) (ep.feats (t + 1)) (ep.reward t) (ep.stop t)

theorem nStep_succ {d : Nat} (ep : Episode d) (γ : ℝ) (θ : ℕ → Fin d → ℝ) (k n : ℕ) :
    ep.nStep γ θ k (n + 1) - ep.nStep γ θ k n =
      γ ^ (n + 1) * (ep.reward (k + n + 1) + γ * ep.boot θ (k + n + 1) - ep.boot θ (k + n)) := by
  simp only [Episode.nStep]
  rw [sum_range_succ _ (n + 1)]
  rw [show k + (n + 1) = k + n + 1 by omega, pow_succ γ (n + 1)]
  ring

theorem lamReturn_succ {d : Nat} (ep : Episode d) (γ lam : ℝ) (θ : ℕ → Fin d → ℝ) {k t : ℕ} (hk : k < t + 1) :
    ep.lamReturn γ lam θ k (t + 2) - ep.lamReturn γ lam θ k (t + 1) =
      (γ * lam) ^ (t + 1 - k) * (ep.reward (t + 1) + γ * ep.boot θ (t + 1) - ep.boot θ t) := by
  obtain ⟨n, rfl⟩ : ∃ n, t = k + n := ⟨t - k, by omega⟩
  have e1 : k + n + 2 - k - 1 = n + 1 := by omega
  have e2 : k + n + 1 - k - 1 = n := by omega
  have e3 : k + n + 1 - k = n + 1 := by omega
  have h := nStep_succ ep γ θ k n
  simp only [Episode.lamReturn]
  rw [e1, e2, e3, sum_range_succ, mul_pow]
  linear_combination lam ^ (n + 1) * h

/-- The difference that one more step of knowledge makes to the weights of the online λ-return algorithm. -/
theorem forward_succ {d : Nat} (ep : Episode d) (γ lam : ℝ) (g : TrueOnline d) (θ : ℕ → Fin d → ℝ) (t : ℕ) {k : ℕ} (hk : k ≤ t + 1)
    (i : Fin d) :
    ep.forward γ lam θ g.w (t + 2) k i = ep.forward γ lam θ g.w (t + 1) k i +
      (γ * lam) ^ (t + 2 - k) * (ep.reward (t + 1) + γ * ep.boot θ (t + 1) - ep.boot θ t) * (onlineRun ep γ lam g k).e i := by
  induction k generalizing i with
  | zero => simp [Episode.forward, onlineRun, trueOnlineStart]
  | succ k ih =>
      have ih' := ih (by omega)
      have hl := lamReturn_succ ep γ lam θ (k := k) (t := t) (by omega)
      set D := ep.reward (t + 1) + γ * ep.boot θ (t + 1) - ep.boot θ t with hD
      have hsum : ∑ j, ep.forward γ lam θ g.w (t + 2) k j * ep.feats k j = ∑ j, ep.forward γ lam θ g.w (t + 1) k j * ep.feats k j +
          (γ * lam) ^ (t + 2 - k) * D * ∑ j, (onlineRun ep γ lam g k).e j * ep.feats k j := by
        rw [Finset.mul_sum, ← Finset.sum_add_distrib]
        refine Finset.sum_congr rfl fun j _ => ?_
        rw [ih' j]; ring
      have hp : (γ * lam) ^ (t + 2 - k) = γ * lam * (γ * lam) ^ (t + 1 - k) := by
        rw [show t + 2 - k = (t + 1 - k) + 1 by omega, pow_succ]; ring
      have hq : t + 2 - (k + 1) = t + 1 - k := by omega
      simp only [Episode.forward, onlineRun, trueOnline, dot]
      rw [hsum, ih' i, hq, hp]
      linear_combination ep.rate k * ep.feats k i * hl

/-- True online SARSA(λ) is the online λ-return algorithm: after every number `t` of updates of an episode its weights are those of
the algorithm that goes through the `t` steps again with their interim λ-returns, where the value of a pair is that of the weights
the agent had at the time. This holds for all features, rewards, learning rates (also changing ones) and initial weights, and
whatever trace and old value the last episode has left. -/
theorem C74_forward_view {d : Nat} (ep : Episode d) (γ lam : ℝ) (g : TrueOnline d) (t : ℕ) :
    (onlineRun ep γ lam g t).w = ep.forward γ lam (fun s => (onlineRun ep γ lam g s).w) g.w t t := by
  set θ : ℕ → Fin d → ℝ := fun s => (onlineRun ep γ lam g s).w with hθ
  have hboot : ∀ s, (onlineRun ep γ lam g (s + 1)).qOld = some (ep.boot θ s) := by
    intro s
    simp only [onlineRun, trueOnline, Episode.boot, dot, hθ]
    cases ep.stop s <;> simp
  induction t with
  | zero => rfl
  | succ t ih =>
      funext i
      have hlast : ep.lamReturn γ lam θ t (t + 1) = ep.reward t + γ * ep.boot θ t := by
        simp [Episode.lamReturn, Episode.nStep]
      have hq : (if (!ep.stop t) = true then dot (onlineRun ep γ lam g t).w (ep.feats (t + 1)) else 0) = ep.boot θ t := by
        simp only [Episode.boot, dot, hθ]
        cases ep.stop t <;> simp
      cases t with
      | zero =>
          simp only [Episode.forward, hlast]
          rw [onlineRun]
          simp only [trueOnline, hq]
          simp only [onlineRun, trueOnlineStart, dot, zero_mul, Finset.sum_const_zero]
          ring
      | succ t =>
          have hF := fun i => forward_succ ep γ lam g θ t (le_refl (t + 1)) i
          rw [show t + 2 - (t + 1) = 1 by omega, pow_one] at hF
          rw [← ih] at hF
          set D := ep.reward (t + 1) + γ * ep.boot θ (t + 1) - ep.boot θ t with hD
          have hsum : ∑ j, ep.forward γ lam θ g.w (t + 2) (t + 1) j * ep.feats (t + 1) j =
              ∑ j, (onlineRun ep γ lam g (t + 1)).w j * ep.feats (t + 1) j +
              γ * lam * D * ∑ j, (onlineRun ep γ lam g (t + 1)).e j * ep.feats (t + 1) j := by
            rw [Finset.mul_sum, ← Finset.sum_add_distrib]
            refine Finset.sum_congr rfl fun j _ => ?_
            rw [hF j]; ring
          rw [Episode.forward, hlast, show t + 1 + 1 = t + 2 from rfl, hsum]
          beta_reduce
          rw [hF i, onlineRun]
          simp only [trueOnline, hq, hboot t]
          simp only [hD, dot]
          ring

/-- An episode with two steps, in which the second update also changes the values of the first pair. -/
example : (onlineRun (d := 1) ⟨fun _ _ => 1, fun _ => 1, fun t => t == 1, fun _ => 1 / 2⟩ 1 (1 / 2) ⟨fun _ => 0, fun _ => 7, some 3⟩ 2).w 0
    = 7 / 8 := by
  norm_num [onlineRun, trueOnline, trueOnlineStart, dot]

/-! ### SARSA(λ) with linear features -/

/-- The agent after `t` updates of an episode. -/
def linRun {d : Nat} (ep : Episode d) (γ lam : ℝ) (g : LinLam d) : ℕ → LinLam d
  | 0 => linLamStart g
  | t + 1 => linLam γ lam (ep.rate t) (linRun ep γ lam g t) (ep.feats t) (ep.feats (t + 1)) (ep.reward t) (ep.stop t)

theorem linRun_trace {d : Nat} (ep : Episode d) (γ lam : ℝ) (g : LinLam d) (t : ℕ) (i : Fin d) :
    (linRun ep γ lam g t).e i = ∑ k ∈ range t, (γ * lam) ^ (t - 1 - k) * ep.feats k i := by
  induction t with
  | zero => simp [linRun, linLamStart]
  | succ t ih =>
      simp only [linRun, linLam]
      rw [ih, sum_range_succ, Finset.mul_sum]
      congr 1
      · refine Finset.sum_congr rfl fun k hk => ?_
        have hk' := mem_range.mp hk
        rw [show t + 1 - 1 - k = (t - 1 - k) + 1 by omega, pow_succ]; ring
      · simp

/-- SARSA(λ) with linear features: the update of step `t` adds to the weights its learning rate times its one-step error times the
sum of the features of the episode so far, discounted by `(γ λ)` per step. -/
theorem C74_linear_trace {d : Nat} (ep : Episode d) (γ lam : ℝ) (g : LinLam d) (t : ℕ) (i : Fin d) :
    (linRun ep γ lam g 0).w = g.w ∧
    (linRun ep γ lam g (t + 1)).w i = (linRun ep γ lam g t).w i +
      ep.rate t * (ep.reward t + γ * ep.boot (fun s => (linRun ep γ lam g s).w) t - ∑ j, (linRun ep γ lam g t).w j * ep.feats t j) *
        ∑ k ∈ range (t + 1), (γ * lam) ^ (t - k) * ep.feats k i := by
  refine ⟨rfl, ?_⟩
  have he := linRun_trace ep γ lam g (t + 1) i
  rw [show t + 1 - 1 = t by omega] at he
  rw [← he]
  simp only [linRun, linLam, Episode.boot, dot]
  cases ep.stop t <;> simp

end

end Verif.TD
