/-
Property C93: the classic actor-critic updates.
-/
import Verif.ActorCritic.ModelClassic
import Mathlib.Analysis.Calculus.Deriv.Add
import Mathlib.Analysis.Calculus.Deriv.Mul
import Mathlib.LinearAlgebra.Matrix.Notation

namespace Verif.ActorCritic

open Verif.TD (Trans)
open Matrix

variable {S A : Type} {k p m : ℕ}

/-! ### Specification -/

/-- The TD error of a transition for the value function with weights `v`; nothing is added after an absorbing state. -/
def IsTDError (γ : ℝ) (psi : S → Fin k → ℝ) (v : Fin k → ℝ) (t : Trans S A) (base δ : ℝ) : Prop :=
  δ = t.reward - base + (if t.absorbing then 0 else γ * (psi t.next ⬝ᵥ v)) - psi t.state ⬝ᵥ v

/-- Discounted sum of vectors, the last of which has coefficient one. -/
noncomputable def discounted {n : ℕ} (c : ℝ) : List (Fin n → ℝ) → Fin n → ℝ
  | [] => 0
  | x :: l => c ^ l.length • x + discounted c l

theorem discounted_snoc {n : ℕ} (c : ℝ) (l : List (Fin n → ℝ)) (x : Fin n → ℝ) :
    discounted c (l ++ [x]) = c • discounted c l + x := by
  induction l with
  | nil => simp [discounted]
  | cons y l ih =>
    simp only [List.cons_append, discounted, ih, List.length_append, List.length_singleton, smul_add, smul_smul,
      pow_succ']
    abel

/-! ### StochasticAC -/

/-- C93. One step of the stochastic actor-critic moves the value function and the policy along their traces, in proportion to the TD
error; after an absorbing transition no value is bootstrapped. -/
theorem C93_step (γ : ℝ) (psi : S → Fin k → ℝ) (score : (Fin p → ℝ) → S → A → Fin p → ℝ) (g : SAC0 k p) (c : Rates)
    (t : Trans S A) : ∃ δ, IsTDError γ psi g.v t 0 δ ∧
      (acStep γ psi score g (c, t)).v - g.v = (c.alphaV * δ) • (acStep γ psi score g (c, t)).ev ∧
      (acStep γ psi score g (c, t)).theta - g.theta = (c.alphaTheta * δ) • (acStep γ psi score g (c, t)).eTheta := by
  refine ⟨t.reward + γ * acNext psi g t - psi t.state ⬝ᵥ g.v, ?_, ?_, ?_⟩
  · unfold IsTDError acNext
    rcases t.absorbing.eq_false_or_eq_true with hb | hb <;> simp [hb]
  · simp [acStep, acApply, acTraces]
  · simp [acStep, acApply, acTraces]

/-- C93. The same for the average reward setting: the TD error is relative to the average reward, which follows it. -/
theorem C93_average (psi : S → Fin k → ℝ) (score : (Fin p → ℝ) → S → A → Fin p → ℝ) (g : SAC0 k p) (c : Rates)
    (t : Trans S A) : ∃ δ, IsTDError 1 psi g.v t g.rBar δ ∧
      (avgStep psi score g (c, t)).rBar - g.rBar = c.alphaR * δ ∧
      (avgStep psi score g (c, t)).v - g.v = (c.alphaV * δ) • (avgStep psi score g (c, t)).ev ∧
      (avgStep psi score g (c, t)).theta - g.theta = (c.alphaTheta * δ) • (avgStep psi score g (c, t)).eTheta := by
  refine ⟨t.reward - g.rBar + acNext psi g t - psi t.state ⬝ᵥ g.v, ?_, ?_, ?_, ?_⟩
  · unfold IsTDError acNext
    rcases t.absorbing.eq_false_or_eq_true with hb | hb <;> simp [hb]
  · simp [avgStep, acApply, avgTraces]
  · simp [avgStep, acApply, avgTraces]
  · simp [avgStep, acApply, avgTraces]

/-- The scores of the actions of an episode, each at the policy weights with which it was drawn. -/
noncomputable def scores (step : SAC0 k p → Rates × Trans S A → SAC0 k p) (score : (Fin p → ℝ) → S → A → Fin p → ℝ) :
    SAC0 k p → List (Rates × Trans S A) → List (Fin p → ℝ)
  | _, [] => []
  | g, x :: l => score g.theta x.2.state x.2.action :: scores step score (step g x) l

theorem scores_snoc (step : SAC0 k p → Rates × Trans S A → SAC0 k p) (score : (Fin p → ℝ) → S → A → Fin p → ℝ)
    (l : List (Rates × Trans S A)) (g : SAC0 k p) (x : Rates × Trans S A) :
    scores step score g (l ++ [x]) =
      scores step score g l ++ [score (l.foldl step g).theta x.2.state x.2.action] := by
  induction l generalizing g with
  | nil => simp [scores]
  | cons y l ih => simp [scores, ih]

/-- C93. Within an episode (after `episode_start`) the traces are the sums of the features and of the scores seen so far, discounted by
`gamma * lambda` per step; what happened in earlier episodes does not enter. -/
theorem C93_traces (γ lam : ℝ) (psi : S → Fin k → ℝ) (score : (Fin p → ℝ) → S → A → Fin p → ℝ) (g : SAC0 k p)
    (l : List (Rates × Trans S A)) (hl : ∀ x ∈ l, x.1.lamV = lam ∧ x.1.lamTheta = lam) :
    (l.foldl (acStep γ psi score) (acStart g)).ev = discounted (γ * lam) (l.map (fun x => psi x.2.state)) ∧
      (l.foldl (acStep γ psi score) (acStart g)).eTheta =
        discounted (γ * lam) (scores (acStep γ psi score) score (acStart g) l) := by
  induction l using List.reverseRecOn with
  | nil => simp [acStart, discounted, scores]
  | append_singleton l x ih =>
    obtain ⟨h1, h2⟩ := ih (fun y hy => hl y (by simp [hy]))
    obtain ⟨e1, e2⟩ := hl x (by simp)
    rw [List.foldl_append, List.map_append, List.map_cons, List.map_nil, discounted_snoc, scores_snoc, discounted_snoc,
      ← h1, ← h2, ← e1]
    constructor
    · simp [acStep, acApply, acTraces]
    · rw [e1, ← e2]
      simp [acStep, acApply, acTraces]

/-- C93. The same for the average reward setting, without discount. -/
theorem C93_traces_average (lam : ℝ) (psi : S → Fin k → ℝ) (score : (Fin p → ℝ) → S → A → Fin p → ℝ) (g : SAC0 k p)
    (l : List (Rates × Trans S A)) (hl : ∀ x ∈ l, x.1.lamV = lam ∧ x.1.lamTheta = lam) :
    (l.foldl (avgStep psi score) (acStart g)).ev = discounted lam (l.map (fun x => psi x.2.state)) ∧
      (l.foldl (avgStep psi score) (acStart g)).eTheta =
        discounted lam (scores (avgStep psi score) score (acStart g) l) := by
  induction l using List.reverseRecOn with
  | nil => simp [acStart, discounted, scores]
  | append_singleton l x ih =>
    obtain ⟨h1, h2⟩ := ih (fun y hy => hl y (by simp [hy]))
    obtain ⟨e1, e2⟩ := hl x (by simp)
    rw [List.foldl_append, List.map_append, List.map_cons, List.map_nil, discounted_snoc, scores_snoc, discounted_snoc,
      ← h1, ← h2, ← e1]
    constructor
    · simp [avgStep, acApply, avgTraces]
    · rw [e1, ← e2]
      simp [avgStep, acApply, avgTraces]

/-- An episode of two steps. -/
example : ∃ (g : SAC0 1 1), g.ev = ![5] ∧
    ([(⟨1, 1, 1 / 2, 1 / 2, 0⟩, ⟨2, 0, 1, 3, false⟩), (⟨1, 1, 1 / 2, 1 / 2, 0⟩, ⟨3, 0, 1, 3, true⟩)].foldl
      (acStep (S := ℕ) (A := ℕ) 1 (fun s => ![(s : ℝ)]) (fun _ _ _ => ![1])) (acStart g)).ev = ![4] := by
  refine ⟨⟨![0], ![0], ![5], ![5], 0⟩, rfl, ?_⟩
  rw [(C93_traces (S := ℕ) (A := ℕ) 1 (1 / 2) (fun s : ℕ => ![(s : ℝ)]) (fun _ _ _ => ![1]) _ _ (by simp)).1]
  ext i
  fin_cases i
  simp [discounted]
  norm_num

/-! ### COPDAC-Q -/

/-- C93. One step of COPDAC-Q moves the critic along its features in proportion to the TD error, in which nothing is bootstrapped after an
absorbing transition. With the features of the advantage kept fixed, the error of the critic on the transition shrinks by the
factor `1 - (aO |nu|^2 + aV |psi|^2)`. -/
theorem C93_copdac_critic (γ aT aO aV : ℝ) (y : Actor S p m) (psi : S → Fin k → ℝ) (g : Copdac k p)
    (t : Trans S (Fin m → ℝ)) : ∃ target, (t.absorbing = true → target = t.reward) ∧
      (t.absorbing = false → target = t.reward + γ * (psi t.next ⬝ᵥ g.v)) ∧
      ∀ g', g' = copdacStep γ aT aO aV y psi g t →
        target - (psi t.state ⬝ᵥ g'.v + nu y g.theta t.state t.action ⬝ᵥ g'.omega) =
          (1 - (aO * (nu y g.theta t.state t.action ⬝ᵥ nu y g.theta t.state t.action) +
            aV * (psi t.state ⬝ᵥ psi t.state))) * (target - copdacQ y psi g t.state t.action) := by
  refine ⟨t.reward + γ * (if !t.absorbing then psi t.next ⬝ᵥ g.v else 0), ?_, ?_, ?_⟩
  · intro h; simp [h]
  · intro h; simp [h]
  · rintro g' rfl
    simp only [copdacStep, copdacDelta, dotProduct_add, dotProduct_smul, smul_eq_mul, copdacQ]
    ring

/-- C93. The step of the actor is the deterministic policy gradient of the critic: `alpha` times the gradient, with respect to the weights
of the actor, of the action-value that the critic gives to the action of the actor (the critic itself kept fixed). Here `y.diff` is the
Jacobian of the actor in the current state. -/
theorem C93_copdac_actor (γ aT aO aV : ℝ) (y : Actor S p m) (psi : S → Fin k → ℝ) (g : Copdac k p)
    (t : Trans S (Fin m → ℝ))
    (hy : ∀ (u : Fin p → ℝ) j,
      HasDerivAt (fun x : ℝ => y.mu (g.theta + x • u) t.state j) ((y.diff g.theta t.state *ᵥ u) j) 0) :
    ∃ gradient : Fin p → ℝ, (copdacStep γ aT aO aV y psi g t).theta = g.theta + aT • gradient ∧
      ∀ u : Fin p → ℝ, HasDerivAt (fun x : ℝ => copdacQ y psi g t.state (y.mu (g.theta + x • u) t.state))
        (gradient ⬝ᵥ u) 0 := by
  refine ⟨(g.omega ᵥ* (y.diff g.theta t.state)ᵀ) ᵥ* y.diff g.theta t.state, rfl, fun u => ?_⟩
  set J := y.diff g.theta t.state with hJ
  have e : (fun x : ℝ => copdacQ y psi g t.state (y.mu (g.theta + x • u) t.state)) =
      fun x : ℝ => psi t.state ⬝ᵥ g.v +
        ∑ j, (y.mu (g.theta + x • u) t.state j - y.mu g.theta t.state j) * (J *ᵥ g.omega) j := by
    funext x
    unfold copdacQ nu
    rw [← hJ, ← dotProduct_mulVec]
    rfl
  rw [e]
  have h : HasDerivAt (fun x : ℝ => ∑ j, (y.mu (g.theta + x • u) t.state j - y.mu g.theta t.state j) *
      (J *ᵥ g.omega) j) (∑ j, (J *ᵥ u) j * (J *ᵥ g.omega) j) 0 := by
    apply HasDerivAt.fun_sum
    intro j _
    exact ((hy u j).sub_const _).mul_const _
  have h2 := h.const_add (psi t.state ⬝ᵥ g.v)
  have e2 : (∑ j, (J *ᵥ u) j * (J *ᵥ g.omega) j) = (g.omega ᵥ* Jᵀ) ᵥ* J ⬝ᵥ u := by
    rw [← dotProduct_mulVec, vecMul_transpose, dotProduct_comm]
    rfl
  rw [e2] at h2
  exact h2

/-- A linear actor meets the hypothesis on the Jacobian. -/
example (M : S → Matrix (Fin m) (Fin p) ℝ) (theta : Fin p → ℝ) (s : S) (u : Fin p → ℝ) (j : Fin m) :
    HasDerivAt (fun x : ℝ => (⟨fun th s => M s *ᵥ th, fun _ s => M s⟩ : Actor S p m).mu (theta + x • u) s j)
      (((⟨fun th s => M s *ᵥ th, fun _ s => M s⟩ : Actor S p m).diff theta s *ᵥ u) j) 0 := by
  simp only [mulVec_add, mulVec_smul, Pi.add_apply, Pi.smul_apply, smul_eq_mul]
  have := ((hasDerivAt_id (0 : ℝ)).mul_const ((M s *ᵥ u) j)).const_add ((M s *ᵥ theta) j)
  simpa using this

end Verif.ActorCritic
