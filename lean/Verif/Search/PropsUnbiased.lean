/-
Property C94: with fixed baselines the episode estimates of REINFORCE, and those of GPOMDP without absorbing transitions, are unbiased
estimates of the gradient of the expected return.
-/
import Verif.Search.PropsPG
import Mathlib.Analysis.SpecialFunctions.Log.Deriv
import Mathlib.Analysis.Calculus.Deriv.Add
import Mathlib.Analysis.Calculus.Deriv.Mul

namespace Verif.Search

open Finset

variable {S A : Type} [Fintype S] [Fintype A] {d : ℕ}

/-! ### Expectations -/

/-- The expectation of a function of the rest of an episode after a transition. -/
def after (P : Process S A) (pol : S → A → ℝ) (h : ℕ) (s : S) (a : A) (s' : S) (G : List (Step S A) → ℝ) : ℝ :=
  if P.absorbing s a s' then G [] else expect P pol h s' G

theorem expect_succ (P : Process S A) (pol : S → A → ℝ) (h : ℕ) (s : S) (F : List (Step S A) → ℝ) :
    expect P pol (h + 1) s F =
      ∑ a, pol s a * ∑ s', P.trans s a s' * after P pol h s a s' (fun e => F (P.sample h s a s' :: e)) := rfl

theorem expect_congr (P : Process S A) (hno : ∀ s a s', P.absorbing s a s' = false) (pol : S → A → ℝ) (h : ℕ) (s : S)
    (F G : List (Step S A) → ℝ) (hFG : ∀ e : List (Step S A), e.length = h → F e = G e) :
    expect P pol h s F = expect P pol h s G := by
  induction h generalizing s F G with
  | zero => exact hFG [] rfl
  | succ h ih =>
    simp only [expect, hno, Bool.false_eq_true, if_false]
    refine sum_congr rfl (fun a _ => ?_)
    congr 1
    refine sum_congr rfl (fun s' _ => ?_)
    congr 1
    exact ih s' _ _ (fun e he => hFG _ (by simp [he]))

theorem expect_add (P : Process S A) (pol : S → A → ℝ) (h : ℕ) (s : S) (F G : List (Step S A) → ℝ) :
    expect P pol h s (fun e => F e + G e) = expect P pol h s F + expect P pol h s G := by
  induction h generalizing s F G with
  | zero => rfl
  | succ h ih =>
    have : ∀ a s' (F G : List (Step S A) → ℝ), after P pol h s a s' (fun e => F e + G e) =
        after P pol h s a s' F + after P pol h s a s' G := by
      intro a s' F G
      unfold after
      split
      · rfl
      · exact ih s' F G
    simp only [expect_succ, this, mul_add, sum_add_distrib]

theorem after_add (P : Process S A) (pol : S → A → ℝ) (h : ℕ) (s : S) (a : A) (s' : S) (F G : List (Step S A) → ℝ) :
    after P pol h s a s' (fun e => F e + G e) = after P pol h s a s' F + after P pol h s a s' G := by
  unfold after
  split
  · rfl
  · exact expect_add P pol h s' F G

theorem expect_mul (P : Process S A) (pol : S → A → ℝ) (h : ℕ) (s : S) (c : ℝ) (F : List (Step S A) → ℝ) :
    expect P pol h s (fun e => c * F e) = c * expect P pol h s F := by
  induction h generalizing s F with
  | zero => rfl
  | succ h ih =>
    have : ∀ a s' (F : List (Step S A) → ℝ), after P pol h s a s' (fun e => c * F e) = c * after P pol h s a s' F := by
      intro a s' F
      unfold after
      split
      · rfl
      · exact ih s' F
    simp only [expect_succ, this, mul_sum]
    refine sum_congr rfl (fun a _ => sum_congr rfl (fun s' _ => by ring))

theorem after_mul (P : Process S A) (pol : S → A → ℝ) (h : ℕ) (s : S) (a : A) (s' : S) (c : ℝ) (F : List (Step S A) → ℝ) :
    after P pol h s a s' (fun e => c * F e) = c * after P pol h s a s' F := by
  unfold after
  split
  · rfl
  · exact expect_mul P pol h s' c F

theorem expect_const (P : Process S A) (hP : ∀ s a, ∑ s', P.trans s a s' = 1) (pol : S → A → ℝ) (hpol : ∀ s, ∑ a, pol s a = 1)
    (h : ℕ) (s : S) (c : ℝ) : expect P pol h s (fun _ => c) = c := by
  induction h generalizing s with
  | zero => rfl
  | succ h ih =>
    have : ∀ a s', after P pol h s a s' (fun _ => c) = c := by
      intro a s'
      unfold after
      split
      · rfl
      · exact ih s'
    simp only [expect_succ, this, ← sum_mul, hP, hpol, one_mul]

theorem after_const (P : Process S A) (hP : ∀ s a, ∑ s', P.trans s a s' = 1) (pol : S → A → ℝ) (hpol : ∀ s, ∑ a, pol s a = 1)
    (h : ℕ) (s : S) (a : A) (s' : S) (c : ℝ) : after P pol h s a s' (fun _ => c) = c := by
  unfold after
  split
  · rfl
  · exact expect_const P hP pol hpol h s' c

/-! ### The derivative of an expectation -/

/-- The policy is differentiable in the weight `j`, with positive probabilities, and `score` is the derivative of the logarithm
of its probabilities. -/
def ScoreOf (pol : ℝ → S → A → ℝ) (score : S → A → ℝ) (x : ℝ) : Prop :=
  (∀ y s a, 0 < pol y s a) ∧ (∀ y s, ∑ a, pol y s a = 1) ∧ ∀ s a, HasDerivAt (fun y => Real.log (pol y s a)) (score s a) x

omit [Fintype S] in
theorem ScoreOf.deriv {pol : ℝ → S → A → ℝ} {score : S → A → ℝ} {x : ℝ} (h : ScoreOf pol score x) (s : S) (a : A) :
    HasDerivAt (fun y => pol y s a) (pol x s a * score s a) x := by
  have := (h.2.2 s a).exp
  simp only [Real.exp_log (h.1 _ s a)] at this
  exact this

/-- The sum of the scores of an episode, for one weight. -/
def sum1 (score : S → A → ℝ) (e : List (Step S A)) : ℝ := (e.map (fun t => score t.state t.action)).sum

theorem expect_deriv (P : Process S A) {pol : ℝ → S → A → ℝ} {score : S → A → ℝ} {x : ℝ} (hs : ScoreOf pol score x) (h : ℕ) (s : S)
    (F : List (Step S A) → ℝ) :
    HasDerivAt (fun y => expect P (pol y) h s F) (expect P (pol x) h s (fun e => sum1 score e * F e)) x := by
  induction h generalizing s F with
  | zero => simpa [expect, sum1] using hasDerivAt_const x (F [])
  | succ h ih =>
    simp only [expect_succ]
    have ih' : ∀ a s' (G : List (Step S A) → ℝ), HasDerivAt (fun y => after P (pol y) h s a s' G)
        (after P (pol x) h s a s' (fun e => sum1 score e * G e)) x := by
      intro a s' G
      unfold after
      split
      · simpa [sum1] using hasDerivAt_const x (G [])
      · exact ih s' G
    have key : ∀ a, HasDerivAt (fun y => pol y s a * ∑ s', P.trans s a s' * after P (pol y) h s a s' (fun e =>
        F (P.sample h s a s' :: e)))
        (pol x s a * ∑ s', P.trans s a s' * after P (pol x) h s a s' (fun e =>
          sum1 score (P.sample h s a s' :: e) * F (P.sample h s a s' :: e))) x := by
      intro a
      have h1 := hs.deriv s a
      have h2 : HasDerivAt (fun y => ∑ s', P.trans s a s' * after P (pol y) h s a s' (fun e => F (P.sample h s a s' :: e)))
          (∑ s', P.trans s a s' * after P (pol x) h s a s' (fun e => sum1 score e * F (P.sample h s a s' :: e))) x :=
        HasDerivAt.fun_sum (fun s' _ => (ih' a s' _).const_mul _)
      have h3 := h1.mul h2
      refine h3.congr_deriv ?_
      have expand : ∀ s', after P (pol x) h s a s' (fun e =>
          sum1 score (P.sample h s a s' :: e) * F (P.sample h s a s' :: e)) =
          score s a * after P (pol x) h s a s' (fun e => F (P.sample h s a s' :: e)) +
          after P (pol x) h s a s' (fun e => sum1 score e * F (P.sample h s a s' :: e)) := by
        intro s'
        rw [← after_mul, ← after_add]
        congr 1
        funext e
        simp only [sum1, List.map_cons, List.sum_cons, Process.sample]
        ring
      simp only [expand, mul_add, sum_add_distrib, ← mul_sum]
      have : ∑ s', P.trans s a s' * (score s a * after P (pol x) h s a s' (fun e => F (P.sample h s a s' :: e))) =
          score s a * ∑ s', P.trans s a s' * after P (pol x) h s a s' (fun e => F (P.sample h s a s' :: e)) := by
        rw [mul_sum]
        exact sum_congr rfl (fun s' _ => by ring)
      rw [this]
      ring
    exact HasDerivAt.fun_sum (fun a _ => key a)

theorem expect_score (P : Process S A) (hP : ∀ s a, ∑ s', P.trans s a s' = 1) {pol : ℝ → S → A → ℝ} {score : S → A → ℝ} {x : ℝ}
    (hs : ScoreOf pol score x) (h : ℕ) (s : S) : expect P (pol x) h s (sum1 score) = 0 := by
  have h1 := expect_deriv P hs h s (fun _ => 1)
  have h2 : HasDerivAt (fun y => expect P (pol y) h s (fun _ => (1 : ℝ))) 0 x := by
    have : (fun y => expect P (pol y) h s (fun _ => (1 : ℝ))) = fun _ => 1 := by
      funext y
      exact expect_const P hP (pol y) (hs.2.1 y) h s 1
    rw [this]
    exact hasDerivAt_const x 1
  have := h1.unique h2
  simpa using this

theorem after_score (P : Process S A) (hP : ∀ s a, ∑ s', P.trans s a s' = 1) {pol : ℝ → S → A → ℝ} {score : S → A → ℝ} {x : ℝ}
    (hs : ScoreOf pol score x) (h : ℕ) (s : S) (a : A) (s' : S) : after P (pol x) h s a s' (sum1 score) = 0 := by
  unfold after
  split
  · rfl
  · exact expect_score P hP hs h s'

/-! ### The two estimates -/

/-- The estimate of GPOMDP from an episode, with a given baseline for each time, and a first part of the sum of scores. -/
def gpEstimate (score : S → A → ℝ) (γ : ℝ) : ℝ → ℝ → (ℕ → ℝ) → List (Step S A) → ℝ
  | _, _, _, [] => 0
  | acc, c, β, t :: e => (acc + score t.state t.action) * (c * t.reward - β 0) +
      gpEstimate score γ (acc + score t.state t.action) (c * γ) (fun i => β (i + 1)) e

/-- The shifted return. -/
def shifted (γ : ℝ) : ℝ → (ℕ → ℝ) → List (Step S A) → ℝ
  | _, _, [] => 0
  | c, β, t :: e => (c * t.reward - β 0) + shifted γ (c * γ) (fun i => β (i + 1)) e

theorem expect_gp (P : Process S A) (hP : ∀ s a, ∑ s', P.trans s a s' = 1) {pol : ℝ → S → A → ℝ} {score : S → A → ℝ} {x : ℝ}
    (hs : ScoreOf pol score x) (γ : ℝ) (h : ℕ) (s : S) (acc c : ℝ) (β : ℕ → ℝ) :
    expect P (pol x) h s (gpEstimate score γ acc c β) =
      acc * expect P (pol x) h s (shifted γ c β) + expect P (pol x) h s (fun e => sum1 score e * shifted γ c β e) := by
  induction h generalizing s acc c β with
  | zero => simp [expect, gpEstimate, shifted, sum1]
  | succ h ih =>
    have ih' : ∀ a s' acc c β, after P (pol x) h s a s' (gpEstimate score γ acc c β) =
        acc * after P (pol x) h s a s' (shifted γ c β) +
          after P (pol x) h s a s' (fun e => sum1 score e * shifted γ c β e) := by
      intro a s' acc c β
      unfold after
      split
      · simp [gpEstimate, shifted, sum1]
      · exact ih s' acc c β
    simp only [expect_succ, mul_sum, ← sum_add_distrib]
    refine sum_congr rfl (fun a _ => sum_congr rfl (fun s' _ => ?_))
    have r1 : (P.sample h s a s').state = s := rfl
    have r2 : (P.sample h s a s').action = a := rfl
    have r3 : (P.sample h s a s').reward = P.reward s a s' := rfl
    simp only [gpEstimate, shifted, r1, r2, r3]
    set f := c * P.reward s a s' - β 0
    have e1 : after P (pol x) h s a s' (fun e => (acc + score s a) * f + gpEstimate score γ (acc + score s a) (c * γ)
        (fun i => β (i + 1)) e) = (acc + score s a) * f + ((acc + score s a) *
          after P (pol x) h s a s' (shifted γ (c * γ) (fun i => β (i + 1))) +
          after P (pol x) h s a s' (fun e => sum1 score e * shifted γ (c * γ) (fun i => β (i + 1)) e)) := by
      rw [after_add, after_const P hP (pol x) (hs.2.1 x)]
      congr 1
      exact ih' a s' _ _ _
    have e2 : after P (pol x) h s a s' (fun e => f + shifted γ (c * γ) (fun i => β (i + 1)) e) =
        f + after P (pol x) h s a s' (shifted γ (c * γ) (fun i => β (i + 1))) := by
      rw [after_add, after_const P hP (pol x) (hs.2.1 x)]
    have e3 : after P (pol x) h s a s' (fun e => sum1 score (P.sample h s a s' :: e) *
        (f + shifted γ (c * γ) (fun i => β (i + 1)) e)) =
        score s a * f + score s a * after P (pol x) h s a s' (shifted γ (c * γ) (fun i => β (i + 1))) +
          after P (pol x) h s a s' (fun e => sum1 score e * shifted γ (c * γ) (fun i => β (i + 1)) e) := by
      have : (fun e => sum1 score (P.sample h s a s' :: e) *
          (f + shifted γ (c * γ) (fun i => β (i + 1)) e)) = fun e => ((score s a * f + score s a *
            shifted γ (c * γ) (fun i => β (i + 1)) e) + f * sum1 score e) +
            sum1 score e * shifted γ (c * γ) (fun i => β (i + 1)) e := by
        funext e
        simp only [sum1, List.map_cons, List.sum_cons, r1, r2]
        ring
      rw [this, after_add, after_add, after_add, after_const P hP (pol x) (hs.2.1 x), after_mul, after_mul,
        after_score P hP hs]
      ring
    rw [e1, e2, e3]
    ring

omit [Fintype S] [Fintype A] in
theorem gpEstimate_eq (score : S → A → ℝ) (γ acc c : ℝ) (β : ℕ → ℝ) (e : List (Step S A)) :
    gpEstimate score γ acc c β e = ((List.range e.length).map (fun t : ℕ =>
      (acc + sum1 score (e.take (t + 1))) * (c * rewardAt γ e t - β t))).sum := by
  induction e generalizing acc c β with
  | nil => rfl
  | cons t e ih =>
    rw [gpEstimate, ih, List.length_cons, List.range_succ_eq_map, List.map_cons, List.sum_cons, List.map_map]
    congr 1
    · simp [sum1, rewardAt]
    · congr 1
      refine List.map_congr_left (fun i _ => ?_)
      simp only [Function.comp, List.take_succ_cons, sum1, List.map_cons, List.sum_cons, rewardAt, Nat.succ_eq_add_one,
        List.getElem?_cons_succ, pow_succ]
      ring

omit [Fintype S] [Fintype A] in
theorem shifted_eq (γ c : ℝ) (β : ℕ → ℝ) (e : List (Step S A)) :
    shifted γ c β e = c * ret γ e - ((List.range e.length).map β).sum := by
  induction e generalizing c β with
  | nil => simp [shifted, ret]
  | cons t e ih =>
    rw [shifted, ih, List.length_cons, List.range_succ_eq_map, List.map_cons, List.sum_cons, List.map_map, ret]
    have : (fun i => β (i + 1)) = β ∘ Nat.succ := rfl
    rw [this]
    ring

/-- The weights of the policy, with one of them changed. -/
def along {d : ℕ} (pol : Vec d → S → A → ℝ) (theta : Vec d) (j : Fin d) (y : ℝ) : S → A → ℝ := pol (Function.update theta j y)

/-- `diffLog` is the gradient of the logarithm of the probabilities of the policy, which are positive and add up to one. -/
def IsScore (pol : Vec d → S → A → ℝ) (diffLog : Vec d → S → A → Vec d) : Prop :=
  (∀ θ s a, 0 < pol θ s a) ∧ (∀ θ s, ∑ a, pol θ s a = 1) ∧
  ∀ θ s a j, HasDerivAt (fun y => Real.log (pol (Function.update θ j y) s a)) (diffLog θ s a j) (θ j)

omit [Fintype S] in
theorem IsScore.scoreOf {pol : Vec d → S → A → ℝ} {diffLog : Vec d → S → A → Vec d} (h : IsScore pol diffLog) (θ : Vec d)
    (j : Fin d) : ScoreOf (along pol θ j) (fun s a => diffLog θ s a j) (θ j) :=
  ⟨fun _ _ _ => h.1 _ _ _, fun _ _ => h.2.1 _ _, fun s a => h.2.2 θ s a j⟩

omit [Fintype S] [Fintype A] in
theorem sum1_eq (score : S → A → Vec d) (j : Fin d) (e : List (Step S A)) :
    sum1 (fun s a => score s a j) e = scoreSum score e j := by
  induction e with
  | nil => rfl
  | cons t e ih =>
    simp only [sum1, scoreSum, List.map_cons, List.sum_cons, Pi.add_apply] at ih ⊢
    rw [ih]

/-! ### With a first state that is drawn -/

theorem expected_add (P : Process S A) (pol : S → A → ℝ) (h : ℕ) (F G : List (Step S A) → ℝ) :
    expected P pol h (fun e => F e + G e) = expected P pol h F + expected P pol h G := by
  simp only [expected, expect_add, mul_add, sum_add_distrib]

theorem expected_mul (P : Process S A) (pol : S → A → ℝ) (h : ℕ) (c : ℝ) (F : List (Step S A) → ℝ) :
    expected P pol h (fun e => c * F e) = c * expected P pol h F := by
  simp only [expected, expect_mul, mul_sum]
  exact sum_congr rfl (fun s _ => by ring)

theorem expected_deriv (P : Process S A) (pol : Vec d → S → A → ℝ) (diffLog : Vec d → S → A → Vec d) (hscore : IsScore pol diffLog)
    (F : List (Step S A) → ℝ) (h : ℕ) (θ : Vec d) (j : Fin d) :
    HasDerivAt (fun y => expected P (pol (Function.update θ j y)) h F)
      (expected P (pol θ) h (fun e => scoreSum (diffLog θ) e j * F e)) (θ j) := by
  have hs := hscore.scoreOf θ j
  have hx : along pol θ j (θ j) = pol θ := by simp [along]
  have h1 := fun s => expect_deriv P hs h s F
  rw [hx] at h1
  simp only [sum1_eq] at h1
  exact HasDerivAt.fun_sum (fun s _ => (h1 s).const_mul _)

theorem expected_score (P : Process S A) (hP : P.Proper) (pol : Vec d → S → A → ℝ) (diffLog : Vec d → S → A → Vec d)
    (hscore : IsScore pol diffLog) (h : ℕ) (θ : Vec d) (j : Fin d) :
    expected P (pol θ) h (fun e => scoreSum (diffLog θ) e j) = 0 := by
  have hs := hscore.scoreOf θ j
  have hx : along pol θ j (θ j) = pol θ := by simp [along]
  have h0 := fun s => expect_score P hP.trans_sum hs h s
  rw [hx] at h0
  have : (fun e : List (Step S A) => scoreSum (diffLog θ) e j) = sum1 (fun s a => diffLog θ s a j) := by
    funext e
    rw [sum1_eq]
  simp [expected, this, h0]

/-- C94. With any fixed baseline, the estimate of REINFORCE from an episode is, in expectation, the derivative of the expected
discounted return in each weight of the policy, for any horizon and any finite decision process, with absorbing transitions or
without. -/
theorem C94_reinforce_unbiased (P : Process S A) (hP : P.Proper) (pol : Vec d → S → A → ℝ)
    (diffLog : Vec d → S → A → Vec d) (hscore : IsScore pol diffLog) (γ b : ℝ) (h : ℕ) (θ : Vec d) (j : Fin d) :
    HasDerivAt (fun y => expected P (pol (Function.update θ j y)) h (ret γ))
      (expected P (pol θ) h (fun e => scoreSum (diffLog θ) e j * (ret γ e - b))) (θ j) := by
  refine (expected_deriv P pol diffLog hscore (ret γ) h θ j).congr_deriv ?_
  have : (fun e => scoreSum (diffLog θ) e j * (ret γ e - b)) =
      fun e => scoreSum (diffLog θ) e j * ret γ e + (-b) * scoreSum (diffLog θ) e j := by
    funext e
    ring
  rw [this, expected_add, expected_mul, expected_score P hP pol diffLog hscore]
  ring

/-- C94. With any fixed baselines for the time steps, the estimate of GPOMDP from an episode is, in expectation, the derivative of
the expectation of the sum, over the steps of the episode, of the discounted reward minus the baseline. Where episodes can end
early this is not the derivative of the expected return: the baselines are paid for each step that is made. -/
theorem C94_gpomdp_objective (P : Process S A) (hP : P.Proper) (pol : Vec d → S → A → ℝ)
    (diffLog : Vec d → S → A → Vec d) (hscore : IsScore pol diffLog) (γ : ℝ) (β : ℕ → ℝ) (h : ℕ) (θ : Vec d) (j : Fin d) :
    HasDerivAt (fun y => expected P (pol (Function.update θ j y)) h (fun e => ret γ e - ((List.range e.length).map β).sum))
      (expected P (pol θ) h (fun e => ((List.range e.length).map (fun t : ℕ =>
        scoreSum (diffLog θ) (e.take (t + 1)) j * (rewardAt γ e t - β t))).sum)) (θ j) := by
  have hs := hscore.scoreOf θ j
  have hx : along pol θ j (θ j) = pol θ := by simp [along]
  refine (expected_deriv P pol diffLog hscore _ h θ j).congr_deriv ?_
  have h1 := fun s => expect_gp P hP.trans_sum hs γ h s 0 1 β
  rw [hx] at h1
  have e2 : (fun e : List (Step S A) => ((List.range e.length).map (fun t : ℕ =>
      scoreSum (diffLog θ) (e.take (t + 1)) j * (rewardAt γ e t - β t))).sum) =
      gpEstimate (fun s a => diffLog θ s a j) γ 0 1 β := by
    funext e
    rw [gpEstimate_eq]
    congr 1
    refine List.map_congr_left (fun t _ => ?_)
    rw [sum1_eq, zero_add, one_mul]
  have e1 : (fun e : List (Step S A) => scoreSum (diffLog θ) e j * (ret γ e - ((List.range e.length).map β).sum)) =
      fun e => sum1 (fun s a => diffLog θ s a j) e * shifted γ 1 β e := by
    funext e
    rw [sum1_eq, shifted_eq, one_mul]
  simp only [expected, e1, e2, h1, zero_mul, zero_add]

/-- C94. Without baselines, the estimate of GPOMDP from an episode is, in expectation, the derivative of the expected discounted
return in each weight of the policy. -/
theorem C94_gpomdp_plain (P : Process S A) (hP : P.Proper) (pol : Vec d → S → A → ℝ)
    (diffLog : Vec d → S → A → Vec d) (hscore : IsScore pol diffLog) (γ : ℝ) (h : ℕ) (θ : Vec d) (j : Fin d) :
    HasDerivAt (fun y => expected P (pol (Function.update θ j y)) h (ret γ))
      (expected P (pol θ) h (fun e => ((List.range e.length).map (fun t : ℕ =>
        scoreSum (diffLog θ) (e.take (t + 1)) j * rewardAt γ e t)).sum)) (θ j) := by
  simpa using C94_gpomdp_objective P hP pol diffLog hscore γ (fun _ => 0) h θ j

/-- C94 (GPOMDP, partial). With any fixed baselines for the time steps, the estimate of GPOMDP from an episode is, in expectation,
the derivative of the expected discounted return in each weight of the policy, if no transition is absorbing. Missing: absorbing
transitions, see `C94_gpomdp_refuted`. -/
theorem C94_gpomdp_unbiased_partial (P : Process S A) (hP : P.Proper) (hno : ∀ s a s', P.absorbing s a s' = false)
    (pol : Vec d → S → A → ℝ) (diffLog : Vec d → S → A → Vec d) (hscore : IsScore pol diffLog) (γ : ℝ) (β : ℕ → ℝ) (h : ℕ)
    (θ : Vec d) (j : Fin d) :
    HasDerivAt (fun y => expected P (pol (Function.update θ j y)) h (ret γ))
      (expected P (pol θ) h (fun e => ((List.range e.length).map (fun t : ℕ =>
        scoreSum (diffLog θ) (e.take (t + 1)) j * (rewardAt γ e t - β t))).sum)) (θ j) := by
  have h1 := (C94_gpomdp_objective P hP pol diffLog hscore γ β h θ j).add_const ((List.range h).map β).sum
  refine h1.congr_of_eventuallyEq (Filter.Eventually.of_forall (fun y => ?_))
  show expected P (pol (Function.update θ j y)) h (ret γ) =
    expected P (pol (Function.update θ j y)) h (fun e => ret γ e - ((List.range e.length).map β).sum) + _
  have e1 : ∀ s, expect P (pol (Function.update θ j y)) h s (ret γ) =
      expect P (pol (Function.update θ j y)) h s (fun e => ret γ e - ((List.range e.length).map β).sum) +
        ((List.range h).map β).sum := by
    intro s
    rw [← expect_const P hP.trans_sum (pol (Function.update θ j y)) (hscore.2.1 _) h s ((List.range h).map β).sum, ← expect_add]
    exact expect_congr P hno _ h s _ _ (fun e he => by rw [he]; ring)
  simp only [expected, e1, mul_add, sum_add_distrib, ← sum_mul, hP.start_sum, one_mul]

/-- Two actions, the first with the probability given by the logistic function of the weight. -/
noncomputable def logistic (θ : Vec 1) (_ : S) (a : Bool) : ℝ :=
  if a then Real.exp (θ 0) / (1 + Real.exp (θ 0)) else 1 / (1 + Real.exp (θ 0))

/-- The gradient of the logarithm of its probabilities. -/
noncomputable def logisticScore (θ : Vec 1) (_ : S) (a : Bool) : Vec 1 :=
  fun _ => if a then 1 / (1 + Real.exp (θ 0)) else - Real.exp (θ 0) / (1 + Real.exp (θ 0))

omit [Fintype S] in
/-- Non-trivial instance: two actions with probabilities given by the logistic function of the weight. -/
theorem logistic_isScore : IsScore (S := S) logistic logisticScore := by
  unfold logistic logisticScore
  refine ⟨?_, ?_, ?_⟩
  · intro θ s a
    cases a <;> simp <;> positivity
  · intro θ s
    have : (1 + Real.exp (θ 0)) ≠ 0 := by positivity
    simp only [Fintype.sum_bool, if_true, Bool.false_eq_true, if_false]
    field_simp
    ring
  · intro θ s a j
    have hj : j = 0 := Subsingleton.elim _ _
    subst hj
    have hp : ∀ y : ℝ, (1 + Real.exp y) ≠ 0 := fun y => by positivity
    have hl : HasDerivAt (fun y => Real.log (1 + Real.exp y)) (Real.exp (θ 0) / (1 + Real.exp (θ 0))) (θ 0) := by
      have := ((Real.hasDerivAt_exp (θ 0)).const_add 1).log (hp _)
      simpa using this
    cases a
    · have e : (fun y => Real.log (if false = true then Real.exp ((Function.update θ 0 y) 0) / (1 + Real.exp ((Function.update θ 0 y) 0))
          else 1 / (1 + Real.exp ((Function.update θ 0 y) 0)))) = fun y => - Real.log (1 + Real.exp y) := by
        funext y
        simp [Real.log_inv]
      rw [e]
      refine hl.fun_neg.congr_deriv ?_
      simp [neg_div]
    · have e : (fun y => Real.log (if true = true then Real.exp ((Function.update θ 0 y) 0) / (1 + Real.exp ((Function.update θ 0 y) 0))
          else 1 / (1 + Real.exp ((Function.update θ 0 y) 0)))) = fun y => y - Real.log (1 + Real.exp y) := by
        funext y
        simp only [if_true, Function.update_self]
        rw [Real.log_div (Real.exp_ne_zero _) (hp _), Real.log_exp]
      rw [e]
      refine ((hasDerivAt_id (θ 0)).fun_sub hl).congr_deriv ?_
      have := hp (θ 0)
      simp only [if_true]
      field_simp
      ring

end Verif.Search
