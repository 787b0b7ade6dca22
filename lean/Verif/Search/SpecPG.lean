/-
Specification for the policy gradient agents (C57, C94): episodes, returns, scores, the baseline, the gradients in the batch and
the exact gradient of the expected return.
-/
import Verif.Search.ModelPG
import Mathlib.Analysis.Calculus.Deriv.Basic

namespace Verif.Search

open Matrix

/-- An episode: only its final sample is flagged as the last one. -/
def IsEpisode {S A : Type} (e : List (Step S A)) : Prop := ∃ b t, e = b ++ [t] ∧ t.last = true ∧ ∀ x ∈ b, x.last = false

/-- The dataset consists of these complete episodes, followed by the beginning of an episode that is not finished. -/
def Splits {S A : Type} (D : List (Step S A)) (eps : List (List (Step S A))) (tail : List (Step S A)) : Prop :=
  D = eps.flatten ++ tail ∧ (∀ e ∈ eps, IsEpisode e) ∧ ∀ x ∈ tail, x.last = false

/-- The discounted return. -/
def ret {S A : Type} (γ : ℝ) : List (Step S A) → ℝ
  | [] => 0
  | t :: l => t.reward + γ * ret γ l

/-- The discounted reward at time `t`. -/
def rewardAt {S A : Type} (γ : ℝ) (e : List (Step S A)) (t : ℕ) : ℝ := γ ^ t * ((e[t]?).map (·.reward)).getD 0

/-- The sum of the scores of all the actions. -/
def scoreSum {S A : Type} {d : ℕ} (score : S → A → Vec d) (e : List (Step S A)) : Vec d :=
  (e.map (fun t => score t.state t.action)).sum

/-- The discounted sum of the scores. -/
def discScore {S A : Type} {d : ℕ} (γ : ℝ) (score : S → A → Vec d) : List (Step S A) → Vec d
  | [] => 0
  | t :: l => score t.state t.action + γ • discScore γ score l

/-- The average of a function over a list. -/
noncomputable def average {α : Type} (l : List α) (f : α → ℝ) : ℝ := (l.map f).sum / l.length

/-- The average of the values, weighted by the squared scores; zero if all the scores vanish. The list holds pairs of a score and
a value. -/
noncomputable def bestBaseline (l : List (ℝ × ℝ)) : ℝ :=
  if (l.map (fun p => p.1 ^ 2)).sum = 0 then 0 else (l.map (fun p => p.1 ^ 2 * p.2)).sum / (l.map (fun p => p.1 ^ 2)).sum

/-- The gradient of REINFORCE for a batch of episodes. -/
noncomputable def reinforceSpec {S A : Type} {d : ℕ} (score : S → A → Vec d) (γ : ℝ) (eps : List (List (Step S A))) : Vec d :=
  fun j => average eps (fun e =>
    scoreSum score e j * (ret γ e - bestBaseline (eps.map (fun e => (scoreSum score e j, ret γ e)))))

/-- The gradient of GPOMDP for a batch of episodes: the reward at time `t` is weighted by the scores of the actions up to `t`.
The baseline for time `t` is computed from the episodes of `pool` that reach `t`. -/
noncomputable def gpomdpSpec {S A : Type} {d : ℕ} (score : S → A → Vec d) (γ : ℝ) (eps pool : List (List (Step S A))) : Vec d :=
  fun j => average eps (fun e => ((List.range e.length).map (fun t : ℕ =>
    scoreSum score (e.take (t + 1)) j * (rewardAt γ e t - bestBaseline
      ((pool.filter (fun e => t < e.length)).map (fun e => (scoreSum score (e.take (t + 1)) j, rewardAt γ e t)))))).sum)

/-- The row of the regression of eNAC for an episode: the discounted sum of the scores, and the features of its first state. -/
def enacRow {S A : Type} {d k : ℕ} (phi : S → Vec k) (γ : ℝ) (score : S → A → Vec d) (e : List (Step S A)) : Fin d ⊕ Fin k → ℝ :=
  Sum.elim (discScore γ score e) ((e.head?.map (fun t => phi t.state)).getD 0)

/-- The gradient of eNAC: the part for the scores of the weights with which the rows are regressed on the returns. -/
def enacSpec {S A : Type} {d k : ℕ} (phi : S → Vec k) (score : S → A → Vec d) (γ : ℝ)
    (pinv : (n : ℕ) → Matrix (Fin n) (Fin d ⊕ Fin k) ℝ → Matrix (Fin d ⊕ Fin k) (Fin n) ℝ) (eps : List (List (Step S A))) : Vec d :=
  fun j => (pinv eps.length (fun i => (eps.map (enacRow phi γ score)).getD i 0) *ᵥ
    fun i => (eps.map (ret γ)).getD i 0) (Sum.inl j)

/-- The agents that can be reached from a new one by successful fits with the allowed datasets. -/
inductive Reach {σ S A O : Type} {d : ℕ} (h : Hooks σ S A d) (diffLog : Vec d → S → A → Vec d) (γ : ℝ)
    (opt : O → Vec d → Vec d → O × Vec d) (new : σ) (allowed : List (Step S A) → Prop) : PG σ d O → Prop
  | new (theta : Vec d) (o : O) : Reach h diffLog γ opt new allowed { alg := new, theta := theta, opt := o }
  | fit (g g' : PG σ d O) (D : List (Step S A)) (grad : Vec d) : Reach h diffLog γ opt new allowed g → allowed D →
      pgFit h diffLog γ opt g D = (g', some grad) → Reach h diffLog γ opt new allowed g'

/-- What a fit does: with at most one complete episode it fails, else the optimizer is applied to the specified gradient. -/
def FitsWith {σ S A O : Type} {d : ℕ} (h : Hooks σ S A d) (diffLog : Vec d → S → A → Vec d) (γ : ℝ)
    (opt : O → Vec d → Vec d → O × Vec d) (g : PG σ d O) (D : List (Step S A)) (n : ℕ) (grad : Vec d) : Prop :=
  (n ≤ 1 → (pgFit h diffLog γ opt g D).2 = none ∧ (pgFit h diffLog γ opt g D).1.theta = g.theta) ∧
  (1 < n → (pgFit h diffLog γ opt g D).2 = some grad ∧
    (pgFit h diffLog γ opt g D).1.theta = (opt g.opt g.theta grad).2 ∧
    (pgFit h diffLog γ opt g D).1.opt = (opt g.opt g.theta grad).1)

/-! ### The exact gradient -/

/-- A finite decision process: the probabilities of the first states and of the transitions, the rewards, and the transitions that
end the episode. -/
structure Process (S A : Type) where
  start : S → ℝ
  trans : S → A → S → ℝ
  reward : S → A → S → ℝ
  absorbing : S → A → S → Bool

/-- All the probabilities are non-negative and add up to one. -/
structure Process.Proper {S A : Type} [Fintype S] (P : Process S A) : Prop where
  start_nonneg : ∀ s, 0 ≤ P.start s
  start_sum : ∑ s, P.start s = 1
  trans_nonneg : ∀ s a s', 0 ≤ P.trans s a s'
  trans_sum : ∀ s a, ∑ s', P.trans s a s' = 1

/-- The sample of a transition when `h` more steps are allowed: the last of its episode if the transition is absorbing or no more
steps are allowed. -/
def Process.sample {S A : Type} (P : Process S A) (h : ℕ) (s : S) (a : A) (s' : S) : Step S A :=
  { state := s, action := a, reward := P.reward s a s', last := P.absorbing s a s' || h == 0 }

/-- The expectation, over the episodes of at most `h` steps that start in `s` and in which the actions are drawn with the
probabilities `pol`, of a function of the episode. -/
def expect {S A : Type} [Fintype S] [Fintype A] (P : Process S A) (pol : S → A → ℝ) : ℕ → S → (List (Step S A) → ℝ) → ℝ
  | 0, _, F => F []
  | h + 1, s, F => ∑ a, pol s a * ∑ s', P.trans s a s' *
      if P.absorbing s a s' then F [P.sample h s a s'] else expect P pol h s' (fun e => F (P.sample h s a s' :: e))

/-- The expectation of a function of the episode, with horizon `h`, when the first state is drawn too. -/
def expected {S A : Type} [Fintype S] [Fintype A] (P : Process S A) (pol : S → A → ℝ) (h : ℕ) (F : List (Step S A) → ℝ) : ℝ :=
  ∑ s, P.start s * expect P pol h s F

end Verif.Search
