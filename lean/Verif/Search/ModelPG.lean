/-
Model of /repo/mushroom_rl/algorithms/policy_search/policy_gradient: the abstract `PolicyGradient` and the agents REINFORCE,
GPOMDP and eNAC.

The policy is given by its score `diff_log`, as a function of its weights, of the state and of the action; the optimizer by its
state and its call. Weights are vectors with `d` components. Real numbers stand for floats; a quotient that is not finite is
replaced by zero in the code, which happens exactly when the denominator is zero.
-/
import Mathlib.Data.Real.Basic
import Mathlib.Data.Matrix.Basic
import Mathlib.Data.Matrix.Mul
import Mathlib.Algebra.BigOperators.Fin
import Mathlib.Algebra.Field.Basic

namespace Verif.Search

open Matrix

/-- Vectors of weights. -/
abbrev Vec (d : ℕ) := Fin d → ℝ

/-- A sample of the dataset, as unpacked by `_parse`: the next state and the absorbing flag are not used.
policy_gradient.py L117-136. -/
structure Step (S A : Type) where
  state : S
  action : A
  reward : ℝ
  last : Bool

/-- The methods that a subclass of `PolicyGradient` provides. `stepUpdate` is given `diff_log` of the policy with its current
weights and the attribute `df`, `episodeEnd` the attribute `J_episode`. `grad` is `_compute_gradient`: it may fail (`none`) and
it changes the attributes. policy_gradient.py L73-115. -/
structure Hooks (σ S A : Type) (d : ℕ) where
  init : σ → σ
  stepUpdate : (S → A → Vec d) → ℝ → σ → S → A → ℝ → σ
  episodeEnd : ℝ → σ → σ
  grad : List ℝ → σ → Option (Vec d) × σ

/-- The variables of the loop of `fit`: the attributes of the algorithm, `J`, `J_episode` and `df`. policy_gradient.py L35-38. -/
structure Loop (σ : Type) where
  alg : σ
  J : List ℝ
  jEp : ℝ
  df : ℝ

/-- The body of the loop over the dataset. policy_gradient.py L40-50. -/
def sampleStep {σ S A : Type} {d : ℕ} (h : Hooks σ S A d) (score : S → A → Vec d) (γ : ℝ) (c : Loop σ) (t : Step S A) : Loop σ :=
  let s := h.stepUpdate score c.df c.alg t.state t.action t.reward
  let j := c.jEp + c.df * t.reward
  if t.last then { alg := h.init (h.episodeEnd j s), J := c.J ++ [j], jEp := 0, df := 1 }
  else { alg := s, J := c.J, jEp := j, df := c.df * γ }

/-- The loop over the dataset, with the assignments before it. policy_gradient.py L35-50. -/
def parseDataset {σ S A : Type} {d : ℕ} (h : Hooks σ S A d) (score : S → A → Vec d) (γ : ℝ) (alg : σ) (D : List (Step S A)) :
    Loop σ :=
  D.foldl (sampleStep h score γ) { alg := h.init alg, J := [], jEp := 0, df := 1 }

/-- A policy gradient agent: the attributes of the algorithm, the weights of the policy and the state of the optimizer.
policy_gradient.py L14-32. -/
structure PG (σ : Type) (d : ℕ) (O : Type) where
  alg : σ
  theta : Vec d
  opt : O

/-- `PolicyGradient.fit` and `_update_parameters`. Returns the agent and the gradient given to the optimizer; no gradient if an
exception is raised (fewer than two complete episodes, or `_compute_gradient` fails), which leaves weights and optimizer
unchanged. policy_gradient.py L34-71. -/
def pgFit {σ S A O : Type} {d : ℕ} (h : Hooks σ S A d) (diffLog : Vec d → S → A → Vec d) (γ : ℝ)
    (opt : O → Vec d → Vec d → O × Vec d) (g : PG σ d O) (D : List (Step S A)) : PG σ d O × Option (Vec d) :=
  let c := parseDataset h (diffLog g.theta) γ g.alg D
  if 1 < c.J.length then
    match h.grad c.J c.alg with
    | (none, s) => ({ g with alg := s }, none)
    | (some grad, s) =>
      let r := opt g.opt g.theta grad
      ({ alg := s, theta := r.2, opt := r.1 }, some grad)
  else ({ g with alg := c.alg }, none)

/-- `np.mean(l, axis=0)` of a list of arrays. -/
noncomputable def vmean {d : ℕ} (l : List (Vec d)) : Vec d := fun j => (l.map (fun v => v j)).sum / l.length

/-- The quotient of the two means, with the entries that are not finite set to zero. reinforce.py L31-32, gpomdp.py L56-57,
pgpe.py L45-46. -/
noncomputable def baselineOf {d : ℕ} (num den : List (Vec d)) : Vec d :=
  fun j => if vmean den j = 0 then 0 else vmean num j / vmean den j

/-! ### reinforce.py -/

/-- The attributes of REINFORCE. reinforce.py L15-18. -/
structure Reinforce (d : ℕ) where
  sumLog : Vec d
  listSum : List (Vec d)
  num : List (Vec d)
  den : List (Vec d)

/-- A new agent; `sum_d_log_pi` is set by `_init_update` before it is used. reinforce.py L13-18. -/
def reinforceNew (d : ℕ) : Reinforce d := { sumLog := 0, listSum := [], num := [], den := [] }

/-- `REINFORCE._init_update`. reinforce.py L55-56. -/
def reinforceInit {d : ℕ} (s : Reinforce d) : Reinforce d := { s with sumLog := 0 }

/-- `REINFORCE._step_update`. reinforce.py L45-47. -/
def reinforceStep {S A : Type} {d : ℕ} (score : S → A → Vec d) (_df : ℝ) (s : Reinforce d) (x : S) (u : A) (_r : ℝ) :
    Reinforce d := { s with sumLog := s.sumLog + score x u }

/-- `REINFORCE._episode_end_update`. reinforce.py L49-53. -/
def reinforceEnd {d : ℕ} (jEp : ℝ) (s : Reinforce d) : Reinforce d :=
  { s with
    listSum := s.listSum ++ [s.sumLog]
    num := s.num ++ [fun j => s.sumLog j ^ 2 * jEp]
    den := s.den ++ [fun j => s.sumLog j ^ 2] }

/-- `REINFORCE._compute_gradient`. The list of scores is read at the positions of `J`. reinforce.py L30-43. -/
noncomputable def reinforceGrad {d : ℕ} (J : List ℝ) (s : Reinforce d) : Option (Vec d) × Reinforce d :=
  let baseline := baselineOf s.num s.den
  let grads := List.zipWith (fun v jEp => (fun j => v j * (jEp - baseline j) : Vec d)) s.listSum J
  (some (vmean grads), { s with listSum := [], num := [], den := [] })

/-- REINFORCE. reinforce.py. -/
noncomputable def reinforce (S A : Type) (d : ℕ) : Hooks (Reinforce d) S A d :=
  { init := reinforceInit, stepUpdate := reinforceStep, episodeEnd := reinforceEnd, grad := reinforceGrad }

/-! ### gpomdp.py -/

/-- The attributes of GPOMDP. gpomdp.py L16-26. -/
structure Gpomdp (d : ℕ) where
  sumLog : Vec d
  listSum : List (Vec d)
  listSumEp : List (List (Vec d))
  listReward : List ℝ
  listRewardEp : List (List ℝ)
  num : List (List (Vec d))
  den : List (List (Vec d))
  count : ℕ

/-- A new agent. gpomdp.py L16-26. -/
def gpomdpNew (d : ℕ) : Gpomdp d :=
  { sumLog := 0, listSum := [], listSumEp := [], listReward := [], listRewardEp := [], num := [], den := [], count := 0 }

/-- `GPOMDP._init_update`: `list_reward` is not cleared. gpomdp.py L99-102. -/
def gpomdpInit {d : ℕ} (s : Gpomdp d) : Gpomdp d := { s with sumLog := 0, listSum := [], count := 0 }

/-- `l[i].append(x)`, after `l.append(list())` if `i >= n`. gpomdp.py L83-88. -/
def appendAt {α : Type} (grow : Bool) (l : List (List α)) (i : ℕ) (x : α) : List (List α) :=
  (if grow then l ++ [[]] else l).modify i (· ++ [x])

/-- `GPOMDP._step_update`. gpomdp.py L72-90. -/
def gpomdpStep {S A : Type} {d : ℕ} (score : S → A → Vec d) (df : ℝ) (s : Gpomdp d) (x : S) (u : A) (r : ℝ) : Gpomdp d :=
  let sum : Vec d := s.sumLog + score x u
  let grow : Bool := decide (s.num.length ≤ s.count)
  { s with
    listReward := s.listReward ++ [df * r]
    sumLog := sum
    listSum := s.listSum ++ [sum]
    num := appendAt grow s.num s.count (fun j => df * r * sum j ^ 2)
    den := appendAt grow s.den s.count (fun j => sum j ^ 2)
    count := s.count + 1 }

/-- `GPOMDP._episode_end_update`. gpomdp.py L92-97. -/
def gpomdpEnd {d : ℕ} (_jEp : ℝ) (s : Gpomdp d) : Gpomdp d :=
  { s with
    listRewardEp := s.listRewardEp ++ [s.listReward]
    listReward := []
    listSumEp := s.listSumEp ++ [s.listSum]
    listSum := [] }

/-- The gradient of one episode. gpomdp.py L46-58. -/
noncomputable def gpomdpEpisode {d : ℕ} (s : Gpomdp d) (listSum : List (Vec d)) (listReward : List ℝ) : Vec d :=
  fun j => ((List.range listSum.length).map (fun t : ℕ =>
    listSum.getD t 0 j * (listReward.getD t 0 - baselineOf (s.num.getD t []) (s.den.getD t []) j))).sum

/-- `GPOMDP._compute_gradient`. The two lists of episodes have the same length. gpomdp.py L42-70. -/
noncomputable def gpomdpGrad {d : ℕ} (_J : List ℝ) (s : Gpomdp d) : Option (Vec d) × Gpomdp d :=
  (some (vmean (List.zipWith (gpomdpEpisode s) s.listSumEp s.listRewardEp)),
    { s with listRewardEp := [], listSumEp := [], num := [], den := [] })

/-- GPOMDP. gpomdp.py. -/
noncomputable def gpomdp (S A : Type) (d : ℕ) : Hooks (Gpomdp d) S A d :=
  { init := gpomdpInit, stepUpdate := gpomdpStep, episodeEnd := gpomdpEnd, grad := gpomdpGrad }

/-! ### enac.py -/

/-- The attributes of eNAC: the entries of `sum_grad_log_list` are the concatenations of the two parts. enac.py L22-26. -/
structure Enac (d k : ℕ) where
  sumLog : Vec d
  psiExt : Option (Vec k)
  list : List (Fin d ⊕ Fin k → ℝ)

/-- A new agent. enac.py L22-26. -/
def enacNew (d k : ℕ) : Enac d k := { sumLog := 0, psiExt := none, list := [] }

/-- `eNAC._init_update`. enac.py L59-61. -/
def enacInit {d k : ℕ} (s : Enac d k) : Enac d k := { s with psiExt := none, sumLog := 0 }

/-- `eNAC._step_update`. Without critic features the extension is the vector with the single entry one, which is the case
`k = 1` with constant features. enac.py L46-53. -/
def enacStep {S A : Type} {d k : ℕ} (phi : S → Vec k) (score : S → A → Vec d) (df : ℝ) (s : Enac d k) (x : S) (u : A) (_r : ℝ) :
    Enac d k :=
  { s with
    sumLog := s.sumLog + df • score x u
    psiExt := match s.psiExt with
      | none => some (phi x)
      | some p => some p }

/-- `eNAC._episode_end_update`; the extension has been set by a step. enac.py L55-57. -/
def enacEnd {d k : ℕ} (_jEp : ℝ) (s : Enac d k) : Enac d k :=
  { s with list := s.list ++ [Sum.elim s.sumLog (s.psiExt.getD 0)] }

/-- The matrix with the given rows. enac.py L37. -/
def rows {n : ℕ} {ι : Type} (l : List (ι → ℝ)) : Matrix (Fin n) ι ℝ := fun i => l.getD i 0

/-- `eNAC._compute_gradient`; `pinv` is `np.linalg.pinv`. The product is only defined (else `ValueError`) if there are as many
rows as returns. enac.py L35-44. -/
def enacGrad {d k : ℕ} (pinv : (n : ℕ) → Matrix (Fin n) (Fin d ⊕ Fin k) ℝ → Matrix (Fin d ⊕ Fin k) (Fin n) ℝ)
    (J : List ℝ) (s : Enac d k) : Option (Vec d) × Enac d k :=
  if s.list.length = J.length then
    (some (fun j => (pinv J.length (rows s.list) *ᵥ fun i => J.getD i 0) (Sum.inl j)), { s with list := [] })
  else (none, s)

/-- eNAC. enac.py. -/
def enac {S : Type} (A : Type) {d k : ℕ} (phi : S → Vec k)
    (pinv : (n : ℕ) → Matrix (Fin n) (Fin d ⊕ Fin k) ℝ → Matrix (Fin d ⊕ Fin k) (Fin n) ℝ) : Hooks (Enac d k) S A d :=
  { init := enacInit, stepUpdate := enacStep phi, episodeEnd := enacEnd, grad := enacGrad pinv }

end Verif.Search
