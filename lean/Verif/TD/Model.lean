/-
Model of the temporal-difference agents for finite problems, of the eligibility traces, of the two linear SARSA(lambda)
agents, and of these agents inside `Core`.

Files: mushroom_rl/algorithms/value/td/*.py, mushroom_rl/rl_utils/eligibility_trace.py,
mushroom_rl/approximators/table.py, mushroom_rl/approximators/ensemble.py (predict), mushroom_rl/core/agent.py.

Floating point numbers are real numbers. States and actions are the indices of a table (`Discrete` spaces); a table is a
function of state and action. The value returned by the learning rate parameter and all random choices are arguments of
the update; inside `Core` they come from an arbitrary world state.
-/
import Verif.Core.Lemmas3
import Mathlib.Data.Real.Basic
import Mathlib.Analysis.SpecialFunctions.Pow.Real
import Mathlib.Data.Finset.Max
import Mathlib.Order.ConditionallyCompleteLattice.Finset
import Mathlib.Algebra.BigOperators.Fin

namespace Verif.TD

noncomputable section

variable {S A : Type} [DecidableEq S] [DecidableEq A] [Fintype A] [Nonempty A]

/-- approximators/table.py: `Table` of shape (states, actions). -/
abbrev Table (S A : Type) := S → A → ℝ

/-- `Table.__setitem__`: table.py L35-41. -/
def Table.set (Q : Table S A) (s : S) (a : A) (v : ℝ) : Table S A :=
  fun s' a' => if s' = s ∧ a' = a then v else Q s' a'

/-- `np.max(self.Q[state, :])`. -/
def rowMax (q : A → ℝ) : ℝ := Finset.univ.sup' Finset.univ_nonempty q

/-- A transition as unpacked by `TD.fit`: td.py L29-33. -/
structure Trans (S A : Type) where
  state : S
  action : A
  reward : ℝ
  next : S
  absorbing : Bool

/-- `QLearning._update`: q_learning.py L18-24. -/
def qLearning (γ α : ℝ) (Q : Table S A) (t : Trans S A) : Table S A :=
  let q := Q t.state t.action
  let qNext := if !t.absorbing then rowMax (Q t.next) else 0
  Q.set t.state t.action (q + α * (t.reward + γ * qNext - q))

/-- `SARSA._update`: sarsa.py L15-22, for the drawn next action. -/
def sarsa (γ α : ℝ) (Q : Table S A) (t : Trans S A) (nextAction : A) : Table S A :=
  let q := Q t.state t.action
  let qNext := if !t.absorbing then Q t.next nextAction else 0
  Q.set t.state t.action (q + α * (t.reward + γ * qNext - q))

/-- `ExpectedSARSA._update`: expected_sarsa.py L17-26; `probs` is `self.policy(next_state)`. -/
def expectedSarsa (γ α : ℝ) (Q : Table S A) (t : Trans S A) (probs : A → ℝ) : Table S A :=
  let q := Q t.state t.action
  let qNext := if !t.absorbing then ∑ a, Q t.next a * probs a else 0
  Q.set t.state t.action (q + α * (t.reward + γ * qNext - q))

/-- An ensemble of tables: ensemble.py. -/
abbrev Tables (S A : Type) := Nat → Table S A

def Tables.set (Qs : Tables S A) (i : Nat) (Q : Table S A) : Tables S A := fun j => if j = i then Q else Qs j

/-- `DoubleQLearning._update`: double_q_learning.py L28-45. `first` is the outcome of `np.random.uniform() < .5`; `pick`
is the choice among the maximising actions (`np.random.choice(np.argwhere(q_ss == max_q).ravel())`). -/
def doubleQ (γ α : ℝ) (Qs : Tables S A) (t : Trans S A) (first : Bool) (pick : A) : Tables S A :=
  let i := if first then 0 else 1
  let q := Qs i t.state t.action
  let qNext := if !t.absorbing then Qs (1 - i) t.next pick else 0
  Qs.set i ((Qs i).set t.state t.action (q + α * (t.reward + γ * qNext - q)))

/-- `Ensemble.predict(state)` with `prediction='min'` over `n + 1` tables: ensemble.py L74-103. -/
def predictMin (n : Nat) (Qs : Tables S A) (s : S) (a : A) : ℝ :=
  (Finset.range (n + 1)).inf' ⟨0, by simp⟩ (fun i => Qs i s a)

/-- `MaxminQLearning._update`: maxmin_q_learning.py L32-46, with `n + 1` tables; `i` is the random table. -/
def maxminQ (n : Nat) (γ α : ℝ) (Qs : Tables S A) (t : Trans S A) (i : Nat) : Tables S A :=
  let q := Qs i t.state t.action
  let qNext := if !t.absorbing then rowMax (predictMin n Qs t.next) else 0
  Qs.set i ((Qs i).set t.state t.action (q + α * (t.reward + γ * qNext - q)))

/-- `SpeedyQLearning`: the table and `old_q`. -/
structure Speedy (S A : Type) where
  Q : Table S A
  oldQ : Table S A

/-- `SpeedyQLearning._update`: speedy_q_learning.py L22-36. -/
def speedyQ (γ α : ℝ) (g : Speedy S A) (t : Trans S A) : Speedy S A :=
  let maxCur := if !t.absorbing then rowMax (g.Q t.next) else 0
  let maxOld := if !t.absorbing then rowMax (g.oldQ t.next) else 0
  let targetCur := t.reward + γ * maxCur
  let targetOld := t.reward + γ * maxOld
  let q := g.Q t.state t.action
  { Q := g.Q.set t.state t.action (q + α * (targetOld - q) + (1 - α) * (targetCur - targetOld)), oldQ := g.Q }

/-- `WeightedQLearning`: its tables. -/
structure Weighted (S A : Type) where
  Q : Table S A
  Q2 : Table S A
  nUpdates : Table S A
  sigma : Table S A
  w1 : Table S A
  w2 : Table S A

/-- `WeightedQLearning.__init__`: weighted_q_learning.py L41-47. -/
def weightedInit : Weighted S A :=
  { Q := fun _ _ => 0, Q2 := fun _ _ => 0, nUpdates := fun _ _ => 0, sigma := fun _ _ => 10 ^ 10, w1 := fun _ _ => 0
    w2 := fun _ _ => 0 }

/-- `_next_q` with `sampling=True`: weighted_q_learning.py L75-100. `noise` are the standard normal samples behind
`np.random.normal` (one vector per sample, `precision` of them) and `argmax` is `np.argmax`. `sampling=False` raises
NotImplementedError and is not modelled. -/
def weightedNextQ (argmax : (A → ℝ) → A) (noise : List (A → ℝ)) (g : Weighted S A) (s : S) : ℝ :=
  let maxIdx := noise.map (fun z => argmax (fun a => g.Q s a + g.sigma s a * z a))
  let w := fun a => (maxIdx.count a : ℝ) / (noise.length : ℝ)
  ∑ a, w a * g.Q s a

/-- `WeightedQLearning._update`: weighted_q_learning.py L49-71. -/
def weightedQ (γ α : ℝ) (argmax : (A → ℝ) → A) (noise : List (A → ℝ)) (g : Weighted S A) (t : Trans S A) :
    Weighted S A :=
  let s := t.state
  let a := t.action
  let qNext := if !t.absorbing then weightedNextQ argmax noise g t.next else 0
  let target := t.reward + γ * qNext
  let Q := g.Q.set s a (g.Q s a + α * (target - g.Q s a))
  let Q2 := g.Q2.set s a (g.Q2 s a + α * (target ^ 2 - g.Q2 s a))
  let nUpdates := g.nUpdates.set s a (g.nUpdates s a + 1)
  let w2 := g.w2.set s a ((1 - α) ^ 2 * g.w2 s a + α ^ 2)
  let w1 := g.w1.set s a ((1 - α) * g.w1 s a + α)
  let sigma :=
    if 1 < nUpdates s a then
      let var := Q2 s a - Q s a ^ 2
      let w := w2 s a / (w1 s a * 2 + 1 / 10 ^ 10)
      g.sigma.set s a (Real.sqrt (max (var * w) (1 / 10 ^ 10)))
    else g.sigma
  { Q := Q, Q2 := Q2, nUpdates := nUpdates, sigma := sigma, w1 := w1, w2 := w2 }

/-- `RQLearning`: its tables. -/
structure RQ (S A : Type) where
  Q : Table S A
  Qt : Table S A
  Rt : Table S A

/-- `RQLearning._update`: rq_learning.py L51-66. `β` is the rate of the second estimate (`alpha * delta(..)` or
`beta(..)`), `offPolicy` selects the maximum (L78-79), otherwise `pick` is the drawn next action (L80-83). -/
def rqLearning (γ α β : ℝ) (offPolicy : Bool) (g : RQ S A) (t : Trans S A) (pick : A) : RQ S A :=
  let s := t.state
  let a := t.action
  let Rt := g.Rt.set s a (g.Rt s a + α * (t.reward - g.Rt s a))
  let Qt :=
    if !t.absorbing then
      let qNext := if offPolicy then rowMax (g.Q t.next) else g.Q t.next pick
      g.Qt.set s a (g.Qt s a + β * (qNext - g.Qt s a))
    else g.Qt
  { Q := g.Q.set s a (Rt s a + γ * Qt s a), Qt := Qt, Rt := Rt }

/-- `RLearning`: the table and the average reward. -/
structure RL (S A : Type) where
  Q : Table S A
  rho : ℝ

/-- `RLearning._update`: r_learning.py L32-43. -/
def rLearning (α β : ℝ) (g : RL S A) (t : Trans S A) : RL S A :=
  let s := t.state
  let a := t.action
  let q := g.Q s a
  let qNext := if !t.absorbing then rowMax (g.Q t.next) else 0
  let qNew := q + α * (t.reward - g.rho + qNext - q)
  let Q := g.Q.set s a qNew
  let qMax := rowMax (Q s)
  { Q := Q, rho := if qNew = qMax then g.rho + β * (t.reward + qNext - qMax - g.rho) else g.rho }

/-! ### Eligibility traces -/

inductive TraceKind where
  | replacing
  | accumulating
deriving DecidableEq

/-- `ReplacingTrace.update`, `AccumulatingTrace.update`: eligibility_trace.py L32-33, L44-45. -/
def traceUpdate (k : TraceKind) (e : Table S A) (s : S) (a : A) : Table S A :=
  match k with
  | .replacing => e.set s a 1
  | .accumulating => e.set s a (e s a + 1)

/-- State of `SARSALambda` and `QLambda`: the table and the trace `e`. -/
structure Lam (S A : Type) where
  Q : Table S A
  e : Table S A

/-- `episode_start`: sarsa_lambda.py L44-47, q_lambda.py L47-50, eligibility_trace.py L29-30, L41-42. -/
def lamStart (g : Lam S A) : Lam S A := { g with e := fun _ _ => 0 }

/-- The common part of the updates: sarsa_lambda.py L38-42, q_lambda.py L41-45. -/
def lamUpdate (k : TraceKind) (γ lam α delta : ℝ) (g : Lam S A) (s : S) (a : A) : Lam S A :=
  let e := traceUpdate k g.e s a
  { Q := fun s' a' => g.Q s' a' + α * delta * e s' a', e := fun s' a' => e s' a' * (γ * lam) }

/-- `SARSALambda._update`: sarsa_lambda.py L32-42, for the drawn next action. -/
def sarsaLambda (k : TraceKind) (γ lam α : ℝ) (g : Lam S A) (t : Trans S A) (nextAction : A) : Lam S A :=
  let q := g.Q t.state t.action
  let qNext := if !t.absorbing then g.Q t.next nextAction else 0
  lamUpdate k γ lam α (t.reward + γ * qNext - q) g t.state t.action

/-- `QLambda._update`: q_lambda.py L36-45. -/
def qLambda (k : TraceKind) (γ lam α : ℝ) (g : Lam S A) (t : Trans S A) : Lam S A :=
  let q := g.Q t.state t.action
  let qNext := if !t.absorbing then rowMax (g.Q t.next) else 0
  lamUpdate k γ lam α (t.reward + γ * qNext - q) g t.state t.action

/-! ### Linear SARSA(lambda) -/

/-- `LinearApproximator.predict`: the value of a state-action pair is `w · phi(s, a)`. -/
def dot {d : Nat} (w x : Fin d → ℝ) : ℝ := ∑ i, w i * x i

/-- State of `TrueOnlineSARSALambda`: weights, trace and `_q_old`. -/
structure TrueOnline (d : Nat) where
  w : Fin d → ℝ
  e : Fin d → ℝ
  qOld : Option ℝ

/-- `TrueOnlineSARSALambda.episode_start`: true_online_sarsa_lambda.py L64-68. -/
def trueOnlineStart {d : Nat} (g : TrueOnline d) : TrueOnline d := { g with e := fun _ => 0, qOld := none }

/-- `TrueOnlineSARSALambda._update`: true_online_sarsa_lambda.py L39-62. `phi` are the features of the visited pair, `phi'` those
of the next state with the drawn action. -/
def trueOnline {d : Nat} (γ lam α : ℝ) (g : TrueOnline d) (phi phi' : Fin d → ℝ) (reward : ℝ) (absorbing : Bool) :
    TrueOnline d :=
  let q := dot g.w phi
  let qOld := match g.qOld with
    | none => q
    | some v => v
  let ePhi := dot g.e phi
  let e := fun i => γ * lam * g.e i + α * (1 - γ * lam * ePhi) * phi i
  let qNext := if !absorbing then dot g.w phi' else 0
  let delta := reward + γ * qNext - qOld
  { w := fun i => g.w i + (delta * e i + α * (qOld - q) * phi i), e := e, qOld := some qNext }

/-- State of `SARSALambdaContinuous` with a linear approximator, whose gradient (`Q.diff`) is the feature vector. -/
structure LinLam (d : Nat) where
  w : Fin d → ℝ
  e : Fin d → ℝ

/-- `SARSALambdaContinuous.episode_start`: sarsa_lambda_continuous.py L50-53. -/
def linLamStart {d : Nat} (g : LinLam d) : LinLam d := { g with e := fun _ => 0 }

/-- `SARSALambdaContinuous._update`: sarsa_lambda_continuous.py L34-48. -/
def linLam {d : Nat} (γ lam α : ℝ) (g : LinLam d) (phi phi' : Fin d → ℝ) (reward : ℝ) (absorbing : Bool) : LinLam d :=
  let q := dot g.w phi
  let e := fun i => γ * lam * g.e i + phi i
  let qNext := if !absorbing then dot g.w phi' else 0
  let delta := reward + γ * qNext - q
  { w := fun i => g.w i + α * delta * e i, e := e }

/-! ### Inside `Core` -/

/-- The rest of the program, on a world `E`: environment, policy (which sees the learned table through `G`), learning
rate, preprocessors of the core, callbacks. TD agents are not episodic and their policies are stateless. -/
structure User (E S A G : Type) where
  horizon : Option Nat
  envReset : E → Option S → E × S
  envStep : E → A → E × (S × ℝ × Bool)
  draw : E → G → S → E × A
  corePre : List (Core.Preproc E S)
  agentPre : List (E → S → S)
  callbackStep : E → G → Core.Sample S A ℝ Unit → E
  callbacksFit : List (E → G → List (Core.Sample S A ℝ Unit) → E)

/-- A TD algorithm: `episode_start` and `_update`. The update gets the pending `next_action` and returns the new one. -/
structure Rule (E S A G : Type) where
  start : G → G
  update : E → G → Option A → Trans S A → E × G × Option A

def toTrans (s : Core.Sample S A ℝ Unit) : Trans S A :=
  { state := s.state, action := s.action, reward := s.reward, next := s.nextState, absorbing := s.absorbing }

/-- A TD agent as a user of `Core` (Verif.Core). `TD.fit`: td.py L29-33; a dataset whose length is not one makes the
assertion of L30 fail; the model leaves the agent as it is in that case, and the theorems are about
`n_steps_per_fit = 1`, where it cannot happen. -/
def tdSys {E G : Type} (u : User E S A G) (rule : Rule E S A G) : Core.Sys (E × G) S A ℝ Unit Unit :=
  { horizon := u.horizon
    isEpisodic := false
    envReset := fun w x => let (e, s) := u.envReset w.1 x; ((e, w.2), s)
    episodeStart := fun w _ => ((w.1, rule.start w.2), none, ())
    envStep := fun w a => let (e, r) := u.envStep w.1 a; ((e, w.2), r)
    policyDraw := fun w s _ => let (e, a) := u.draw w.1 w.2 s; ((e, w.2), a, none)
    fit := fun w next rows _ => match rows with
      | [row] => let (e, g, next) := rule.update w.1 w.2 next (toTrans row); ((e, g), next)
      | _ => (w, next)
    corePre := u.corePre.map (fun p =>
      { update := fun w x => (p.update w.1 x, w.2), apply := fun w x => p.apply w.1 x })
    agentPre := u.agentPre.map (fun f => fun w x => f w.1 x)
    callbackStep := fun w s => (u.callbackStep w.1 w.2 s, w.2)
    callbacksFit := u.callbacksFit.map (fun f => fun w b => (f w.1 w.2 b, w.2)) }

/-- `Agent.draw_action` as called by the update rule (agent.py L94-104): the pending action if there is one, else the
policy is asked. -/
def agentDraw {E G : Type} (u : User E S A G) (e : E) (g : G) (pending : Option A) (s : S) : E × A :=
  match pending with
  | some a => (e, a)
  | none => u.draw e g (u.agentPre.foldl (fun x f => f e x) s)

/-- QLearning as an agent; `rate` is the learning rate parameter. -/
def qLearningRule {E : Type} (γ : ℝ) (rate : E → S → A → E × ℝ) : Rule E S A (Table S A) :=
  { start := id
    update := fun e Q next t =>
      let (e, α) := rate e t.state t.action
      (e, qLearning γ α Q t, next) }

/-- SARSA as an agent: `self.next_action` is left for the next step. -/
def sarsaRule {E : Type} (u : User E S A (Table S A)) (γ : ℝ) (rate : E → S → A → E × ℝ) : Rule E S A (Table S A) :=
  { start := id
    update := fun e Q next t =>
      let (e, a') := agentDraw u e Q next t.next
      let (e, α) := rate e t.state t.action
      (e, sarsa γ α Q t a', some a') }

/-- SARSALambda as an agent; `lamPar` is the parameter `_lambda`. -/
def sarsaLambdaRule {E : Type} (u : User E S A (Lam S A)) (k : TraceKind) (γ : ℝ) (rate : E → S → A → E × ℝ)
    (lamPar : E → E × ℝ) : Rule E S A (Lam S A) :=
  { start := lamStart
    update := fun e g next t =>
      let (e, a') := agentDraw u e g next t.next
      let (e, α) := rate e t.state t.action
      let (e, lam) := lamPar e
      (e, sarsaLambda k γ lam α g t a', some a') }

/-- QLambda as an agent. -/
def qLambdaRule {E : Type} (k : TraceKind) (γ : ℝ) (rate : E → S → A → E × ℝ)
    (lamPar : E → E × ℝ) : Rule E S A (Lam S A) :=
  { start := lamStart
    update := fun e g next t =>
      let (e, α) := rate e t.state t.action
      let (e, lam) := lamPar e
      (e, qLambda k γ lam α g t, next) }

end

end Verif.TD
