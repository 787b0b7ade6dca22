/-
The linear SARSA(lambda) agents and ExpectedSARSA as users of `Core`, and users whose parts see an agent through its action values only.

Files: mushroom_rl/algorithms/value/td/sarsa_lambda_continuous.py, true_online_sarsa_lambda.py, expected_sarsa.py, mushroom_rl/core/agent.py.
-/
import Verif.TD.Props

namespace Verif.TD

noncomputable section

variable {S A : Type} [DecidableEq S] [DecidableEq A] [Fintype A] [Nonempty A]

/-- A program for agents of another kind that is the same but for the agent: policy and callbacks look at the action values, that is, at what `Q.predict` or `Q[...]` returns
(td_policy.py L63, L82, L139: the policies ask the approximator for its values and for nothing else). -/
def viewing {E G : Type} (u : User E S A (Table S A)) (read : G → Table S A) : User E S A G :=
  { horizon := u.horizon
    envReset := u.envReset
    envStep := u.envStep
    draw := fun e g s => u.draw e (read g) s
    corePre := u.corePre
    agentPre := u.agentPre
    callbackStep := fun e g s => u.callbackStep e (read g) s
    callbacksFit := u.callbacksFit.map fun f e g b => f e (read g) b }

/-- `LinearApproximator.predict(state, action)` for the weights of an agent. -/
def linValues {d : ℕ} (phi : S → A → Fin d → ℝ) (w : Fin d → ℝ) : Table S A := fun s a => dot w (phi s a)

/-- SARSALambdaContinuous as an agent: sarsa_lambda_continuous.py L34-53. The learning rate is read before the next action is drawn (L37, L41). `lam` is a constant parameter. -/
def linLamRule {E : Type} {d : ℕ} (u : User E S A (LinLam d)) (phi : S → A → Fin d → ℝ) (γ lam : ℝ) (rate : E → S → A → E × ℝ) : Rule E S A (LinLam d) :=
  { start := linLamStart
    update := fun e g next t =>
      let (e, α) := rate e t.state t.action
      let (e, a') := agentDraw u e g next t.next
      (e, linLam γ lam α g (phi t.state t.action) (phi t.next a') t.reward t.absorbing, some a') }

/-- TrueOnlineSARSALambda as an agent: true_online_sarsa_lambda.py L39-68. The learning rate is read before the next action is drawn (L47, L53). `lam` is a constant parameter. -/
def trueOnlineRule {E : Type} {d : ℕ} (u : User E S A (TrueOnline d)) (phi : S → A → Fin d → ℝ) (γ lam : ℝ) (rate : E → S → A → E × ℝ) : Rule E S A (TrueOnline d) :=
  { start := trueOnlineStart
    update := fun e g next t =>
      let (e, α) := rate e t.state t.action
      let (e, a') := agentDraw u e g next t.next
      (e, trueOnline γ lam α g (phi t.state t.action) (phi t.next a') t.reward t.absorbing, some a') }

/-- ExpectedSARSA as an agent: expected_sarsa.py L17-26. `probs` are the probabilities of the actions, `self.policy(next_state)`. -/
def expectedRule {E : Type} (γ : ℝ) (probs : E → Table S A → S → A → ℝ) (rate : E → S → A → E × ℝ) : Rule E S A (Table S A) :=
  { start := id
    update := fun e Q next t =>
      let p := probs e Q t.next
      let (e, α) := rate e t.state t.action
      (e, expectedSarsa γ α Q t p, next) }

end

end Verif.TD
