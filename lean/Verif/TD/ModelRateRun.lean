/-
Tabular agents inside `Core` that hold their learning rate parameter and use the random generator: `SARSA`, `ExpectedSARSA`, `SpeedyQLearning`,
`RQLearning` and `WeightedQLearning`.
-/
import Verif.TD.Model
import Verif.Policy.Model

namespace Verif.TD

noncomputable section

variable {S A : Type} [DecidableEq S] [DecidableEq A] [Fintype A] [Nonempty A]

/-- `TD.__init__`: the agent's tables and its learning rate `_alpha`. td.py L11-27. `log` is a ghost: what was drawn in each update. -/
structure Rated (G X : Type) where
  agent : G
  alpha : Policy.Param
  log : List (Option X)

/-- `_update` of an agent with its own learning rate parameter, called with the pair (`self._alpha(state, action)`, sarsa.py L21). Transitions for
which `asks` holds draw something; `after` is the action left for the next step. -/
def ratedRule {E G X : Type} (key : S → A → Policy.Index) (asks : Trans S A → Bool) (draw : E → Rated G X → Option A → Trans S A → E × X)
    (after : Option A → Option X → Option A) (f : ℝ → Option X → G → Trans S A → G) : Rule E S A (Rated G X) :=
  { start := id
    update := fun e r next t =>
      let x := if asks t then ((draw e r next t).1, some (draw e r next t).2) else (e, none)
      let α := r.alpha.call (key t.state t.action)
      (x.1, { agent := f α.2 x.2 r.agent t, alpha := α.1, log := r.log ++ [x.2] }, after next x.2) }

/-- `SARSA._update`: sarsa.py L15-22. The next action is drawn even if the episode ends. -/
def sarsaAgent {E : Type} (u : User E S A (Rated (Table S A) A)) (γ : ℝ) (key : S → A → Policy.Index) : Rule E S A (Rated (Table S A) A) :=
  ratedRule key (fun _ => true) (fun e r next t => agentDraw u e r next t.next) (fun _ x => x)
    (fun α x Q t => sarsa γ α Q t (x.getD (Classical.arbitrary A)))

/-- `ExpectedSARSA._update` with a policy that does not change: expected_sarsa.py L17-26. -/
def expectedAgent {E : Type} (γ : ℝ) (key : S → A → Policy.Index) (policy : S → A → ℝ) : Rule E S A (Rated (Table S A) Unit) :=
  ratedRule key (fun _ => false) (fun e _ _ _ => (e, ())) (fun next _ => next) (fun α _ Q t => expectedSarsa γ α Q t (policy t.next))

/-- `SpeedyQLearning._update`: speedy_q_learning.py L22-36. -/
def speedyAgent {E : Type} (γ : ℝ) (key : S → A → Policy.Index) : Rule E S A (Rated (Speedy S A) Unit) :=
  ratedRule key (fun _ => false) (fun e _ _ _ => (e, ())) (fun next _ => next) (fun α _ g t => speedyQ γ α g t)

/-- `RQLearning._update` with a constant `delta` and with `off_policy`: rq_learning.py L51-66, L78-79. -/
def rqOffAgent {E : Type} (γ delta : ℝ) (key : S → A → Policy.Index) : Rule E S A (Rated (RQ S A) Unit) :=
  ratedRule key (fun _ => false) (fun e _ _ _ => (e, ())) (fun next _ => next)
    (fun α _ g t => rqLearning γ α (α * delta) true g t (Classical.arbitrary A))

/-- `RQLearning._update` with a constant `delta` and without `off_policy`: rq_learning.py L51-66, L80-83. The next action is drawn unless the episode
ends. -/
def rqOnAgent {E : Type} (u : User E S A (Rated (RQ S A) A)) (γ delta : ℝ) (key : S → A → Policy.Index) : Rule E S A (Rated (RQ S A) A) :=
  ratedRule key (fun t => !t.absorbing) (fun e r next t => agentDraw u e r next t.next) (fun next x => x.orElse (fun _ => next))
    (fun α x g t => rqLearning γ α (α * delta) false g t (x.getD (Classical.arbitrary A)))

/-- `WeightedQLearning._update` with `precision = N`: weighted_q_learning.py L49-71, L75-100. `normals` draws the standard normal numbers behind
`np.random.normal`, unless the episode ends. -/
def weightedAgent {E : Type} {N : ℕ} (γ : ℝ) (argmax : (A → ℝ) → A) (key : S → A → Policy.Index) (normals : E → E × (Fin N → A → ℝ)) :
    Rule E S A (Rated (Weighted S A) (Fin N → A → ℝ)) :=
  ratedRule key (fun t => !t.absorbing) (fun e _ _ _ => normals e) (fun next _ => next)
    (fun α x g t => weightedQ γ α argmax (List.ofFn (x.getD 0)) g t)

end

end Verif.TD
