/-
Model of the classic actor-critic agents.

Files: mushroom_rl/algorithms/actor_critic/classic_actor_critic/{copdac_q,stochastic_ac}.py.

Floating point numbers are real numbers. The learning rates and the decay are the values the scheduled parameters return at that step
(one argument per call). The features `psi` are an arbitrary function of the state (the identity if `value_function_features` is
None). The policy is given by its score `diff_log`, the deterministic actor by its output and its Jacobian, as functions of the
weights. The value function is the linear regressor on the features, see Verif.Approx.
-/
import Verif.TD.Lemmas
import Mathlib.LinearAlgebra.Matrix.DotProduct

namespace Verif.ActorCritic

open Verif.TD (Trans)
open Matrix

noncomputable section

variable {S A : Type} {k p m : ℕ}

/-! ### stochastic_ac.py -/

/-- State of a `StochasticAC` agent: stochastic_ac.py L42-45; `rBar` is only used by `StochasticAC_AVG` (L113). -/
structure SAC0 (k p : ℕ) where
  v : Fin k → ℝ
  theta : Fin p → ℝ
  ev : Fin k → ℝ
  eTheta : Fin p → ℝ
  rBar : ℝ

/-- What the parameters return during one step: `_alpha_v`, `_alpha_theta`, the two calls of `_lambda` (L89-90), `_alpha_r`. -/
structure Rates where
  alphaV : ℝ
  alphaTheta : ℝ
  lamV : ℝ
  lamTheta : ℝ
  alphaR : ℝ

/-- `episode_start`: stochastic_ac.py L57-61. -/
def acStart (g : SAC0 k p) : SAC0 k p := { g with ev := 0, eTheta := 0 }

/-- `v_next`: stochastic_ac.py L70. -/
def acNext (psi : S → Fin k → ℝ) (g : SAC0 k p) (t : Trans S A) : ℝ := if !t.absorbing then psi t.next ⬝ᵥ g.v else 0

/-- `_compute_td_n_traces`: stochastic_ac.py L84-92. Returns the TD error. -/
def acTraces (γ : ℝ) (psi : S → Fin k → ℝ) (score : (Fin p → ℝ) → S → A → Fin p → ℝ) (c : Rates) (g : SAC0 k p)
    (t : Trans S A) : ℝ × SAC0 k p :=
  let delta := t.reward + γ * acNext psi g t - psi t.state ⬝ᵥ g.v
  (delta, { g with ev := (γ * c.lamV) • g.ev + psi t.state
                   eTheta := (γ * c.lamTheta) • g.eTheta + score g.theta t.state t.action })

/-- `StochasticAC_AVG._compute_td_n_traces`: stochastic_ac.py L117-126. -/
def avgTraces (psi : S → Fin k → ℝ) (score : (Fin p → ℝ) → S → A → Fin p → ℝ) (c : Rates) (g : SAC0 k p)
    (t : Trans S A) : ℝ × SAC0 k p :=
  let delta := t.reward - g.rBar + acNext psi g t - psi t.state ⬝ᵥ g.v
  (delta, { g with rBar := g.rBar + c.alphaR * delta
                   ev := c.lamV • g.ev + psi t.state
                   eTheta := c.lamTheta • g.eTheta + score g.theta t.state t.action })

/-- The rest of `fit` for one transition: stochastic_ac.py L74-82. -/
def acApply (c : Rates) (r : ℝ × SAC0 k p) : SAC0 k p :=
  let g := r.2
  let g := { g with v := g.v + (c.alphaV * r.1) • g.ev }
  { g with theta := g.theta + (c.alphaTheta * r.1) • g.eTheta }

/-- `StochasticAC.fit` for one transition: stochastic_ac.py L63-82. -/
def acStep (γ : ℝ) (psi : S → Fin k → ℝ) (score : (Fin p → ℝ) → S → A → Fin p → ℝ) (g : SAC0 k p)
    (x : Rates × Trans S A) : SAC0 k p := acApply x.1 (acTraces γ psi score x.1 g x.2)

/-- `StochasticAC_AVG.fit` for one transition. -/
def avgStep (psi : S → Fin k → ℝ) (score : (Fin p → ℝ) → S → A → Fin p → ℝ) (g : SAC0 k p)
    (x : Rates × Trans S A) : SAC0 k p := acApply x.1 (avgTraces psi score x.1 g x.2)

/-! ### copdac_q.py -/

/-- State of a `COPDAC_Q` agent: the weights of `_mu`, `_A` and `_V`. -/
structure Copdac (k p : ℕ) where
  theta : Fin p → ℝ
  omega : Fin p → ℝ
  v : Fin k → ℝ

/-- The actor: output and Jacobian (`self._mu.diff(s)`) as functions of the weights. -/
structure Actor (S : Type) (p m : ℕ) where
  mu : (Fin p → ℝ) → S → Fin m → ℝ
  diff : (Fin p → ℝ) → S → Matrix (Fin m) (Fin p) ℝ

/-- `_nu`: copdac_q.py L95-99. -/
def nu (y : Actor S p m) (theta : Fin p → ℝ) (s : S) (a : Fin m → ℝ) : Fin p → ℝ :=
  (a - y.mu theta s) ᵥ* y.diff theta s

/-- `_Q`: copdac_q.py L89-93. -/
def copdacQ (y : Actor S p m) (psi : S → Fin k → ℝ) (g : Copdac k p) (s : S) (a : Fin m → ℝ) : ℝ :=
  psi s ⬝ᵥ g.v + nu y g.theta s a ⬝ᵥ g.omega

/-- The TD error of `fit`: copdac_q.py L69, L74. -/
def copdacDelta (γ : ℝ) (y : Actor S p m) (psi : S → Fin k → ℝ) (g : Copdac k p) (t : Trans S (Fin m → ℝ)) : ℝ :=
  let qNext := if !t.absorbing then psi t.next ⬝ᵥ g.v else 0
  t.reward + γ * qNext - copdacQ y psi g t.state t.action

/-- `COPDAC_Q.fit` for one transition: copdac_q.py L63-87; `aT`, `aO`, `aV` are the learning rates. -/
def copdacStep (γ aT aO aV : ℝ) (y : Actor S p m) (psi : S → Fin k → ℝ) (g : Copdac k p) (t : Trans S (Fin m → ℝ)) :
    Copdac k p :=
  let grad := y.diff g.theta t.state
  let delta := copdacDelta γ y psi g t
  { theta := g.theta + aT • ((g.omega ᵥ* gradᵀ) ᵥ* grad)
    omega := g.omega + (aO * delta) • nu y g.theta t.state t.action
    v := g.v + (aV * delta) • psi t.state }

end

end Verif.ActorCritic
