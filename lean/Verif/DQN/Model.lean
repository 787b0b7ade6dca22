/-
Model of the deep Q-learning agents and of the batch value-based agents.

Files: mushroom_rl/algorithms/value/dqn/*.py, mushroom_rl/algorithms/value/batch_td/*.py.

Floating point numbers are real numbers. The networks are opaque: their weights are an arbitrary type, `predict` an
arbitrary function of the weights, and one call of `approximator.fit` an arbitrary function of the weights and of the
inputs and targets it is given. The replay memory is an arbitrary state machine; the random generator is part of it.
Actions are the indices of a finite space.
-/
import Verif.TD.Lemmas
import Mathlib.Algebra.Order.Floor.Ring
import Mathlib.Data.Real.Archimedean
import Mathlib.LinearAlgebra.Matrix.NonsingularInverse

namespace Verif.DQN

open Verif.TD (Trans rowMax)

noncomputable section

variable {S A : Type}

/-! ### Targets -/

/-- `1 - absorbing` for a flag. -/
def alive (b : Bool) : ℝ := if b then 0 else 1

/-- `if absorbing.any(): q *= 1 - absorbing.reshape(-1, 1)`: dqn.py L13-14, averaged_dqn.py L59-60, fqi.py L43-44,
boosted_fqi.py L40-41, lspi.py L40-41. `q` has one row per transition. -/
def maskRows (batch : List (Trans S A)) (q : List (A → ℝ)) : List (A → ℝ) :=
  if batch.any (·.absorbing) then List.zipWith (fun t row => fun a => row a * alive t.absorbing) batch q else q

/-- `if np.any(absorbing): q *= 1 - absorbing` for one value per transition: double_dqn.py L18-19,
double_fqi.py L47-48. -/
def maskVals (batch : List (Trans S A)) (q : List ℝ) : List ℝ :=
  if batch.any (·.absorbing) then List.zipWith (fun t v => v * alive t.absorbing) batch q else q

/-- `np.clip(reward, -1, 1)` if `clip_reward`: abstract_dqn.py L95-96, L110-111. -/
def clipReward (clip : Bool) (r : ℝ) : ℝ := if clip then max (-1) (min r 1) else r

/-- `q = reward + self.mdp_info.gamma * q_next`: abstract_dqn.py L98-99, L113-114. -/
def targets (γ : ℝ) (clip : Bool) (batch : List (Trans S A)) (qNext : List ℝ) : List ℝ :=
  List.zipWith (fun t v => clipReward clip t.reward + γ * v) batch qNext

section nextQ

variable [Fintype A] [Nonempty A]

/-- `DQN._next_q`: dqn.py L11-16; `qt` is `target_approximator.predict`. -/
def dqnNext (qt : S → A → ℝ) (batch : List (Trans S A)) : List ℝ :=
  (maskRows batch (batch.map (fun t => qt t.next))).map rowMax

/-- `DoubleDQN._next_q`: double_dqn.py L13-21; `q` is `approximator.predict`. -/
def doubleNext (argmax : (A → ℝ) → A) (q qt : S → A → ℝ) (batch : List (Trans S A)) : List ℝ :=
  let maxA := batch.map (fun t => argmax (q t.next))
  maskVals batch (List.zipWith (fun t a => qt t.next a) batch maxA)

/-- `AveragedDQN._next_q`: averaged_dqn.py L53-62, with the first `fitted` of the target networks `qts`. -/
def averagedNext (fitted : ℕ) (qts : ℕ → S → A → ℝ) (batch : List (Trans S A)) : List ℝ :=
  let q := batch.map (fun t => fun a => (∑ i ∈ Finset.range fitted, qts i t.next a) / (fitted : ℝ))
  (maskRows batch q).map rowMax

/-- `DQN._next_q` in `MaxminDQN`, where the target is an ensemble of `n + 1` networks that predicts the minimum:
maxmin_dqn.py L33-41, ensemble.py L74-103. -/
def maxminNext (n : ℕ) (qts : ℕ → S → A → ℝ) (batch : List (Trans S A)) : List ℝ :=
  dqnNext (fun s a => (Finset.range (n + 1)).inf' ⟨0, by simp⟩ (fun i => qts i s a)) batch

/-- `QuantileDQN.fit`: the targets of the quantiles, quantile_dqn.py L103-114. `quant s a` are the quantiles of the
target network. -/
def quantileTargets {n : ℕ} (argmax : (A → ℝ) → A) (γ : ℝ) (clip : Bool) (qt : S → A → ℝ) (quant : S → A → Fin n → ℝ)
    (batch : List (Trans S A)) : List (Fin n → ℝ) :=
  batch.map (fun t => fun i =>
    clipReward clip t.reward + γ * (quant t.next (argmax (qt t.next)) i * alive t.absorbing))

end nextQ

/-! ### The agents -/

/-- State of an agent: replay memory (with the random generator), online network(s), target network(s), `_n_updates`. -/
structure Agent (M W T : Type) where
  memory : M
  online : W
  target : T
  nUpdates : ℕ

/-- What the agent is made of. -/
structure Sys (S A D M W T : Type) where
  /-- `_replay_memory.add(dataset, ..)` -/
  add : M → D → M
  /-- `_replay_memory.initialized` -/
  initialized : M → Bool
  /-- `_replay_memory.get(batch_size)` -/
  get : M → M × List (Trans S A)
  /-- the targets, computed with the online and the target networks -/
  targets : W → T → List (Trans S A) → List ℝ
  /-- `_replay_memory.update(td_error, idxs)`; the identity for `_fit_standard` -/
  update : M → List (Trans S A) → W → List ℝ → M
  /-- `approximator.fit(state, action, q, ..)` -/
  fitNet : M → W → List (Trans S A) → List ℝ → W
  /-- `_update_target`, after `n` updates -/
  sync : ℕ → W → T → T
  /-- `target_update_frequency` -/
  freq : ℕ

variable {D M W T : Type}

/-- `_fit_standard`, `_fit_prioritized`: abstract_dqn.py L90-120. -/
def innerFit (y : Sys S A D M W T) (g : Agent M W T) (d : D) : Agent M W T :=
  let m := y.add g.memory d
  if y.initialized m then
    let b := y.get m
    let q := y.targets g.online g.target b.2
    { g with memory := y.update b.1 b.2 g.online q, online := y.fitNet b.1 g.online b.2 q }
  else { g with memory := m }

/-- `self._n_updates += 1; if self._n_updates % self._target_update_frequency == 0: self._update_target()`:
abstract_dqn.py L86-88. A frequency of zero raises ZeroDivisionError. -/
def countUpdate (y : Sys S A D M W T) (g : Agent M W T) : Option (Agent M W T) :=
  let g := { g with nUpdates := g.nUpdates + 1 }
  if y.freq = 0 then none
  else if g.nUpdates % y.freq = 0 then some { g with target := y.sync g.nUpdates g.online g.target } else some g

/-- `AbstractDQN.fit`: abstract_dqn.py L83-88. -/
def fit (y : Sys S A D M W T) (g : Agent M W T) (d : D) : Option (Agent M W T) := countUpdate y (innerFit y g d)

/-- `CategoricalDQN.fit`, `QuantileDQN.fit`, `Rainbow.fit`: categorical_dqn.py L119-156, quantile_dqn.py L100-121,
rainbow.py L123-165: updates are only counted once the memory is initialised. -/
def fitCounting (y : Sys S A D M W T) (g : Agent M W T) (d : D) : Option (Agent M W T) :=
  let g' := innerFit y g d
  if y.initialized (y.add g.memory d) then countUpdate y g' else some g'

/-- A sequence of calls. -/
def runFits (step : Agent M W T → D → Option (Agent M W T)) (g : Agent M W T) : List D → Option (Agent M W T)
  | [] => some g
  | d :: ds => (step g d).bind (fun g' => runFits step g' ds)

/-- `_update_target` of one network: abstract_dqn.py L127-132. -/
def copyOnline (_ : ℕ) (w : W) (_ : W) : W := w

/-- `AbstractDQN.__init__`: abstract_dqn.py L58-64, L122-125. -/
def create (m : M) (w : W) : Agent M W W := { memory := m, online := w, target := w, nUpdates := 0 }

/-- Target of `AveragedDQN`: the models of the ensemble and `_n_fitted_target_models`. -/
structure Snapshots (W : Type) where
  models : ℕ → W
  fitted : ℕ

/-- `AveragedDQN._update_target`: averaged_dqn.py L44-51. -/
def averagedSync (n freq : ℕ) (k : ℕ) (w : W) (t : Snapshots W) : Snapshots W :=
  let idx := k / freq % n
  { models := fun i => if i = idx then w else t.models i
    fitted := if t.fitted < n then t.fitted + 1 else t.fitted }

/-- `AveragedDQN.__init__`: averaged_dqn.py L22-42. -/
def createAveraged (m : M) (w : W) : Agent M W (Snapshots W) :=
  { memory := m, online := w, target := { models := fun _ => w, fitted := 1 }, nUpdates := 0 }

/-- `MaxminDQN._update_target`: maxmin_dqn.py L43-45, with `n` models. -/
def maxminSync (n : ℕ) (_ : ℕ) (w t : ℕ → W) : ℕ → W := fun i => if i < n then w i else t i

/-- `MaxminDQN.fit`: maxmin_dqn.py L28-31: only the model of the random index is fitted; ensemble.py L49-53. -/
def fitOne (fitModel : W → List (Trans S A) → List ℝ → W) (idx : ℕ) (w : ℕ → W) (b : List (Trans S A)) (q : List ℝ) : ℕ → W :=
  fun i => if i = idx then fitModel (w i) b q else w i

/-! ### Categorical projection -/

/-- `self._delta = (v_max - v_min) / (n_atoms - 1)`: categorical_dqn.py L106, rainbow.py L103. -/
def delta (n : ℕ) (vMin vMax : ℝ) : ℝ := (vMax - vMin) / (n - 1)

/-- `self._a_values = np.arange(v_min, v_max + eps, self._delta)`: categorical_dqn.py L107, rainbow.py L104.
`arange(a, b, d)` has ceil((b - a) / d) elements `a + i * d`. -/
def atoms (n : ℕ) (vMin vMax eps : ℝ) : List ℝ :=
  (List.range ⌈(vMax + eps - vMin) / delta n vMin vMax⌉₊).map (fun (i : ℕ) => vMin + i * delta n vMin vMax)

/-- `bell_a`, `b`: categorical_dqn.py L130-138, rainbow.py L135-143; `g` is `gamma * (1 - absorbing)`
(`gamma ** n_steps_return * (1 - absorbing)` in Rainbow) and `z` the value of an atom. -/
def bellman (vMin vMax r g z : ℝ) : ℝ := max vMin (min (r + g * z) vMax)

/-- The indices `l` and `u` after the two corrections: categorical_dqn.py L139-145, rainbow.py L144-150. -/
def neighbours (n : ℕ) (b : ℝ) : ℤ × ℤ :=
  let l := ⌊b⌋
  let u := ⌈b⌉
  let l := if u > 0 ∧ l = u then l - 1 else l
  let u := if l < (n : ℤ) - 1 ∧ l = u then u + 1 else u
  (l, u)

/-- `m[l] += v` for an integer index: outside of the array numpy raises IndexError, negative indices count from the
end. -/
def addAt (m : List ℝ) (i : ℤ) (v : ℝ) : Option (List ℝ) :=
  let j := if i < 0 then i + m.length else i
  if 0 ≤ j ∧ j < m.length then some (m.modify j.toNat (· + v)) else none

/-- One iteration of the loop over the atoms, for one sample: categorical_dqn.py L143-148. -/
def projectStep (n : ℕ) (vMin vMax r g : ℝ) (m : List ℝ) (zp : ℝ × ℝ) : Option (List ℝ) :=
  let b := (bellman vMin vMax r g zp.1 - vMin) / delta n vMin vMax
  let lu := neighbours n b
  (addAt m lu.1 (zp.2 * (lu.2 - b))).bind (fun m => addAt m lu.2 (zp.2 * (b - lu.1)))

/-- The target distribution of one sample: categorical_dqn.py L130-148, rainbow.py L135-153; `p` are the probabilities
of the atoms `z` at the next state. -/
def project (n : ℕ) (vMin vMax r g : ℝ) (z p : List ℝ) : Option (List ℝ) :=
  (List.zip z p).foldlM (projectStep n vMin vMax r g) (List.replicate n 0)

/-- `kl`: rainbow.py L155-156, the new priority of a sample. -/
def crossEntropy (m p : List ℝ) : ℝ := -(List.zipWith (fun a b => a * Real.log (max b (1 / 10 ^ 5))) m p).sum

/-! ### Networks -/

/-- `DuelingNetwork.forward`: dueling_dqn.py L29-46, for one state. Without `avg_advantage` the maximum of L39 is a pair of values and
indices, which has no method `reshape`: AttributeError. -/
def dueling [Fintype A] (avg : Bool) (value : ℝ) (adv : A → ℝ) : Option (A → ℝ) :=
  if avg then some (fun a => value + adv a - (∑ b, adv b) / (Fintype.card A : ℝ)) else none

/-- `tau_hat`: quantile_dqn.py L91-92. -/
def tauHat (n : ℕ) : List ℝ := (List.range n).map (fun (i : ℕ) => ((i : ℝ) / n + ((i + 1 : ℕ) : ℝ) / n) / 2)

/-- The class attribute `QuantileDQN.tau_hat`: quantile_dqn.py L91-92, shared by all agents of the process; `none`
before the first agent is constructed. Constructing an agent with `n` quantiles overwrites it. -/
def constructQuantile (_ : Option (List ℝ)) (n : ℕ) : Option (List ℝ) := some (tauHat n)

/-- The quantile levels used by the loss of every agent: quantile_dqn.py L14. Without an attribute the lookup raises
AttributeError. -/
def lossLevels (shared : Option (List ℝ)) : Option (List ℝ) := shared

/-- `F.smooth_l1_loss` of one difference. -/
def smoothL1 (x : ℝ) : ℝ := if |x| < 1 then x ^ 2 / 2 else |x| - 1 / 2

/-- One term of `quantile_huber_loss`: quantile_dqn.py L13-24. -/
def quantileHuber (tau input target : ℝ) : ℝ :=
  |tau - (if target - input < 0 then 1 else 0)| * smoothL1 (input - target)

/-! ### Batch methods -/

/-- `FQI.fit`: the loop over the iterations, fqi.py L37-49. `w` are the weights of the regressor and `none` is
`self._target is None`. -/
def fqiLoop [Fintype A] [Nonempty A] (γ : ℝ) (predict : W → S → A → ℝ) (fitNet : W → List (Trans S A) → List ℝ → W)
    (batch : List (Trans S A)) : ℕ → W × Option (List ℝ) → W × Option (List ℝ)
  | 0, st => st
  | k + 1, (w, target) =>
    let q := match target with
      | none => batch.map (·.reward)
      | some _ => targets γ false batch (dqnNext (predict w) batch)
    fqiLoop γ predict fitNet batch k (fitNet w batch q, some q)

/-- State of `DoubleFQI`: the two models and the two targets. -/
structure DFQI (W : Type) where
  models : Bool → W
  target : Option (Bool → List ℝ)

/-- One iteration of `DoubleFQI.fit`: double_fqi.py L22-53; `half i` is the half of the dataset used by model `i`
(`false` is index 0). -/
def dfqiStep [Fintype A] [Nonempty A] (argmax : (A → ℝ) → A) (γ : ℝ) (predict : W → S → A → ℝ)
    (fitNet : W → List (Trans S A) → List ℝ → W) (half : Bool → List (Trans S A)) (g : DFQI W) : DFQI W :=
  let target := match g.target with
    | none => fun i => (half i).map (·.reward)
    | some _ => fun i => targets γ false (half i) (doubleNext argmax (predict (g.models i)) (predict (g.models (!i))) (half i))
  { models := fun i => fitNet (g.models i) (half i) (target i), target := some target }

/-- The halves: double_fqi.py L29-36. An odd sample at the end is not used. -/
def halves (data : List (Trans S A)) (i : Bool) : List (Trans S A) :=
  let h := data.length / 2
  if i then (data.drop h).take h else data.take h

/-- `DoubleFQI.fit`. -/
def dfqiLoop [Fintype A] [Nonempty A] (argmax : (A → ℝ) → A) (γ : ℝ) (predict : W → S → A → ℝ)
    (fitNet : W → List (Trans S A) → List ℝ → W) (data : List (Trans S A)) : ℕ → DFQI W → DFQI W
  | 0, g => g
  | k + 1, g => dfqiLoop argmax γ predict fitNet data k (dfqiStep argmax γ predict fitNet (halves data) g)

/-- State of `BoostedFQI`: the models of the ensemble, `_target`, `_prediction`, `_next_q`, `_idx`. The initial values
`0.` of `_prediction` and `_next_q` broadcast, here they are lists of zeros. -/
structure Boosted (A W : Type) where
  models : List W
  target : Option (List ℝ)
  prediction : List ℝ
  nextQ : List (A → ℝ)
  idx : ℕ

/-- First part of an iteration of `BoostedFQI.fit`: `_next_q` and the Bellman target, boosted_fqi.py L35-44. Predicting
with an index outside of the ensemble raises IndexError. -/
def boostedStart [Fintype A] [Nonempty A] (γ : ℝ) (predict : W → S → A → ℝ) (batch : List (Trans S A)) (g : Boosted A W) :
    Option (List (A → ℝ) × List ℝ) :=
  match g.target with
  | none => some (g.nextQ, batch.map (·.reward))
  | some _ => (g.models[g.idx - 1]?).map (fun w =>
      let nextQ := maskRows batch (List.zipWith (fun row t => fun a => row a + predict w t.next a) g.nextQ batch)
      (nextQ, targets γ false batch (nextQ.map rowMax)))

/-- One iteration of `BoostedFQI.fit`: boosted_fqi.py L35-52. Fitting with an index outside of the ensemble raises
IndexError. -/
def boostedStep [Fintype A] [Nonempty A] (γ : ℝ) (predict : W → S → A → ℝ) (fitNet : W → List (Trans S A) → List ℝ → W)
    (batch : List (Trans S A)) (g : Boosted A W) : Option (Boosted A W) :=
  (boostedStart γ predict batch g).bind (fun st =>
    let target := List.zipWith (· - ·) st.2 g.prediction
    let prediction := List.zipWith (· + ·) g.prediction target
    (g.models[g.idx]?).map (fun w =>
      { models := g.models.set g.idx (fitNet w batch target)
        target := some target, prediction := prediction, nextQ := st.1, idx := g.idx + 1 }))

/-- `BoostedFQI.__init__`: boosted_fqi.py L14-30, for a dataset of `len` transitions. -/
def boostedInit (models : List W) (len : ℕ) : Boosted A W :=
  { models := models, target := none, prediction := List.replicate len 0, nextQ := List.replicate len (fun _ => 0), idx := 0 }

/-- `BoostedFQI.fit`, recording the targets given to the regressors. -/
def boostedLoop [Fintype A] [Nonempty A] (γ : ℝ) (predict : W → S → A → ℝ) (fitNet : W → List (Trans S A) → List ℝ → W)
    (batch : List (Trans S A)) : ℕ → Boosted A W × List (List ℝ) → Option (Boosted A W × List (List ℝ))
  | 0, st => some st
  | k + 1, (g, fitted) => (boostedStep γ predict fitNet batch g).bind (fun g' =>
      boostedLoop γ predict fitNet batch k (g', fitted ++ [g'.target.getD []]))

/-! ### LSPI -/

/-- A transition with the features of its states. `get_action_features` puts the features of the state in the block
of the action; `phi s a` are these features. -/
structure LspiData (S A : Type) (d : ℕ) where
  batch : List (Trans S A)
  phi : S → A → Fin d → ℝ

/-- The action used at the next state: lspi.py L39-43. -/
def lspiAction (argmax : (A → ℝ) → A) {d : ℕ} (x : LspiData S A d) (w : Fin d → ℝ) (t : Trans S A) : A :=
  argmax (fun a => (x.phi t.next a ⬝ᵥ w) * (if x.batch.any (·.absorbing) then alive t.absorbing else 1))

/-- `A = phi_state_action.T.dot(phi_state_action - gamma * phi_next_state_next_action)`: lspi.py L46-47. -/
def lspiA (argmax : (A → ℝ) → A) (γ : ℝ) {d : ℕ} (x : LspiData S A d) (w : Fin d → ℝ) : Matrix (Fin d) (Fin d) ℝ :=
  fun i j => (x.batch.map (fun t =>
    x.phi t.state t.action i * (x.phi t.state t.action j - γ * x.phi t.next (lspiAction argmax x w t) j))).sum

/-- `b = phi_state_action.T.dot(reward)`: lspi.py L48. -/
def lspiB {d : ℕ} (x : LspiData S A d) : Fin d → ℝ :=
  fun i => (x.batch.map (fun t => x.phi t.state t.action i * t.reward)).sum

/-- One iteration: lspi.py L38-55. `pinv` is `np.linalg.pinv`; a matrix of full rank is inverted. -/
def lspiStep (argmax : (A → ℝ) → A) (γ : ℝ) {d : ℕ} (pinv : Matrix (Fin d) (Fin d) ℝ → Matrix (Fin d) (Fin d) ℝ)
    (x : LspiData S A d) (w : Fin d → ℝ) : Fin d → ℝ :=
  open Classical in
  let m := lspiA argmax γ x w
  if IsUnit m.det then m⁻¹.mulVec (lspiB x) else (pinv m).mulVec (lspiB x)

/-- `LSPI.fit`: lspi.py L37-57: the loop runs until the weights move by at most `eps`; `norm` is the Euclidean norm. A
run that does not end has no derivation. -/
inductive Lspi (argmax : (A → ℝ) → A) (γ : ℝ) {d : ℕ} (pinv : Matrix (Fin d) (Fin d) ℝ → Matrix (Fin d) (Fin d) ℝ)
    (norm : (Fin d → ℝ) → ℝ) (eps : ℝ) (x : LspiData S A d) : (Fin d → ℝ) → (Fin d → ℝ) → Prop
  | stop (w : Fin d → ℝ) (h : ¬ norm (lspiStep argmax γ pinv x w - w) > eps) :
      Lspi argmax γ pinv norm eps x w (lspiStep argmax γ pinv x w)
  | more (w w' : Fin d → ℝ) (h : norm (lspiStep argmax γ pinv x w - w) > eps)
      (next : Lspi argmax γ pinv norm eps x (lspiStep argmax γ pinv x w) w') : Lspi argmax γ pinv norm eps x w w'

end

end Verif.DQN
