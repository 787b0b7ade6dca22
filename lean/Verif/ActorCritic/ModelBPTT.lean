/-
Model of a whole call of `fit` of recurrent PPO: mushroom_rl/algorithms/actor_critic/deep_actor_critic/ppo_bptt.py (PPO_BPTT.fit, _transform_to_sequences,
_update_policy, compute_gae) and deep_actor_critic.py (_preprocess_state). The loop over epochs and minibatches is that of PPO (ModelPPO.lean), over sequences instead
of states; the cutting of the sequences is `ValueFn.sequenceOf`; the networks, the optimiser and the random numbers are arguments.
-/
import Verif.ActorCritic.ModelPPO
import Verif.ValueFn.Sequences

namespace Verif.ActorCritic.Bptt

open Verif.ActorCritic.Proximal (Row Ppo PpoSys preAll updAll asInt updatePolicy Arrays)
open Verif.ValueFn (sequenceOf computeGae)

noncomputable section

variable {S H A P V R κ O : Type}

/-- What the networks receive for one transition: a padded sequence, the policy state it starts from, and its length without the padding. ppo_bptt.py L143-149. -/
structure Window (S H : Type) where
  seq : List S
  hidden : H
  length : ℕ

/-- A transition with the policy states before and after it. -/
structure SRow (S A H : Type) extends Row S A where
  hidden : H
  hiddenNext : H

/-- How a call fails: as PPO does; with an IndexError if the truncation length is zero, for then the last sequence starts after the dataset (ppo_bptt.py L110, L145); or
with a ValueError because the actions have one component, which `action.squeeze()` drops (recurrent_torch_policy.py L37-38). -/
inductive Err
  | ppo (e : Proximal.Err)
  | index
  | shape

/-- What the agent is made of. -/
structure BpttSys (S H A P V R κ O : Type) where
  pre : P → S → S
  upd : P → List S → P
  /-- a state of zeros, the padding -/
  zero : S
  /-- prediction of the critic -/
  value : V → Window S H → ℝ
  /-- `_V.fit(state_seq, policy_state_seq, lengths, v_target, **critic_fit_params)` -/
  fitCritic : R → V → List (Window S H × ℝ) → R × V
  /-- log-probability of an action after a sequence, for the policy with these weights -/
  logp : (κ → ℝ) → Window S H → A → ℝ
  /-- `entropy_t`, which does not depend on the states -/
  entropy : (κ → ℝ) → ℝ
  grad : ((κ → ℝ) → ℝ) → (κ → ℝ) → κ → ℝ
  step : O → (κ → ℝ) → (κ → ℝ) → O × (κ → ℝ)
  shuffle : R → ℕ → R × List ℕ
  gamma : ℝ
  /-- `truncation_length` -/
  trunc : ℕ
  /-- number of components of an action -/
  actionDim : ℕ

/-- The loop of PPO over sequences. -/
def BpttSys.loop (y : BpttSys S H A P V R κ O) : PpoSys (Window S H) A P V R κ O :=
  { pre := fun _ w => w, upd := fun p _ => p, value := y.value, fitCritic := y.fitCritic, logp := y.logp, entropy := fun θ _ => y.entropy θ, grad := y.grad
    step := y.step, shuffle := y.shuffle, gamma := y.gamma }

/-- The preprocessors of the agent, which work on states: agent.py L189-215. -/
def BpttSys.states (y : BpttSys S H A P V R κ O) : PpoSys S A P V R κ O :=
  { pre := y.pre, upd := y.upd, value := fun _ _ => 0, fitCritic := fun r v _ => (r, v), logp := fun _ _ _ => 0, entropy := fun θ _ => y.entropy θ, grad := y.grad
    step := y.step, shuffle := y.shuffle, gamma := y.gamma }

/-- `_transform_to_sequences` for one array of states and one of policy states, at step `i`: ppo_bptt.py L98-149. -/
def windowOf (y : BpttSys S H A P V R κ O) (n : ℕ) (d : ℕ → SRow S A H) (states : ℕ → S) (hidden : ℕ → H) (i : ℕ) : Window S H :=
  let w := sequenceOf y.zero ((List.range n).map states) ((List.range n).map fun j => (d j).last) ((List.range n).map fun j => (d j).absorbing) y.trunc i
  ⟨w.1, hidden w.2.2, w.2.1⟩

/-- The number of epochs. -/
def epochsOf (g : Ppo P V R κ O) : ℕ := ((asInt (g.nEpochs.call []).1 (g.nEpochs.call []).2).getD 0).toNat

/-- `PPO_BPTT.fit` for a dataset of `n` transitions: ppo_bptt.py L74-96. `g0` is the content of the uninitialised array of `compute_gae`. NaN advantages are reported
before an exception of `_update_policy`; they make the weights NaN in the first step of the optimiser. The log-probabilities of the first minibatch raise if actions have one component. -/
def fit (y : BpttSys S H A P V R κ O) (g0 : ℕ → ℝ) (g : Ppo P V R κ O) (n : ℕ) (d : ℕ → SRow S A H) : Except Err (Ppo P V R κ O) :=
  let pre := updAll y.states g.pre ((List.range n).map (fun i => (d i).state))
  if y.trunc = 0 ∧ 0 < n then .error .index
  else
    let old := windowOf y n d (fun i => preAll y.states g.pre (d i).state) (fun i => (d i).hidden)
    let seq := windowOf y n d (fun i => preAll y.states pre (d i).state) (fun i => (d i).hidden)
    let next := windowOf y n d (fun i => preAll y.states pre (d i).next) (fun i => (d i).hiddenNext)
    let lam := g.lam.call []
    let gae := computeGae ⟨fun i => (d i).reward, fun i => y.value g.critic (seq i), fun i => y.value g.critic (next i),
      fun i => (d i).absorbing, fun i => (d i).last⟩ y.gamma lam.2 n g0
    match standardise ((List.range n).map gae.2) with
    | none => .error (.ppo .nan)
    | some adv =>
      let oldLogp := fun i => y.logp g.actor.weights (old i) (d i).action
      let f := y.fitCritic g.rng g.critic ((List.range n).map (fun i => (seq i, gae.1 i)))
      match updatePolicy y.loop ⟨seq, fun i => (d i).action, fun i => adv.getD i 0, oldLogp⟩ n { g with pre := pre, lam := lam.1, rng := f.1, critic := f.2 } with
      | .error e => .error (.ppo e)
      | .ok g' => if y.actionDim = 1 ∧ 0 < epochsOf g then .error .shape else .ok { g' with iter := g'.iter + 1 }

/-- A sequence of calls. -/
def run (y : BpttSys S H A P V R κ O) (g0 : ℕ → ℝ) (g : Ppo P V R κ O) : List (ℕ × (ℕ → SRow S A H)) → Except Err (Ppo P V R κ O)
  | [] => .ok g
  | d :: ds => match fit y g0 g d.1 d.2 with
    | .error e => .error e
    | .ok g' => run y g0 g' ds

end

end Verif.ActorCritic.Bptt
