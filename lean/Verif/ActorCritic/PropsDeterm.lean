/-
C146: whole calls of the `fit` methods of DDPG, TD3 and A2C.
-/
import Verif.ActorCritic.ModelDeterm
import Verif.ActorCritic.PropsSac

namespace Verif.ActorCritic.Determ

open Verif.TD (Trans)
open Verif.DQN (Each)
open Verif.Policy (Param constantParam)
open Verif.ActorCritic.Soft (Net descend mapIdx_pair weights_of_pairs)

noncomputable section

variable {S A D M ι κ O : Type}

/-! ### Specification -/

/-- The mean value that the critics give to the actions of the actor in the states of the batch. -/
def meanValue (y : Sys S A D M ι κ O) (cs : List (ι → ℝ)) (batch : List (Trans S A)) (θ : κ → ℝ) : ℝ :=
  meanOf (batch.map (fun t => y.pick (cs.map (fun c => y.value c t.state (y.act θ t.state)))))

/-- An actor is due at a call if the number of earlier calls with an initialised memory is a multiple of the delay. -/
def Due (count : ℕ) (delay : ℝ) : Prop := ∃ k : ℤ, (count : ℝ) = k * delay

/-- Two agents that differ only in what is left in the gradient buffers. -/
def SameButBuffers (g g' : Agent M ι κ O) : Prop :=
  g.memory = g'.memory ∧ g.critic.map (fun c => (c.opt, c.weights)) = g'.critic.map (fun c => (c.opt, c.weights)) ∧
    g.targetCritic = g'.targetCritic ∧ (g.actor.opt, g.actor.weights) = (g'.actor.opt, g'.actor.weights) ∧ g.targetActor = g'.targetActor ∧
    g.tau = g'.tau ∧ g.delay = g'.delay ∧ g.fitCount = g'.fitCount

/-- The same for A2C. -/
def SameButBuffersA2c (g g' : A2c M ι κ O) : Prop :=
  g.rng = g'.rng ∧ g.critic.map (fun c => (c.opt, c.weights)) = g'.critic.map (fun c => (c.opt, c.weights)) ∧
    (g.policy.opt, g.policy.weights) = (g'.policy.opt, g'.policy.weights) ∧ g.entCoeff = g'.entCoeff

/-! ### The parts of one call -/

theorem dueWith_eq (count : ℕ) (delay : ℝ) (h : delay ≠ 0) : ∃ b, dueWith count delay = some b ∧ (b = true ↔ Due count delay) := by
  refine ⟨decide (Int.fract ((count : ℝ) / delay) = 0), by simp [dueWith, h], ?_⟩
  rw [decide_eq_true_iff, Int.fract_eq_zero_iff]
  constructor
  · rintro ⟨k, hk⟩
    exact ⟨k, by rw [hk, div_mul_cancel₀ _ h]⟩
  · rintro ⟨k, hk⟩
    exact ⟨k, by rw [hk, mul_div_cancel_right₀ _ h]⟩

/-- Minibatch steps of one critic, whatever its buffer contains. -/
theorem fold_fitBatch (y : Sys S A D M ι κ O) (l : List (List (Trans S A × ℝ))) (c : Net ι O) :
    ((l.foldl (fitBatch y) c).opt, (l.foldl (fitBatch y) c).weights) =
      (l.map (criticLoss y)).foldl (descend y.stepCritic y.gradCritic) (c.opt, c.weights) := by
  induction l generalizing c with
  | nil => rfl
  | cons d l ih =>
    rw [List.foldl_cons, ih, List.map_cons, List.foldl_cons]
    congr 1
    simp only [fitBatch, Net.step, Net.backward, Net.zeroGrad, zero_add, descend]

/-- C146. One call of `fit` of DDPG or TD3 with an initialised memory: whatever the gradient buffers contain,
(1) every critic makes its minibatch steps on its own loss, for the targets computed with the OLD target networks;
(2) if the actor is due, it makes one step of its optimiser along the clipped gradient of the opposite of the mean value of its actions, as the NEW critics
see them; otherwise it stays; the critics do not take part in this step;
(3) the target networks move towards the NEW networks, also when the actor was not due. -/
theorem C146_ddpg (y : Sys S A D M ι κ O) (g : Agent M ι κ O) (d : D) (hi : y.initialized (y.add g.memory d) = true)
    (hd : (g.delay.call []).2 ≠ 0) (batch : List (Trans S A)) (m1 m2 m3 : M) (nq : List (ι → ℝ) → (κ → ℝ) → List (Trans S A) → List ℝ)
    (mb : ℕ → List (Trans S A × ℝ) → List (List (Trans S A × ℝ))) (hb : y.get (y.add g.memory d) = (m1, batch)) (h1 : y.nextQ m1 = (m2, nq))
    (h2 : y.minibatches m2 = (m3, mb)) :
    ∃ g', fit y g d = some g' ∧
    g'.critic.map (fun c => (c.opt, c.weights)) = g.critic.mapIdx (fun j c =>
      ((mb j (batch.zip (bellman y.gamma batch (nq g.targetCritic g.targetActor batch)))).map (criticLoss y)).foldl
        (descend y.stepCritic y.gradCritic) (c.opt, c.weights)) ∧
    (Due g.fitCount (g.delay.call []).2 → (g'.actor.opt, g'.actor.weights) = y.stepActor g.actor.opt g.actor.weights
      (y.clip (y.gradActor (fun θ => -meanValue y (g'.critic.map Net.weights) batch θ) g.actor.weights))) ∧
    (¬ Due g.fitCount (g.delay.call []).2 → (g'.actor.opt, g'.actor.weights) = (g.actor.opt, g.actor.weights)) ∧
    g'.targetCritic = (updateTarget g.tau (g'.critic.map Net.weights) g.targetCritic).2 ∧
    [g'.targetActor] = (updateTarget (updateTarget g.tau (g'.critic.map Net.weights) g.targetCritic).1 [g'.actor.weights] [g.targetActor]).2 ∧
    g'.tau = (updateTarget (updateTarget g.tau (g'.critic.map Net.weights) g.targetCritic).1 [g'.actor.weights] [g.targetActor]).1 ∧
    g'.delay = (g.delay.call []).1 ∧ g'.memory = m3 ∧ g'.fitCount = g.fitCount + 1 := by
  obtain ⟨due, hdue, hiff⟩ := dueWith_eq g.fitCount _ hd
  have hcrit : ∀ l : List (Net ι O), (l.mapIdx (fun j c => (mb j (batch.zip (bellman y.gamma batch (nq g.targetCritic g.targetActor batch)))).foldl
      (fitBatch y) c)).map (fun c => (c.opt, c.weights)) = l.mapIdx (fun j c =>
      ((mb j (batch.zip (bellman y.gamma batch (nq g.targetCritic g.targetActor batch)))).map (criticLoss y)).foldl
        (descend y.stepCritic y.gradCritic) (c.opt, c.weights)) := by
    intro l
    apply List.ext_getElem?
    intro j
    simp only [List.getElem?_map, List.getElem?_mapIdx, Option.map_map, Function.comp_def, fold_fitBatch]
  have hbuf : ∀ (l : List (Net ι O)) (f : ℕ → Net ι O → ι → ℝ), (l.mapIdx (fun j c => c.backward (f j c))).map (fun c => (c.opt, c.weights)) =
      l.map (fun c => (c.opt, c.weights)) := by
    intro l f
    apply List.ext_getElem?
    intro j
    simp only [List.getElem?_map, List.getElem?_mapIdx, Option.map_map, Function.comp_def, Net.backward]
  have hfit : fit y g d = some (moveTargets (if due then optimizeActor y batch { criticStep y batch { g with memory := m1 } with delay := (g.delay.call []).1 }
      else { criticStep y batch { g with memory := m1 } with delay := (g.delay.call []).1 })) := by
    simp only [fit, hi, if_true, hb, hdue, Option.map_some]
  refine ⟨_, hfit, ?_⟩
  cases due with
  | true =>
    simp only [if_true, moveTargets, optimizeActor, criticStep, h1, h2]
    refine ⟨?_, fun _ => ?_, fun h => absurd (hiff.1 rfl) h, trivial, rfl, rfl, trivial, trivial, trivial⟩
    · rw [hbuf, hcrit]
    · generalize g.critic.mapIdx (fun j c => (mb j (batch.zip (bellman y.gamma batch (nq g.targetCritic g.targetActor batch)))).foldl (fitBatch y) c) = cs
      rw [weights_of_pairs _ _ (hbuf cs _)]
      simp only [Net.step, Net.clip, Net.backward, Net.zeroGrad, zero_add, actorLoss, meanValue]
  | false =>
    simp only [Bool.false_eq_true, if_false, moveTargets, criticStep, h1, h2]
    refine ⟨hcrit _, fun h => absurd (hiff.2 h) (by simp), fun _ => trivial, trivial, rfl, rfl, trivial, trivial, trivial⟩

/-- C146. The targets of the critics of DDPG: the reward in an absorbing state, otherwise the reward plus the discounted value that the target critics give to the action of the target actor. -/
theorem C146_ddpg_targets (y : Sys S A D M ι κ O) (hq : y.nextQ = ddpgNextQ y.pick y.value y.act) (m : M) (tcs : List (ι → ℝ)) (ta : κ → ℝ)
    (batch : List (Trans S A)) :
    Each batch (bellman y.gamma batch ((y.nextQ m).2 tcs ta batch)) (fun t q =>
      IsCriticTarget y.gamma t (y.pick (tcs.map (fun w => y.value w t.next (y.act ta t.next)))) q) := by
  rw [hq]
  exact C54_ddpg y.gamma (fun s a => y.pick (tcs.map (fun w => y.value w s a))) (y.act ta) batch

/-- C146. The targets of the critics of TD3: one sample of noise per transition; the least value of the target critics at the smoothed action of the target actor. -/
theorem C146_td3_targets {d : ℕ} (y : Sys S (Fin d → ℝ) D M ι κ O) (low high : Fin d → ℝ) (noise : M → M × ℝ × List (Fin d → ℝ))
    (hq : y.nextQ = td3NextQ y.value y.act low high noise) (m m' : M) (c : ℝ) (eps : List (Fin d → ℝ)) (hn : noise m = (m', c, eps))
    (tcs : List (ι → ℝ)) (hne : tcs ≠ []) (ta : κ → ℝ) (batch : List (Trans S (Fin d → ℝ))) (he : eps.length = batch.length) :
    (y.nextQ m).1 = m' ∧ (bellman y.gamma batch ((y.nextQ m).2 tcs ta batch)).length = batch.length ∧
    ∀ (i : ℕ) t e q, batch[i]? = some t → eps[i]? = some e → (bellman y.gamma batch ((y.nextQ m).2 tcs ta batch))[i]? = some q →
      ∃ v, IsLeast' (tcs.map (fun w => y.value w t.next (smooth c low high (y.act ta t.next) e))) v ∧ IsCriticTarget y.gamma t v q := by
  have h := C54_td3 y.gamma (tcs.map y.value) (by simpa using hne) (y.act ta) c low high batch eps he
  simp only [List.map_map, Function.comp_def] at h
  rw [hq]
  simp only [td3NextQ, hn]
  exact ⟨trivial, h⟩

/-- C146. The actor of TD3 maximises the mean value that the first critic alone gives to its actions. -/
theorem C146_td3_actor (y : Sys S A D M ι κ O) (hp : y.pick = first) (c : ι → ℝ) (cs : List (ι → ℝ)) (batch : List (Trans S A)) (θ : κ → ℝ) :
    meanValue y (c :: cs) batch θ = meanOf (batch.map (fun t => y.value c t.state (y.act θ t.state))) := by
  simp [meanValue, hp, first]

/-- C146. Before the memory is initialised a call only stores the data. -/
theorem C146_before (y : Sys S A D M ι κ O) (g : Agent M ι κ O) (d : D) (hi : y.initialized (y.add g.memory d) = false) :
    fit y g d = some { g with memory := y.add g.memory d } := by
  simp only [fit, hi, Bool.false_eq_true, if_false]

/-- C146. The only way a call can fail is a delay of zero. -/
theorem C146_zero_delay (y : Sys S A D M ι κ O) (g : Agent M ι κ O) (d : D) :
    fit y g d = none ↔ y.initialized (y.add g.memory d) = true ∧ (g.delay.call []).2 = 0 := by
  cases hi : y.initialized (y.add g.memory d) with
  | false => rw [C146_before y g d hi]; simp
  | true =>
    by_cases h : (g.delay.call []).2 = 0
    · simp [fit, hi, h, dueWith]
    · obtain ⟨g', hg, -⟩ := C146_ddpg y g d hi h _ _ _ _ _ _ rfl rfl rfl
      rw [hg]; simp [h]

/-- One call preserves the equality of everything but the buffers. -/
theorem fit_same (y : Sys S A D M ι κ O) (g g' : Agent M ι κ O) (h : SameButBuffers g g') (d : D) :
    (fit y g d = none ∧ fit y g' d = none) ∨ ∃ s s', fit y g d = some s ∧ fit y g' d = some s' ∧ SameButBuffers s s' := by
  obtain ⟨hm, hc, ht, ha, hta, hτ, hde, hn⟩ := h
  have hcw := weights_of_pairs _ _ hc
  cases hi : y.initialized (y.add g.memory d) with
  | false =>
    right
    refine ⟨_, _, C146_before y g d hi, C146_before y g' d (by rw [← hm]; exact hi), ?_⟩
    exact ⟨by rw [hm], hc, ht, ha, hta, hτ, hde, hn⟩
  | true =>
    have hi' : y.initialized (y.add g'.memory d) = true := by rw [← hm]; exact hi
    by_cases hz : (g.delay.call []).2 = 0
    · left
      exact ⟨(C146_zero_delay y g d).2 ⟨hi, hz⟩, (C146_zero_delay y g' d).2 ⟨hi', by rw [← hde]; exact hz⟩⟩
    · right
      have hz' : (g'.delay.call []).2 ≠ 0 := by rw [← hde]; exact hz
      obtain ⟨s, hs, a1, a2, a3, a4, a5, a6, a7, a8, a9⟩ := C146_ddpg y g d hi hz _ _ _ _ _ _ rfl rfl rfl
      obtain ⟨s', hs', b1, b2, b3, b4, b5, b6, b7, b8, b9⟩ := C146_ddpg y g' d hi' hz' _ _ _ _ _ _ rfl rfl rfl
      simp only [Prod.mk.injEq] at ha
      have e1 : s.critic.map (fun c => (c.opt, c.weights)) = s'.critic.map (fun c => (c.opt, c.weights)) := by
        rw [a1, b1, ← hm, ← ht, ← hta]
        rw [mapIdx_pair (fun j p => List.foldl (descend y.stepCritic y.gradCritic) p _), hc, ← mapIdx_pair]
      have e2 := weights_of_pairs _ _ e1
      have e3 : (s.actor.opt, s.actor.weights) = (s'.actor.opt, s'.actor.weights) := by
        by_cases hdue : Due g.fitCount (g.delay.call []).2
        · rw [a2 hdue, b2 (by rw [← hde, ← hn]; exact hdue), ← e2, ← ha.1, ← ha.2, ← hm]
        · rw [a3 hdue, b3 (by rw [← hde, ← hn]; exact hdue), ha.1, ha.2]
      have e4 := (Prod.mk.inj e3).2
      rw [← hτ, ← e2, ← ht] at b4 b5 b6
      rw [← e4, ← hta] at b5 b6
      refine ⟨s, s', hs, hs', ?_, e1, a4.trans b4.symm, e3, ?_, a6.trans b6.symm, ?_, ?_⟩
      · rw [a8, b8, hm]
      · exact (List.cons.inj (a5.trans b5.symm)).1
      · rw [a7, b7, hde]
      · rw [a9, b9, hn]

/-- C146. The gradients left in the buffers never matter: two agents that differ only in their buffers stay equal in everything else through every
sequence of calls, and fail at the same call, if at all. -/
theorem C146_buffers (y : Sys S A D M ι κ O) (g g' : Agent M ι κ O) (h : SameButBuffers g g') (ds : List D) :
    (run y g ds = none ∧ run y g' ds = none) ∨ ∃ l l', run y g ds = some l ∧ run y g' ds = some l' ∧ List.Forall₂ SameButBuffers l l' := by
  induction ds generalizing g g' with
  | nil => exact Or.inr ⟨[], [], rfl, rfl, .nil⟩
  | cons d ds ih =>
    rcases fit_same y g g' h d with ⟨h1, h2⟩ | ⟨s, s', h1, h2, h3⟩
    · left; simp [run, h1, h2]
    · rcases ih s s' h3 with ⟨k1, k2⟩ | ⟨l, l', k1, k2, k3⟩
      · left; simp [run, h1, h2, k1, k2]
      · right
        exact ⟨s :: l, s' :: l', by simp [run, h1, k1], by simp [run, h2, k2], .cons h3 k3⟩

/-- C146. A call of `fit` of A2C: whatever the gradient buffers contain, targets and advantages come from the critic BEFORE the call; every critic makes its minibatch
steps on its own loss for these targets; the policy makes one step of its optimiser along the clipped gradient of its loss at these advantages. -/
theorem C146_a2c (y : A2cSys S A D M ι κ O) (g : A2c M ι κ O) (d : D) (m : M) (mb : ℕ → List (Estimate S A) → List (List (Estimate S A)))
    (h : y.minibatches g.rng = (m, mb)) :
    let g' := a2cFit y g d
    let data := y.estimates (fun s => y.pick (g.critic.map (fun c => y.value c.weights s))) d
    g'.critic.map (fun c => (c.opt, c.weights)) = g.critic.mapIdx (fun j c =>
      ((mb j data).map (a2cCriticLoss y)).foldl (descend y.stepCritic y.gradCritic) (c.opt, c.weights)) ∧
    (g'.policy.opt, g'.policy.weights) = y.stepPolicy g.policy.opt g.policy.weights (y.clip (y.gradPolicy (fun θ =>
      -(meanOf (data.map (fun e => y.logp θ e.state e.action * e.adv)) + (g.entCoeff.call []).2 * y.entropy θ (data.map Estimate.state))) g.policy.weights)) ∧
    g'.rng = m ∧ g'.entCoeff = (g.entCoeff.call []).1 := by
  have hfold : ∀ (l : List (List (Estimate S A))) (c : Net ι O), ((l.foldl (a2cFitBatch y) c).opt, (l.foldl (a2cFitBatch y) c).weights) =
      (l.map (a2cCriticLoss y)).foldl (descend y.stepCritic y.gradCritic) (c.opt, c.weights) := by
    intro l
    induction l with
    | nil => intro c; rfl
    | cons d l ih =>
      intro c
      rw [List.foldl_cons, ih, List.map_cons, List.foldl_cons]
      congr 1
      simp only [a2cFitBatch, Net.step, Net.backward, Net.zeroGrad, zero_add, descend]
  simp only [a2cFit, h]
  refine ⟨?_, ?_, trivial, trivial⟩
  · apply List.ext_getElem?
    intro j
    simp only [List.getElem?_map, List.getElem?_mapIdx, Option.map_map, Function.comp_def, hfold]
  · simp only [Net.step, Net.clip, Net.backward, Net.zeroGrad, zero_add]
    have e : a2cPolicyLoss y (g.entCoeff.call []).2 (y.estimates (fun s => y.pick (g.critic.map (fun c => y.value c.weights s))) d) = fun θ =>
        -(meanOf ((y.estimates (fun s => y.pick (g.critic.map (fun c => y.value c.weights s))) d).map (fun e => y.logp θ e.state e.action * e.adv)) +
          (g.entCoeff.call []).2 * y.entropy θ ((y.estimates (fun s => y.pick (g.critic.map (fun c => y.value c.weights s))) d).map Estimate.state)) := by
      funext θ
      unfold a2cPolicyLoss
      ring
    rw [e]

/-- C146. The buffers never matter for A2C either. -/
theorem C146_a2c_buffers (y : A2cSys S A D M ι κ O) (g g' : A2c M ι κ O) (h : SameButBuffersA2c g g') (ds : List D) :
    List.Forall₂ SameButBuffersA2c (a2cRun y g ds) (a2cRun y g' ds) := by
  induction ds generalizing g g' with
  | nil => exact .nil
  | cons d ds ih =>
    have key : SameButBuffersA2c (a2cFit y g d) (a2cFit y g' d) := by
      obtain ⟨hr, hc, hp, he⟩ := h
      simp only [Prod.mk.injEq] at hp
      obtain ⟨a1, a2, a3, a4⟩ := C146_a2c y g d _ _ rfl
      obtain ⟨b1, b2, b3, b4⟩ := C146_a2c y g' d _ _ rfl
      have hv : (fun s => y.pick (g.critic.map (fun c => y.value c.weights s))) = fun s => y.pick (g'.critic.map (fun c => y.value c.weights s)) := by
        funext s
        have := weights_of_pairs _ _ hc
        have e : ∀ l : List (Net ι O), l.map (fun c => y.value c.weights s) = (l.map Net.weights).map (fun w => y.value w s) := fun l => by
          rw [List.map_map]; rfl
        rw [e, e, this]
      rw [← hv, ← hr] at b1
      rw [← hv, ← hp.1, ← hp.2, ← he] at b2
      refine ⟨by rw [a3, b3, hr], ?_, a2.trans b2.symm, by rw [a4, b4, he]⟩
      rw [a1, b1]
      rw [mapIdx_pair (fun j p => List.foldl (descend y.stepCritic y.gradCritic) p _), hc, ← mapIdx_pair]
    exact .cons key (ih _ _ key)

/-! ### A concrete agent -/

/-- States and actions are numbers; every network has one weight; the batch is the whole memory; optimisers are gradient descent of rate 1/2. -/
def demo : Sys ℝ ℝ (Trans ℝ ℝ) (List (Trans ℝ ℝ)) Unit Unit Unit where
  add m d := (d :: m).take 2
  initialized m := decide (m.length = 2)
  get m := (m, m)
  nextQ := ddpgNextQ first (fun w s a => w () * (s + a)) (fun θ s => θ () * s)
  minibatches m := (m, fun _ l => l.map (fun p => [p]))
  act θ s := θ () * s
  value w s a := w () * (s + a)
  pick := first
  loss l := (l.map (fun p => (p.1 - p.2) ^ 2)).sum
  gradActor f w := fun _ => deriv (fun x => f (fun _ => x)) (w ())
  gradCritic f w := fun _ => deriv (fun x => f (fun _ => x)) (w ())
  clip b := b
  stepActor o w b := (o, fun i => w i - 1 / 2 * b i)
  stepCritic o w b := (o, fun i => w i - 1 / 2 * b i)
  gamma := 1 / 2

/-- The agent with leftovers in all its buffers; the actor is due at every second call. -/
def demoAgent : Agent (List (Trans ℝ ℝ)) Unit Unit Unit :=
  { memory := [⟨0, 0, 1, 1, false⟩], critic := [⟨fun _ => 1, fun _ => 5, ()⟩], targetCritic := [fun _ => 1], actor := ⟨fun _ => 3, fun _ => 7, ()⟩
    targetActor := fun _ => 2, tau := constantParam (1 / 2) none none true, delay := constantParam 2 none none true, fitCount := 0 }

theorem demo_delay : (demoAgent.delay.call []).2 = 2 := valueAt_constant 2 1 true

-- C146_ddpg: the memory has two samples; the actor is due at the first call, and not due at the second one.
example := C146_ddpg demo demoAgent ⟨1, 1, 1, 0, true⟩ rfl (by rw [demo_delay]; norm_num) _ _ _ _ _ _ rfl rfl rfl
example : Due demoAgent.fitCount (demoAgent.delay.call []).2 := ⟨0, by simp [demoAgent]⟩
example : ¬ Due 1 (demoAgent.delay.call []).2 := by
  rintro ⟨k, hk⟩
  rw [demo_delay] at hk
  have : (1 : ℤ) = k * 2 := by exact_mod_cast hk
  omega

-- C146_before: the first sample.
example := C146_before demo { demoAgent with memory := [] } ⟨1, 1, 1, 0, true⟩ rfl

-- C146_zero_delay: an agent with delay zero fails as soon as its memory is initialised.
example : fit demo { demoAgent with delay := constantParam 0 none none true } ⟨1, 1, 1, 0, true⟩ = none :=
  (C146_zero_delay demo _ _).2 ⟨rfl, valueAt_constant 0 1 true⟩

-- C146_ddpg_targets: the agent above.
example := C146_ddpg_targets demo rfl [] [fun _ => 1] (fun _ => 2) [⟨0, 0, 1, 1, false⟩, ⟨1, 1, 1, 0, true⟩]

-- C146_td3_targets: two critics, one transition, actions of one component.
example (y : Sys ℝ (Fin 1 → ℝ) ℝ Unit Unit Unit Unit) := C146_td3_targets
  { y with nextQ := td3NextQ y.value y.act (fun _ => -1) (fun _ => 1) (fun m => (m, 1 / 2, [fun _ => 3])) } (fun _ => -1) (fun _ => 1)
  (fun m => (m, 1 / 2, [fun _ => 3])) rfl () () (1 / 2) [fun _ => 3] rfl [fun _ => 1, fun _ => 2] (by simp) (fun _ => 2) [⟨0, fun _ => 0, 1, 1, false⟩] rfl

-- C146_td3_actor: two critics.
example := C146_td3_actor demo rfl (fun _ => 1) [fun _ => 2] [⟨0, 0, 1, 1, false⟩] (fun _ => 3)

-- C146_buffers: the agent and the same agent with empty buffers.
example (ds : List (Trans ℝ ℝ)) := C146_buffers demo demoAgent { demoAgent with actor := demoAgent.actor.zeroGrad, critic := demoAgent.critic.map Net.zeroGrad }
  ⟨rfl, rfl, rfl, rfl, rfl, rfl, rfl, rfl⟩ ds

/-- An A2C agent whose dataset is a list of states; the action is the state, the target one, the advantage one minus the value of the state. -/
def demoA2c : A2cSys ℝ ℝ (List ℝ) Unit Unit Unit Unit where
  estimates v d := d.map (fun s => ⟨s, s, 1, 1 - v s⟩)
  minibatches m := (m, fun _ l => [l, l])
  value w s := w () * s
  pick := first
  loss l := (l.map (fun p => (p.1 - p.2) ^ 2)).sum
  logp θ s a := -(a - θ () * s) ^ 2
  entropy θ _ := θ ()
  gradPolicy f w := fun _ => deriv (fun x => f (fun _ => x)) (w ())
  gradCritic f w := fun _ => deriv (fun x => f (fun _ => x)) (w ())
  clip b := b
  stepPolicy o w b := (o, fun i => w i - 1 / 2 * b i)
  stepCritic o w b := (o, fun i => w i - 1 / 2 * b i)

/-- Its state, with leftovers in the buffers. -/
def demoA2cAgent : A2c Unit Unit Unit Unit := ⟨(), [⟨fun _ => 1, fun _ => 5, ()⟩], ⟨fun _ => 3, fun _ => 7, ()⟩, constantParam (1 / 2) none none true⟩

-- C146_a2c and C146_a2c_buffers: the agent above.
example := C146_a2c demoA2c demoA2cAgent [1, 2] _ _ rfl
example (ds : List (List ℝ)) := C146_a2c_buffers demoA2c demoA2cAgent { demoA2cAgent with policy := demoA2cAgent.policy.zeroGrad } ⟨rfl, rfl, rfl, rfl⟩ ds

end

end Verif.ActorCritic.Determ
