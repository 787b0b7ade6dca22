/-
C138: whole calls of the `fit` method of SAC.
-/
import Verif.ActorCritic.ModelSac
import Verif.ActorCritic.PropsTarget
import Verif.ActorCritic.PropsPPO

namespace Verif.ActorCritic.Soft

open Verif.TD (Trans)
open Verif.Policy (Param constantParam)

noncomputable section

variable {S A D M N ι κ O : Type}

/-! ### Specification -/

/-- The soft value of a policy that takes, in the state of each transition, an action with this log-probability: the mean of `q - alpha * log pi`. -/
def softValue (alpha : ℝ) (samples : List (ℝ × ℝ)) : ℝ := meanOf (samples.map (fun p => p.1 - alpha * p.2))

/-- One step of an optimiser along the gradient of a function. -/
def descend (step : O → (ι → ℝ) → (ι → ℝ) → O × (ι → ℝ)) (grad : ((ι → ℝ) → ℝ) → (ι → ℝ) → ι → ℝ) (p : O × (ι → ℝ)) (f : (ι → ℝ) → ℝ) :
    O × (ι → ℝ) :=
  step p.1 p.2 (grad f p.2)

/-- Two agents that differ only in what is left in the gradient buffers. -/
def SameButBuffers (g g' : Sac M ι κ O) : Prop :=
  g.memory = g'.memory ∧ g.critic.map (fun c => (c.opt, c.weights)) = g'.critic.map (fun c => (c.opt, c.weights)) ∧ g.target = g'.target ∧
    (g.actor.opt, g.actor.weights) = (g'.actor.opt, g'.actor.weights) ∧
    (g.logAlpha.opt, g.logAlpha.weights) = (g'.logAlpha.opt, g'.logAlpha.weights) ∧ g.tau = g'.tau ∧ g.warmup = g'.warmup

/-! ### The parts of one call -/

/-- Minibatch steps of one critic, whatever its buffer contains. -/
theorem fold_fitBatch (y : SacSys S A D M N ι κ O) (l : List (List (Trans S A × ℝ))) (c : Net ι O) :
    ((l.foldl (fitBatch y) c).opt, (l.foldl (fitBatch y) c).weights) =
      (l.map (criticLoss y)).foldl (descend y.stepCritic y.gradCritic) (c.opt, c.weights) := by
  induction l generalizing c with
  | nil => rfl
  | cons d l ih =>
    rw [List.foldl_cons, ih, List.map_cons, List.foldl_cons]
    congr 1
    simp only [fitBatch, Net.step, Net.backward, Net.zeroGrad, zero_add, descend]

/-- The loss of the actor is the opposite of the soft value. -/
theorem actorLoss_eq (y : SacSys S A D M N ι κ O) (ns : List N) (batch : List (Trans S A)) (θ : κ → ℝ) (cs : List (ι → ℝ)) (a : ℝ) :
    actorLoss y ns batch θ cs a = -softValue (Real.exp a) (List.zipWith (fun n t =>
      (minOf (cs.map (fun c => y.value c t.state (y.act θ n t.state).1)), (y.act θ n t.state).2)) ns batch) := by
  unfold actorLoss softValue meanOf
  rw [List.map_zipWith, List.length_zipWith, List.length_zipWith, ← neg_div]
  congr 1
  induction ns generalizing batch with
  | nil => simp
  | cons n ns ih =>
    cases batch with
    | nil => simp
    | cons t batch =>
      simp only [List.zipWith_cons_cons, List.sum_cons, ih]
      ring

/-- The target values of one call: the actions and log-probabilities at the next states, the values of the target critics. -/
def targets (y : SacSys S A D M N ι κ O) (θ : κ → ℝ) (logAlpha : ℝ) (tcs : List (ι → ℝ)) (ns : List N) (batch : List (Trans S A)) : List ℝ :=
  bellman y.gamma batch (sacNext (tcs.map y.value) logAlpha batch (List.zipWith (fun n t => y.act θ n t.next) ns batch))

/-- C138. One call with an initialised memory that holds more samples than the warm-up: whatever the gradient buffers contain,
(1) the actor makes one step of its optimiser along the clipped gradient of the opposite of the soft value, at the weights of the critics and the temperature it finds;
(2) the temperature makes one step along the slope of its own loss, for the log-probabilities of the policy before its step;
(3) every critic makes its minibatch steps on its own loss, for the same targets, computed with the NEW policy, the NEW temperature and the OLD target critics;
(4) the target critics move towards the NEW critics. -/
theorem C138_update (y : SacSys S A D M N ι κ O) (g : Sac M ι κ O) (d : D) (hi : y.initialized (y.add g.memory d) = true)
    (batch : List (Trans S A)) (m1 m2 m3 m4 : M) (n1 n2 : List N) (mb : ℕ → List (Trans S A × ℝ) → List (List (Trans S A × ℝ)))
    (hb : y.get (y.add g.memory d) = (m1, batch)) (hw : (g.warmup.call []).2 < (y.size m1 : ℝ)) (h1 : y.noise m1 = (m2, n1)) (h2 : y.noise m2 = (m3, n2))
    (h3 : y.minibatches m3 = (m4, mb)) :
    let g' := fit y g d
    let samples := fun θ => List.zipWith (fun n t => (minOf ((g.critic.map Net.weights).map (fun c => y.value c t.state (y.act θ n t.state).1)), (y.act θ n t.state).2)) n1 batch
    let logProbs := List.zipWith (fun n t => (y.act g.actor.weights n t.state).2) n1 batch
    let q := targets y g'.actor.weights (g'.logAlpha.weights ()) g.target n2 batch
    (g'.actor.opt, g'.actor.weights) = y.stepActor g.actor.opt g.actor.weights
      (y.clip (y.gradActor (fun θ => -softValue (Real.exp (g.logAlpha.weights ())) (samples θ)) g.actor.weights)) ∧
    (g'.logAlpha.opt, g'.logAlpha.weights) = y.stepAlpha g.logAlpha.opt g.logAlpha.weights
      (fun _ => deriv (alphaLoss y.useLog y.targetEntropy logProbs) (g.logAlpha.weights ())) ∧
    g'.critic.map (fun c => (c.opt, c.weights)) = g.critic.mapIdx (fun j c =>
      ((mb j (batch.zip q)).map (criticLoss y)).foldl (descend y.stepCritic y.gradCritic) (c.opt, c.weights)) ∧
    g'.target = (updateTarget g.tau (g'.critic.map Net.weights) g.target).2 ∧ g'.tau = (updateTarget g.tau (g'.critic.map Net.weights) g.target).1 ∧
    g'.memory = m4 ∧ g'.warmup = (g.warmup.call []).1 := by
  have e : fit y g d = criticStep y batch (policyStep y batch { g with memory := m1, warmup := (g.warmup.call []).1 }) := by
    simp only [fit, hi, if_true, hb, hw]
  simp only [e, criticStep, policyStep, updateAlpha, optimizeActor, h1, h2, h3]
  refine ⟨?_, ?_, ?_, trivial, trivial, trivial, trivial⟩
  · simp only [Net.step, Net.clip, Net.backward, Net.zeroGrad, zero_add, actorLoss_eq]
  · simp only [Net.step, Net.backward, Net.zeroGrad, zero_add]
  · apply List.ext_getElem?
    intro j
    simp only [List.getElem?_map, List.getElem?_mapIdx, Option.map_map, Function.comp_def, fold_fitBatch, Net.backward]
    rfl

/-- C138. The targets the critics are fitted to: one per transition; the reward in an absorbing state, otherwise the reward plus the discounted least value of the target critics at an action
of the policy, minus the temperature times the log-probability of that action. -/
theorem C138_targets (y : SacSys S A D M N ι κ O) (θ : κ → ℝ) (logAlpha : ℝ) (tcs : List (ι → ℝ)) (hne : tcs ≠ []) (ns : List N) (batch : List (Trans S A))
    (hn : ns.length = batch.length) :
    (targets y θ logAlpha tcs ns batch).length = batch.length ∧ ∀ (i : ℕ) t n q, batch[i]? = some t → ns[i]? = some n → (targets y θ logAlpha tcs ns batch)[i]? = some q →
      ∃ v, IsLeast' (tcs.map (fun w => y.value w t.next (y.act θ n t.next).1)) v ∧
        IsCriticTarget y.gamma t (v - Real.exp logAlpha * (y.act θ n t.next).2) q := by
  obtain ⟨h1, h2⟩ := C54_sac y.gamma (tcs.map y.value) (by simpa using hne) logAlpha batch (List.zipWith (fun n t => y.act θ n t.next) ns batch) (by simp [hn])
  refine ⟨h1, fun i t n q ht hn hq => ?_⟩
  obtain ⟨v, alpha, hv, hpos, hlog, hT⟩ := h2 i t (y.act θ n t.next).1 (y.act θ n t.next).2 q ht (by simp [List.getElem?_zipWith, ht, hn]) hq
  refine ⟨v, by simpa [List.map_map, Function.comp_def] using hv, ?_⟩
  rw [← hlog, Real.exp_log hpos]
  exact hT

/-- C138. Before the end of the warm-up the policy and the temperature do not move; the critics are fitted as ever, and the target critics follow. -/
theorem C138_warmup (y : SacSys S A D M N ι κ O) (g : Sac M ι κ O) (d : D) (hi : y.initialized (y.add g.memory d) = true)
    (batch : List (Trans S A)) (m1 m2 m3 : M) (n1 : List N) (mb : ℕ → List (Trans S A × ℝ) → List (List (Trans S A × ℝ)))
    (hb : y.get (y.add g.memory d) = (m1, batch)) (hw : (y.size m1 : ℝ) ≤ (g.warmup.call []).2) (h1 : y.noise m1 = (m2, n1)) (h2 : y.minibatches m2 = (m3, mb)) :
    let g' := fit y g d
    let q := targets y g.actor.weights (g.logAlpha.weights ()) g.target n1 batch
    g'.actor = g.actor ∧ g'.logAlpha = g.logAlpha ∧
    g'.critic.map (fun c => (c.opt, c.weights)) = g.critic.mapIdx (fun j c =>
      ((mb j (batch.zip q)).map (criticLoss y)).foldl (descend y.stepCritic y.gradCritic) (c.opt, c.weights)) ∧
    g'.target = (updateTarget g.tau (g'.critic.map Net.weights) g.target).2 ∧ g'.tau = (updateTarget g.tau (g'.critic.map Net.weights) g.target).1 ∧
    g'.memory = m3 ∧ g'.warmup = (g.warmup.call []).1 := by
  have e : fit y g d = criticStep y batch { g with memory := m1, warmup := (g.warmup.call []).1 } := by
    simp only [fit, hi, if_true, hb, not_lt.2 hw, if_false]
  simp only [e, criticStep, h1, h2]
  refine ⟨trivial, trivial, ?_, trivial, trivial, trivial, trivial⟩
  apply List.ext_getElem?
  intro j
  simp only [List.getElem?_map, List.getElem?_mapIdx, Option.map_map, Function.comp_def, fold_fitBatch]
  rfl

/-- C138. While the memory is not initialised a call only stores the dataset. -/
theorem C138_before (y : SacSys S A D M N ι κ O) (g : Sac M ι κ O) (d : D) (hi : y.initialized (y.add g.memory d) = false) :
    fit y g d = { g with memory := y.add g.memory d } := by
  simp only [fit, hi, Bool.false_eq_true, if_false]

/-! ### Runs -/

theorem mapIdx_pair {X : Type} (F : ℕ → O × (ι → ℝ) → X) (l : List (Net ι O)) :
    l.mapIdx (fun j c => F j (c.opt, c.weights)) = (l.map (fun c => (c.opt, c.weights))).mapIdx F := by
  apply List.ext_getElem?
  intro j
  simp [List.getElem?_mapIdx, Option.map_map, Function.comp_def]

theorem weights_of_pairs (l l' : List (Net ι O)) (h : l.map (fun c => (c.opt, c.weights)) = l'.map (fun c => (c.opt, c.weights))) :
    l.map Net.weights = l'.map Net.weights := by
  have := congrArg (List.map Prod.snd) h
  simpa [List.map_map, Function.comp_def] using this

/-- One call preserves the equality of everything but the buffers. -/
theorem fit_same (y : SacSys S A D M N ι κ O) (g g' : Sac M ι κ O) (h : SameButBuffers g g') (d : D) : SameButBuffers (fit y g d) (fit y g' d) := by
  obtain ⟨hm, hc, ht, ha, hl, hτ, hw⟩ := h
  have hcw := weights_of_pairs _ _ hc
  simp only [Prod.mk.injEq] at ha hl
  cases hi : y.initialized (y.add g.memory d) with
  | false =>
    rw [C138_before y g d hi, C138_before y g' d (by rw [← hm]; exact hi)]
    exact ⟨by rw [hm], hc, ht, by rw [ha.1, ha.2], by rw [hl.1, hl.2], hτ, hw⟩
  | true =>
    have hi' : y.initialized (y.add g'.memory d) = true := by rw [← hm]; exact hi
    by_cases hs : (g.warmup.call []).2 < (y.size (y.get (y.add g.memory d)).1 : ℝ)
    · have hs' : (g'.warmup.call []).2 < (y.size (y.get (y.add g'.memory d)).1 : ℝ) := by rw [← hm, ← hw]; exact hs
      obtain ⟨a1, a2, a3, a4, a5, a6, a7⟩ := C138_update y g d hi _ _ _ _ _ _ _ _ rfl hs rfl rfl rfl
      obtain ⟨b1, b2, b3, b4, b5, b6, b7⟩ := C138_update y g' d hi' _ _ _ _ _ _ _ _ rfl hs' rfl rfl rfl
      rw [← hm] at b1 b2 b3 b6
      rw [← ha.1, ← ha.2, ← hl.2, ← hcw] at b1
      rw [← ha.2, ← hl.1, ← hl.2] at b2
      have e1 := a1.trans b1.symm
      have e2 := a2.trans b2.symm
      have e3 : (fit y g d).critic.map (fun c => (c.opt, c.weights)) = (fit y g' d).critic.map (fun c => (c.opt, c.weights)) := by
        rw [a3, b3, ← (Prod.mk.inj e1).2, ← (Prod.mk.inj e2).2, ← ht]
        rw [mapIdx_pair (fun j p => List.foldl (descend y.stepCritic y.gradCritic) p _), hc, ← mapIdx_pair]
      have e4 := weights_of_pairs _ _ e3
      refine ⟨a6.trans b6.symm, e3, ?_, e1, e2, ?_, ?_⟩
      · rw [a4, b4, e4, hτ, ht]
      · rw [a5, b5, e4, hτ, ht]
      · rw [a7, b7, hw]
    · have hs1 := not_lt.1 hs
      have hs' : (y.size (y.get (y.add g'.memory d)).1 : ℝ) ≤ (g'.warmup.call []).2 := by rw [← hm, ← hw]; exact hs1
      obtain ⟨a1, a2, a3, a4, a5, a6, a7⟩ := C138_warmup y g d hi _ _ _ _ _ _ rfl hs1 rfl rfl
      obtain ⟨b1, b2, b3, b4, b5, b6, b7⟩ := C138_warmup y g' d hi' _ _ _ _ _ _ rfl hs' rfl rfl
      rw [← hm] at b3 b6
      have e3 : (fit y g d).critic.map (fun c => (c.opt, c.weights)) = (fit y g' d).critic.map (fun c => (c.opt, c.weights)) := by
        rw [a3, b3, ← ha.2, ← hl.2, ← ht]
        rw [mapIdx_pair (fun j p => List.foldl (descend y.stepCritic y.gradCritic) p _), hc, ← mapIdx_pair]
      have e4 := weights_of_pairs _ _ e3
      refine ⟨a6.trans b6.symm, e3, ?_, ?_, ?_, ?_, ?_⟩
      · rw [a4, b4, e4, hτ, ht]
      · rw [a1, b1, ha.1, ha.2]
      · rw [a2, b2, hl.1, hl.2]
      · rw [a5, b5, e4, hτ, ht]
      · rw [a7, b7, hw]

/-- C138. The gradients left in the buffers never matter: two agents that differ only in their buffers stay equal in everything else through every sequence of calls. -/
theorem C138_buffers (y : SacSys S A D M N ι κ O) (g g' : Sac M ι κ O) (h : SameButBuffers g g') (ds : List D) :
    List.Forall₂ SameButBuffers (run y g ds) (run y g' ds) := by
  induction ds generalizing g g' with
  | nil => exact .nil
  | cons d ds ih => exact .cons (fit_same y g g' h d) (ih _ _ (fit_same y g g' h d))

/-- C138. If the warm-up is at least the capacity of the memory, the policy and the temperature never move, however long the agent learns. -/
theorem C138_never (y : SacSys S A D M N ι κ O) (capacity : ℕ) (hcap : ∀ m, y.size m ≤ capacity)
    (g : Sac M ι κ O) (hg : ∀ k, (capacity : ℝ) ≤ valueAt g.warmup k) (ds : List D) : ∀ s ∈ run y g ds, s.actor = g.actor ∧ s.logAlpha = g.logAlpha := by
  induction ds generalizing g with
  | nil => intro s hs; cases hs
  | cons d ds ih =>
    have key : (fit y g d).actor = g.actor ∧ (fit y g d).logAlpha = g.logAlpha ∧ ∀ k, (capacity : ℝ) ≤ valueAt (fit y g d).warmup k := by
      cases hi : y.initialized (y.add g.memory d) with
      | false => rw [C138_before y g d hi]; exact ⟨rfl, rfl, hg⟩
      | true =>
        have h0 : (capacity : ℝ) ≤ (g.warmup.call []).2 := hg 1
        have hle : (y.size (y.get (y.add g.memory d)).1 : ℝ) ≤ (g.warmup.call []).2 := le_trans (by exact_mod_cast hcap _) h0
        obtain ⟨a1, a2, -, -, -, -, a7⟩ := C138_warmup y g d hi _ _ _ _ _ _ rfl hle rfl rfl
        refine ⟨a1, a2, fun k => ?_⟩
        rw [a7, valueAt_succ]
        exact hg _
    intro s hs
    rcases List.mem_cons.1 hs with rfl | hs
    · exact ⟨key.1, key.2.1⟩
    · obtain ⟨r1, r2⟩ := ih _ key.2.2 s hs
      exact ⟨r1.trans key.1, r2.trans key.2.1⟩

/-- C138. From construction on, for every schedule of the coefficient in [0, 1], the weights of the target critics never leave an interval that contains the weights the critics had so far. -/
theorem C138_history (y : SacSys S A D M N ι κ O) (m : M) (critic : List (Net ι O)) (tc : List (ι → ℝ)) (actor : Net κ O) (o : O) (tau warmup : Param)
    (hτ : Coefficient tau) (hlen : tc.length = critic.length) (lo hi : ι → ℝ) (h0 : Within lo hi (critic.map Net.weights)) (ds : List D)
    (hs : ∀ s ∈ run y (init m critic tc actor o tau warmup) ds, Within lo hi (s.critic.map Net.weights)) :
    ∀ s ∈ run y (init m critic tc actor o tau warmup) ds, Within lo hi s.target := by
  have gen : ∀ (ds : List D) (g : Sac M ι κ O), Coefficient g.tau → Within lo hi g.target →
      (∀ s ∈ run y g ds, Within lo hi (s.critic.map Net.weights)) → ∀ s ∈ run y g ds, Within lo hi s.target := by
    intro ds
    induction ds with
    | nil => intro g _ _ _ s hs; cases hs
    | cons d ds ih =>
      intro g hτ ht hc
      have hc1 := hc (fit y g d) (by simp [run])
      have key : Coefficient (fit y g d).tau ∧ Within lo hi (fit y g d).target := by
        cases hi : y.initialized (y.add g.memory d) with
        | false => rw [C138_before y g d hi]; exact ⟨hτ, ht⟩
        | true =>
          by_cases hs : (g.warmup.call []).2 < (y.size (y.get (y.add g.memory d)).1 : ℝ)
          · obtain ⟨-, -, -, a4, a5, -, -⟩ := C138_update y g d hi _ _ _ _ _ _ _ _ rfl hs rfl rfl rfl
            rw [a4, a5]
            exact ⟨coefficient_update _ hτ _ _, within_update lo _ _ hτ _ _ hc1 ht⟩
          · obtain ⟨-, -, -, a4, a5, -, -⟩ := C138_warmup y g d hi _ _ _ _ _ _ rfl (not_lt.1 hs) rfl rfl
            rw [a4, a5]
            exact ⟨coefficient_update _ hτ _ _, within_update lo _ _ hτ _ _ hc1 ht⟩
      intro s hs
      rcases List.mem_cons.1 hs with rfl | hs
      · exact key.2
      · exact ih _ key.1 key.2 (fun s hs => hc s (List.mem_cons_of_mem _ hs)) s hs
  refine gen ds _ hτ ?_ hs
  intro w hw
  exact h0 w (initTarget_mem _ tc (by simp [hlen]) w hw)

/-- C138. With gradient descent of positive rate, the temperature rises in a call exactly if the entropy of the policy, estimated on the batch before its step, is below the target
entropy, and falls exactly if it is above; the gradient the loss of the actor left in its buffer plays no part. -/
theorem C138_temperature (y : SacSys S A D M N ι κ O) (lr : ℝ) (hlr : 0 < lr) (hstep : ∀ o w b, (y.stepAlpha o w b).2 = fun i => w i - lr * b i)
    (g : Sac M ι κ O) (d : D) (hi : y.initialized (y.add g.memory d) = true)
    (batch : List (Trans S A)) (m1 m2 : M) (n1 : List N) (hb : y.get (y.add g.memory d) = (m1, batch)) (hw : (g.warmup.call []).2 < (y.size m1 : ℝ))
    (h1 : y.noise m1 = (m2, n1)) (hne : batch ≠ []) (hn : n1.length = batch.length) :
    let entropy := -meanOf (List.zipWith (fun n t => (y.act g.actor.weights n t.state).2) n1 batch)
    (g.logAlpha.weights () < (fit y g d).logAlpha.weights () ↔ entropy < y.targetEntropy) ∧
      ((fit y g d).logAlpha.weights () < g.logAlpha.weights () ↔ y.targetEntropy < entropy) := by
  obtain ⟨-, a2, -, -, -, -, -⟩ := C138_update y g d hi batch m1 m2 _ _ n1 _ _ hb hw h1 rfl rfl
  have hl : List.zipWith (fun n (t : Trans S A) => (y.act g.actor.weights n t.state).2) n1 batch ≠ [] := by
    intro h
    have := congrArg List.length h
    rw [List.length_zipWith, hn, min_self] at this
    exact hne (List.length_eq_zero_iff.1 this)
  obtain ⟨slope, hd, s1, s2⟩ := C91_temperature y.useLog y.targetEntropy _ hl (g.logAlpha.weights ())
  have e : (fit y g d).logAlpha.weights () = g.logAlpha.weights () - lr * slope := by
    have := congrFun ((Prod.mk.inj a2).2.trans (hstep _ _ _)) ()
    rw [this, hd.deriv]
  rw [e]
  refine ⟨?_, ?_⟩
  · rw [← s1]
    constructor
    · intro h; by_contra hc; have := mul_nonneg hlr.le (not_lt.1 hc); linarith
    · intro h; have := mul_neg_of_pos_of_neg hlr h; linarith
  · rw [← s2]
    constructor
    · intro h; by_contra hc; have := mul_nonpos_of_nonneg_of_nonpos hlr.le (not_lt.1 hc); linarith
    · intro h; have := mul_pos hlr h; linarith

/-! ### A concrete agent -/

/-- States, actions and noise are numbers; every network has one weight; the memory is a list of capacity two and the batch is the whole memory; optimisers are gradient descent of rate 1/2. -/
def demo : SacSys ℝ ℝ (Trans ℝ ℝ) (List (Trans ℝ ℝ)) ℝ Unit Unit Unit where
  add m d := (d :: m).take 2
  initialized m := !m.isEmpty
  size m := (m.take 2).length
  get m := (m, m)
  noise m := (m, m.map (fun _ => 1))
  minibatches m := (m, fun _ l => l.map (fun p => [p]))
  act θ n s := (θ () * s + n, -θ ())
  value w s a := w () * (s + a)
  loss l := (l.map (fun p => (p.1 - p.2) ^ 2)).sum
  gradActor f w := fun _ => deriv (fun x => f (fun _ => x)) (w ())
  gradCritic f w := fun _ => deriv (fun x => f (fun _ => x)) (w ())
  clip b := b
  stepActor o w b := (o, fun i => w i - 1 / 2 * b i)
  stepCritic o w b := (o, fun i => w i - 1 / 2 * b i)
  stepAlpha o w b := (o, fun i => w i - 1 / 2 * b i)
  gamma := 1 / 2
  useLog := true
  targetEntropy := -1

/-- The agent with leftovers in all its buffers; the warm-up is one sample. -/
def demoAgent : Sac (List (Trans ℝ ℝ)) Unit Unit Unit :=
  { memory := [⟨0, 0, 1, 1, false⟩], critic := [⟨fun _ => 1, fun _ => 5, ()⟩, ⟨fun _ => 2, fun _ => 6, ()⟩], target := [fun _ => 1, fun _ => 2]
    actor := ⟨fun _ => 3, fun _ => 7, ()⟩, logAlpha := ⟨fun _ => 0, fun _ => 8, ()⟩, tau := constantParam (1 / 2) none none true, warmup := constantParam 1 none none true }

theorem demo_warm : ((demoAgent.warmup.call []).2 : ℝ) < (demo.size (demo.get (demo.add demoAgent.memory ⟨1, 1, 1, 0, true⟩)).1 : ℝ) := by
  have : (demoAgent.warmup.call []).2 = 1 := valueAt_constant 1 1 true
  rw [this]
  simp [demo, demoAgent]

-- C138_update: the memory is initialised and holds two samples, the warm-up is one.
example := C138_update demo demoAgent ⟨1, 1, 1, 0, true⟩ rfl _ _ _ _ _ _ _ _ rfl demo_warm rfl rfl rfl

-- C138_temperature: the estimated entropy is 3, the target -1; the temperature falls.
example : (fit demo demoAgent ⟨1, 1, 1, 0, true⟩).logAlpha.weights () < demoAgent.logAlpha.weights () := by
  refine (C138_temperature demo (1 / 2) (by norm_num) (fun _ _ _ => rfl) demoAgent ⟨1, 1, 1, 0, true⟩ rfl _ _ _ _ rfl demo_warm rfl
    (by simp [demo, demoAgent]) (by simp [demo])).2.2 ?_
  simp [demo, demoAgent, meanOf]
  norm_num

-- C138_targets: two transitions.
example := C138_targets demo (fun _ => 3) 0 demoAgent.target (by simp [demoAgent]) [1, 1] [⟨0, 0, 1, 1, false⟩, ⟨1, 1, 1, 0, true⟩] rfl

-- C138_warmup: with a warm-up of two samples.
example := C138_warmup demo { demoAgent with warmup := constantParam 2 none none true } ⟨1, 1, 1, 0, true⟩ rfl _ _ _ _ _ _ rfl
  (by rw [show ((constantParam 2 none none true).call []).2 = 2 from valueAt_constant 2 1 true]; simp [demo, demoAgent]) rfl rfl

-- C138_never: the capacity is two.
example (ds : List (Trans ℝ ℝ)) := C138_never demo 2 (fun m => by simp [demo]) { demoAgent with warmup := constantParam 2 none none true }
  (fun k => by rw [valueAt_constant]; norm_num) ds

-- C138_buffers: the agent and the same agent with empty buffers.
example (ds : List (Trans ℝ ℝ)) := C138_buffers demo demoAgent { demoAgent with logAlpha := demoAgent.logAlpha.zeroGrad, actor := demoAgent.actor.zeroGrad }
  ⟨rfl, rfl, rfl, rfl, rfl, rfl, rfl⟩ ds

-- C138_history: before the first update.
example := C138_history (D := Trans ℝ ℝ) demo [] demoAgent.critic [fun _ => 0, fun _ => 0] demoAgent.actor () (constantParam (1 / 2) none none true) (constantParam 1 none none true)
  (fun k => by rw [valueAt_constant]; norm_num) rfl (fun _ => 1) (fun _ => 2) (by
    intro w hw i
    simp [demoAgent] at hw
    rcases hw with rfl | rfl <;> norm_num) [] (by simp [run])

end

end Verif.ActorCritic.Soft
