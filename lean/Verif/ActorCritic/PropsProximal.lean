/-
C142: whole calls of the `fit` method of PPO.
-/
import Verif.ActorCritic.ModelPPO
import Verif.ActorCritic.PropsSac
import Verif.ValueFn.Props
import Verif.Utils.Props

namespace Verif.ActorCritic.Proximal

open Verif.Policy (Param constantParam)
open Verif.ActorCritic.Soft (Net descend)
open Verif.Utils (batchIndexes)
open Verif.ValueFn (Data)

noncomputable section

variable {S A P V R κ O : Type}

/-! ### Specification -/

/-- The clipped objective of one transition: its probability ratio times its advantage, or what the ratio, moved into the interval of width `2 ε` around one,
gives, whichever is less. -/
def clippedGain (ε ratio adv : ℝ) : ℝ := min (ratio * adv) (min (max ratio (1 - ε)) (1 + ε) * adv)

/-- The parameter gives this integer on every call. -/
structure IsInteger (p : Param) (k : ℕ) : Prop where
  constant : p.kind = .constant
  value : ∀ j, valueAt p j = k

/-- The minibatches of one epoch: every transition is in exactly one of them, none is empty and none has more than `b` transitions. -/
structure IsEpoch (n b : ℕ) (batches : List (List ℕ)) : Prop where
  once : batches.flatten.Perm (List.range n)
  sizes : ∀ idx ∈ batches, 0 < idx.length ∧ idx.length ≤ b
  number : batches.length = (n + b - 1) / b

/-- The data that the critic of the agent defines: rewards and flags of the dataset, predictions for the states as the UPDATED preprocessors give them. -/
def dataOf (y : PpoSys S A P V R κ O) (critic : V) (pre : List P) (d : ℕ → Row S A) : Data :=
  ⟨fun i => (d i).reward, fun i => y.value critic (preAll y pre (d i).state), fun i => y.value critic (preAll y pre (d i).next), fun i => (d i).absorbing,
    fun i => (d i).last⟩

/-- Two agents that differ only in what is left in the gradient buffers. -/
def SameButBuffers (g g' : Ppo P V R κ O) : Prop := { g with actor := g'.actor } = g' ∧ (g.actor.opt, g.actor.weights) = (g'.actor.opt, g'.actor.weights)

/-! ### Lemmas -/

/-- The loss of a minibatch: the mean of the opposite of the clipped objective of its transitions. -/
theorem lossOf_eq (y : PpoSys S A P V R κ O) (c : Arrays S A) (ε ent : ℝ) (idx : List ℕ) (θ : κ → ℝ) :
    lossOf y c ε ε ent idx θ = -((idx.map fun i => clippedGain ε (Real.exp (y.logp θ (c.obs i) (c.act i) - c.old i)) (c.adv i)).sum / idx.length) -
      ent * y.entropy θ (idx.map c.obs) := by
  simp only [lossOf, meanOf]
  congr 3
  · congr 1
    induction idx with
    | nil => rfl
    | cons i l ih => simp only [List.map_cons, List.zipWith_cons_cons, ih, clippedGain]
  · simp

/-- The parameters of the clipping and of the entropy after `k` calls. -/
def after (p : Param) (k : ℕ) : Param := (fun p => (p.call []).1)^[k] p

theorem after_succ (p : Param) (k : ℕ) : after (p.call []).1 k = after p (k + 1) := by simp [after, Function.iterate_succ_apply]

theorem call_value (p : Param) : (p.call []).2 = valueAt p 1 := rfl

theorem read_value (p : Param) : (p.call []).1.getValue [] = valueAt p 1 := rfl

/-- Minibatch steps from any state of the agent. -/
theorem fold_batches (y : PpoSys S A P V R κ O) (c : Arrays S A) (l : List (List ℕ)) (g : Ppo P V R κ O) :
    let g' := l.foldl (batchStep y c) g
    (g'.actor.opt, g'.actor.weights) =
      (l.mapIdx fun k idx => lossOf y c (valueAt g.eps (k + 1)) (valueAt g.eps (k + 1)) (valueAt g.ent (k + 1)) idx).foldl
        (descend y.step y.grad) (g.actor.opt, g.actor.weights) ∧
    g'.eps = after g.eps l.length ∧ g'.ent = after g.ent l.length ∧
    { g' with actor := g.actor, eps := g.eps, ent := g.ent } = g := by
  induction l generalizing g with
  | nil => exact ⟨rfl, rfl, rfl, rfl⟩
  | cons idx l ih =>
    obtain ⟨h1, h2, h3, h4⟩ := ih (batchStep y c g idx)
    simp only [List.foldl_cons, List.mapIdx_cons, List.length_cons]
    refine ⟨?_, ?_, ?_, ?_⟩
    · rw [h1]
      congr 1
      · simp only [batchStep, Net.step, Net.backward, Net.zeroGrad, zero_add, descend, call_value, read_value]
    · rw [h2]; exact after_succ _ _
    · rw [h3]; exact after_succ _ _
    · have := congrArg (fun x : Ppo P V R κ O => { x with actor := g.actor, eps := g.eps, ent := g.ent }) h4
      exact this

theorem asInt_int (p : Param) (k : ℕ) (h : IsInteger p k) : asInt (p.call []).1 (p.call []).2 = some (k : ℤ) := by
  have hv : (p.call []).2 = k := h.value 1
  have hk : (p.call []).1.kind = .constant := h.constant
  unfold asInt
  rw [if_pos ⟨hk, (k : ℤ), by rw [hv]; simp⟩, hv]
  simp

theorem isInteger_call (p : Param) (k : ℕ) (h : IsInteger p k) : IsInteger (p.call []).1 k :=
  ⟨h.constant, fun j => by rw [valueAt_succ]; exact h.value _⟩

theorem isEpoch_of (n b : ℕ) (hb : 0 < b) (p : List ℕ) (hp : p.Perm (List.range n)) : IsEpoch n b (batchIndexes n b p) := by
  refine ⟨?_, ?_, ?_⟩
  · rw [(Utils.C39_partition n b hb p hp).1]; exact hp
  · intro idx hi
    obtain ⟨i, hl, rfl⟩ := List.getElem_of_mem hi
    obtain ⟨h1, h2, _⟩ := Utils.C39_sizes n b hb p hp i hl
    exact ⟨h2, by rw [h1]; exact min_le_left _ _⟩
  · rw [← Utils.C39_number n b hb]; simp [batchIndexes]

theorem mapIdx_append_shift {X Y : Type} (f : ℕ → X → Y) (a b : List X) :
    (a ++ b).mapIdx f = a.mapIdx f ++ b.mapIdx (fun k => f (k + a.length)) := by
  apply List.ext_getElem?
  intro i
  by_cases h : i < a.length
  · rw [List.getElem?_append_left (by simpa using h)]; simp [List.getElem?_mapIdx, List.getElem?_append_left h]
  · rw [List.getElem?_append_right (by simpa using h)]
    simp only [List.getElem?_mapIdx, List.getElem?_append_right (not_lt.1 h), List.length_mapIdx]
    congr 2
    omega

theorem valueAt_after (p : Param) (a k : ℕ) : valueAt (after p a) k = valueAt p (k + a) := by
  simp only [valueAt, after]
  rw [← Function.iterate_add_apply]

theorem after_after (p : Param) (a b : ℕ) : after (after p a) b = after p (a + b) := by
  simp only [after]; rw [← Function.iterate_add_apply, Nat.add_comm]

/-- All the epochs, from any state of the agent. -/
theorem epochs_eq (y : PpoSys S A P V R κ O) (hsh : ∀ r n, (y.shuffle r n).2.Perm (List.range n)) (c : Arrays S A) (n b : ℕ) (hb : 0 < b) (E : ℕ)
    (g : Ppo P V R κ O) (hB : IsInteger g.batchSize b) :
    ∃ (g' : Ppo P V R κ O) (batches : List (List (List ℕ))), epochs y c n E g = .ok g' ∧ batches.length = E ∧ (∀ e ∈ batches, IsEpoch n b e) ∧
      (g'.actor.opt, g'.actor.weights) =
        (batches.flatten.mapIdx fun k idx => lossOf y c (valueAt g.eps (k + 1)) (valueAt g.eps (k + 1)) (valueAt g.ent (k + 1)) idx).foldl
          (descend y.step y.grad) (g.actor.opt, g.actor.weights) ∧
      g'.eps = after g.eps batches.flatten.length ∧ g'.ent = after g.ent batches.flatten.length ∧
      g'.pre = g.pre ∧ g'.critic = g.critic ∧ g'.iter = g.iter ∧ g'.lam = g.lam ∧ g'.nEpochs = g.nEpochs ∧ IsInteger g'.batchSize b := by
  induction E generalizing g with
  | zero => exact ⟨g, [], rfl, rfl, by simp, rfl, rfl, rfl, rfl, rfl, rfl, rfl, rfl, hB⟩
  | succ E ih =>
    let g1 : Ppo P V R κ O := { g with batchSize := (g.batchSize.call []).1, rng := (y.shuffle g.rng n).1 }
    have e1 : epoch y c n g = .ok ((batchIndexes n b (y.shuffle g.rng n).2).foldl (batchStep y c) g1) := by
      simp only [epoch, asInt_int _ _ hB]
      rw [if_pos (by exact_mod_cast hb)]
      simp [g1]
    obtain ⟨f1, f2, f3, f4⟩ := fold_batches y c (batchIndexes n b (y.shuffle g.rng n).2) g1
    revert e1 f1 f2 f3 f4
    generalize hL : batchIndexes n b (y.shuffle g.rng n).2 = L
    generalize L.foldl (batchStep y c) g1 = g2
    intro e1 f1 f2 f3 f4
    have hB2 : IsInteger g2.batchSize b := by
      have : g2.batchSize = g1.batchSize := by have := congrArg Ppo.batchSize f4; exact this
      rw [this]; exact isInteger_call _ _ hB
    obtain ⟨g', bs, h1, h2, h3, h4, h5, h6, h7, h8, h9, h10, h11, h12⟩ := ih g2 hB2
    have k2 : g2.eps = after g.eps L.length := f2
    have k3 : g2.ent = after g.ent L.length := f3
    refine ⟨g', L :: bs, ?_, by simp [h2], ?_, ?_, ?_, ?_, ?_, ?_, ?_, ?_, ?_, h12⟩
    · simp only [epochs, e1, h1]
    · intro e he
      rcases List.mem_cons.1 he with rfl | he
      · rw [← hL]; exact isEpoch_of n b hb _ (hsh _ _)
      · exact h3 e he
    · rw [h4, f1, List.flatten_cons, mapIdx_append_shift, List.foldl_append]
      simp only [k2, k3, valueAt_after]
      congr 1
      congr 1
      funext k idx
      have : k + 1 + L.length = k + L.length + 1 := by omega
      rw [this]
    · rw [h5, k2, after_after, List.flatten_cons, List.length_append]
    · rw [h6, k3, after_after, List.flatten_cons, List.length_append]
    · rw [h7]; have := congrArg Ppo.pre f4; exact this
    · rw [h8]; have := congrArg Ppo.critic f4; exact this
    · rw [h9]; have := congrArg Ppo.iter f4; exact this
    · rw [h10]; have := congrArg Ppo.lam f4; exact this
    · rw [h11]; have := congrArg Ppo.nEpochs f4; exact this

/-! ### Theorems -/

/-- C142. A call of `fit` with at least two transitions, a fixed number `E` of epochs and a fixed size `b` of minibatches.
(1) The preprocessors are updated with the states; the critic is fitted to the states and to the value targets, which its weights BEFORE the fit give.
(2) The policy makes one step of its optimiser per minibatch, whatever was left in its gradient buffer. In every epoch each transition is used exactly once.
(3) The loss of the minibatch number `k` is the opposite of the mean of the clipped objective of its transitions, minus the entropy bonus. Each transition comes
with its own advantage, standardised over the dataset, and with the probability that the policy BEFORE the fit gave to its action, in the state as the
preprocessors BEFORE the fit show it. The width of the interval of the ratios is that of the `k`-th call of its parameter, on both sides.
(4) The parameters of the clipping and of the entropy move on once per minibatch. -/
theorem C142_fit (y : PpoSys S A P V R κ O) (hsh : ∀ r n, (y.shuffle r n).2.Perm (List.range n)) (g0 : ℕ → ℝ) (g : Ppo P V R κ O) (n : ℕ) (hn : 2 ≤ n)
    (d : ℕ → Row S A) (E b : ℕ) (hb : 0 < b) (hE : IsInteger g.nEpochs E) (hB : IsInteger g.batchSize b) :
    ∃ (g' : Ppo P V R κ O) (batches : List (List (List ℕ))) (adv : List ℝ), fit y g0 g n d = .ok g' ∧ batches.length = E ∧ (∀ e ∈ batches, IsEpoch n b e) ∧
      let data := dataOf y g.critic g'.pre d
      let gae := ValueFn.computeGae data y.gamma (valueAt g.lam 1) n g0
      g'.pre = updAll y g.pre ((List.range n).map fun i => (d i).state) ∧
      g'.critic = (y.fitCritic g.rng g.critic ((List.range n).map fun i => (preAll y g'.pre (d i).state, gae.1 i))).2 ∧
      standardise ((List.range n).map gae.2) = some adv ∧
      (g'.actor.opt, g'.actor.weights) = (batches.flatten.mapIdx fun k idx θ =>
        -((idx.map fun i => clippedGain (valueAt g.eps (k + 1)) (Real.exp (y.logp θ (preAll y g'.pre (d i).state) (d i).action -
            y.logp g.actor.weights (preAll y g.pre (d i).state) (d i).action)) (adv.getD i 0)).sum / idx.length) -
          valueAt g.ent (k + 1) * y.entropy θ (idx.map fun i => preAll y g'.pre (d i).state)).foldl (descend y.step y.grad)
        (g.actor.opt, g.actor.weights) ∧
      g'.eps = after g.eps batches.flatten.length ∧ g'.ent = after g.ent batches.flatten.length ∧ batches.flatten.length = E * ((n + b - 1) / b) ∧
      g'.lam = after g.lam 1 ∧ g'.iter = g.iter + 1 ∧ IsInteger g'.nEpochs E ∧ IsInteger g'.batchSize b := by
  let pre := updAll y g.pre ((List.range n).map fun i => (d i).state)
  let gae := ValueFn.computeGae (dataOf y g.critic pre d) y.gamma (valueAt g.lam 1) n g0
  obtain ⟨adv, hadv, -⟩ := C92_standardise_partial ((List.range n).map gae.2) (by simpa using hn)
  let f := y.fitCritic g.rng g.critic ((List.range n).map fun i => (preAll y pre (d i).state, gae.1 i))
  let c : Arrays S A := ⟨fun i => preAll y pre (d i).state, fun i => (d i).action, fun i => adv.getD i 0,
    fun i => y.logp g.actor.weights (preAll y g.pre (d i).state) (d i).action⟩
  obtain ⟨g', bs, h1, h2, h3, h4, h5, h6, h7, h8, h9, h10, h11, h12⟩ := epochs_eq y hsh c n b hb E
    { g with pre := pre, lam := (g.lam.call []).1, rng := f.1, critic := f.2, nEpochs := (g.nEpochs.call []).1 } hB
  have hfit : fit y g0 g n d = .ok { g' with iter := g'.iter + 1 } := by
    have hu : updatePolicy y c n { g with pre := pre, lam := (g.lam.call []).1, rng := f.1, critic := f.2 } = .ok g' := by
      simp only [updatePolicy, asInt_int _ _ hE]
      simpa using h1
    have hs : standardise ((List.range n).map (ValueFn.computeGae ⟨fun i => (d i).reward, fun i => y.value g.critic (preAll y pre (d i).state),
      fun i => y.value g.critic (preAll y pre (d i).next), fun i => (d i).absorbing, fun i => (d i).last⟩ y.gamma (g.lam.call []).2 n g0).2) = some adv := hadv
    simp only [fit]
    rw [hs]
    show (updatePolicy y c n { g with pre := pre, lam := (g.lam.call []).1, rng := f.1, critic := f.2 }).map _ = _
    rw [hu]
    rfl
  have hcount : bs.flatten.length = E * ((n + b - 1) / b) := by
    rw [List.length_flatten, ← h2]
    clear h4 h5 h6 h1 h2 hfit
    induction bs with
    | nil => simp
    | cons e bs ih =>
      rw [List.map_cons, List.sum_cons, ih fun e he => h3 e (by simp [he]), (h3 e (by simp)).number, List.length_cons]
      ring
  dsimp only at h7 h8 h9 h10 h11
  have h7' : ({ g' with iter := g'.iter + 1 } : Ppo P V R κ O).pre = pre := h7
  refine ⟨_, bs, adv, hfit, h2, h3, h7', ?_, ?_, ?_, h5, h6, hcount, h10, by rw [← h9], ?_, h12⟩
  · rw [h7']; exact h8
  · rw [h7']; exact hadv
  · rw [h7']
    refine Eq.trans h4 ?_
    congr 1
    congr 1
    funext k idx θ
    exact lossOf_eq y c _ _ idx θ
  · show IsInteger g'.nEpochs E
    rw [h11]; exact isInteger_call _ _ hE

/-- C142. The advantage of a transition: the generalised advantage over the rest of its own trajectory, minus the mean of the dataset, divided by the standard
deviation of the dataset (plus a small number). -/
theorem C142_advantages (data : Data) (hd : ValueFn.AbsorbingIsLast data) (γ lam : ℝ) (n : ℕ) (hn : 2 ≤ n) (g0 : ℕ → ℝ) (adv : List ℝ)
    (h : standardise ((List.range n).map (ValueFn.computeGae data γ lam n g0).2) = some adv) :
    ∃ mean std : ℝ, mean * n = ((List.range n).map (ValueFn.computeGae data γ lam n g0).2).sum ∧ 0 ≤ std ∧
      std ^ 2 * (n - 1) = ((List.range n).map fun i => ((ValueFn.computeGae data γ lam n g0).2 i - mean) ^ 2).sum ∧
      ∀ t < n, ∃ e, ValueFn.EndsAt data n t e ∧ adv.getD t 0 = (ValueFn.generalizedAdvantage data γ lam t e - mean) / (std + 1 / 100000000) := by
  obtain ⟨s, hs, h0, hv⟩ := std_some ((List.range n).map (ValueFn.computeGae data γ lam n g0).2) (by simpa using hn)
  have hn' : (n : ℝ) ≠ 0 := by
    have : 0 < n := by omega
    positivity
  refine ⟨meanOf ((List.range n).map (ValueFn.computeGae data γ lam n g0).2), s, ?_, h0, ?_, ?_⟩
  · simp only [meanOf, List.length_map, List.length_range]
    field_simp
  · simpa [List.map_map, Function.comp_def] using hv
  · intro t ht
    obtain ⟨e, he⟩ := ValueFn.C33_every_step data n t ht
    refine ⟨e, he, ?_⟩
    rw [← (ValueFn.C33_gae data γ lam n g0 hd t e he).1]
    simp only [standardise, hs, Option.map_some, Option.some.injEq] at h
    rw [← h]
    simp [List.getD, ht]

/-- C142. Every preprocessor is updated with the states as the preprocessors before it, already updated, show them. -/
theorem C142_preprocessors (y : PpoSys S A P V R κ O) (ps : List P) (ss : List S) (k : ℕ) :
    (updAll y ps ss)[k]? = ps[k]?.map fun p => y.upd p (ss.map (preAll y ((updAll y ps ss).take k))) := by
  induction ps generalizing ss k with
  | nil => simp [updAll]
  | cons p ps ih =>
    cases k with
    | zero =>
      have : ss.map (preAll y []) = ss := by
        conv_rhs => rw [← List.map_id ss]
        rfl
      simp [updAll, this]
    | succ k =>
      simp only [updAll, List.getElem?_cons_succ, List.take_succ_cons]
      rw [ih]
      by_cases hp : ps = []
      · subst hp; simp
      · simp only [ne_eq, hp, not_false_eq_true, if_true, List.map_map]
        rfl

/-- C142. Without preprocessors the first step starts from ratios of one: the loss of the first minibatch, at the weights before the call, is the opposite of
the mean of its advantages, minus the entropy bonus. -/
theorem C142_first_loss (y : PpoSys S A P V R κ O) (θ : κ → ℝ) (d : ℕ → Row S A) (adv : ℕ → ℝ) (ε ent : ℝ) (hε : 0 ≤ ε) (idx : List ℕ) :
    -((idx.map fun i => clippedGain ε (Real.exp (y.logp θ (preAll y (updAll y [] ((List.range 0).map fun i => (d i).state)) (d i).state) (d i).action -
        y.logp θ (preAll y [] (d i).state) (d i).action)) (adv i)).sum / idx.length) - ent * y.entropy θ (idx.map fun i => (d i).state) =
      -((idx.map adv).sum / idx.length) - ent * y.entropy θ (idx.map fun i => (d i).state) := by
  have e : ∀ a, clippedGain ε 1 a = a := by
    intro a
    have : min (max (1 : ℝ) (1 - ε)) (1 + ε) = 1 := by rw [max_eq_left (by linarith), min_eq_left (by linarith)]
    simp [clippedGain, this]
  simp [updAll, preAll, e]

/-- Two results of a call that differ only in what is left in the gradient buffers. -/
inductive SameResult : Except Err (Ppo P V R κ O) → Except Err (Ppo P V R κ O) → Prop
  | error (e : Err) : SameResult (.error e) (.error e)
  | ok {g g'} : SameButBuffers g g' → SameResult (.ok g) (.ok g')

theorem same_batch (y : PpoSys S A P V R κ O) (c : Arrays S A) (g g' : Ppo P V R κ O) (h : SameButBuffers g g') (idx : List ℕ) :
    SameButBuffers (batchStep y c g idx) (batchStep y c g' idx) := by
  obtain ⟨pre, critic, ⟨w, gr, o⟩, nE, bs, eps, lam, ent, iter, rng⟩ := g
  obtain ⟨pre', critic', ⟨w', gr', o'⟩, nE', bs', eps', lam', ent', iter', rng'⟩ := g'
  obtain ⟨h1, h2⟩ := h
  simp only [Ppo.mk.injEq, Prod.mk.injEq, true_and] at h1 h2
  obtain ⟨rfl, rfl, rfl, rfl, rfl, rfl, rfl, rfl, rfl⟩ := h1
  obtain ⟨rfl, rfl⟩ := h2
  refine ⟨rfl, ?_⟩
  simp only [batchStep, Net.step, Net.backward, Net.zeroGrad, zero_add]

theorem same_fold (y : PpoSys S A P V R κ O) (c : Arrays S A) (l : List (List ℕ)) (g g' : Ppo P V R κ O) (h : SameButBuffers g g') :
    SameButBuffers (l.foldl (batchStep y c) g) (l.foldl (batchStep y c) g') := by
  induction l generalizing g g' with
  | nil => exact h
  | cons idx l ih => exact ih _ _ (same_batch y c g g' h idx)

theorem same_epochs (y : PpoSys S A P V R κ O) (c : Arrays S A) (n E : ℕ) (g g' : Ppo P V R κ O) (h : SameButBuffers g g') :
    SameResult (epochs y c n E g) (epochs y c n E g') := by
  induction E generalizing g g' with
  | zero => exact .ok h
  | succ E ih =>
    have hb : g.batchSize = g'.batchSize := by have := congrArg Ppo.batchSize h.1; exact this
    have hr : g.rng = g'.rng := by have := congrArg Ppo.rng h.1; exact this
    simp only [epochs, epoch, hb, hr]
    cases asInt (g'.batchSize.call []).1 (g'.batchSize.call []).2 with
    | none => exact .error _
    | some z =>
      dsimp only
      by_cases hz : 0 < z
      · rw [if_pos hz, if_pos hz]
        refine ih _ _ (same_fold y c _ _ _ ?_)
        refine ⟨?_, h.2⟩
        have := congrArg (fun x : Ppo P V R κ O => { x with batchSize := (g'.batchSize.call []).1, rng := (y.shuffle g'.rng n).1 }) h.1
        exact this
      · rw [if_neg hz, if_neg hz]; exact .error _

theorem same_finish (r r' : Except Err (Ppo P V R κ O)) (h : SameResult r r') :
    SameResult (r.map fun g => { g with iter := g.iter + 1 }) (r'.map fun g => { g with iter := g.iter + 1 }) := by
  cases h with
  | error e => exact .error e
  | ok hs =>
    refine .ok ⟨?_, hs.2⟩
    have := congrArg (fun x : Ppo P V R κ O => { x with iter := x.iter + 1 }) hs.1
    exact this

/-- C142. What is left in the gradient buffers of the policy never matters. -/
theorem C142_buffers (y : PpoSys S A P V R κ O) (g0 : ℕ → ℝ) (g g' : Ppo P V R κ O) (h : SameButBuffers g g') (n : ℕ) (d : ℕ → Row S A) :
    SameResult (fit y g0 g n d) (fit y g0 g' n d) := by
  obtain ⟨pre, critic, ⟨w, gr, o⟩, nE, bs, eps, lam, ent, iter, rng⟩ := g
  obtain ⟨pre', critic', ⟨w', gr', o'⟩, nE', bs', eps', lam', ent', iter', rng'⟩ := g'
  obtain ⟨h1, h2⟩ := h
  simp only [Ppo.mk.injEq, Prod.mk.injEq, true_and] at h1 h2
  obtain ⟨rfl, rfl, rfl, rfl, rfl, rfl, rfl, rfl, rfl⟩ := h1
  obtain ⟨rfl, rfl⟩ := h2
  simp only [fit, updatePolicy]
  cases standardise ((List.range n).map _) with
  | none => exact .error _
  | some adv =>
    dsimp only
    cases asInt (nE.call []).1 (nE.call []).2 with
    | none => exact .error _
    | some z =>
      dsimp only
      refine same_finish _ _ (same_epochs y _ n _ _ _ ?_)
      exact ⟨rfl, rfl⟩

/-- C142. A dataset of fewer than two transitions gives advantages that are NaN: the weights of the policy are lost. -/
theorem C142_single_refuted (y : PpoSys S A P V R κ O) (g0 : ℕ → ℝ) (g : Ppo P V R κ O) (n : ℕ) (hn : n < 2) (d : ℕ → Row S A) :
    fit y g0 g n d = .error .nan := by
  simp only [fit]
  rw [show ∀ l : List ℝ, l.length < 2 → standardise l = none from fun l hl => by simp [standardise, torchStd, hl]]
  simpa using hn

/-- C142. The number of epochs and the size of the minibatches may be parameters, but every parameter that is not constant gives floats, also when they are
whole numbers: each call of `fit` raises TypeError. -/
theorem C142_schedule_refuted (y : PpoSys S A P V R κ O) (g0 : ℕ → ℝ) (g : Ppo P V R κ O) (n : ℕ) (hn : 2 ≤ n) (d : ℕ → Row S A)
    (h : g.nEpochs.kind ≠ .constant ∨ g.batchSize.kind ≠ .constant ∧ ∃ E, 0 < E ∧ IsInteger g.nEpochs E) : fit y g0 g n d = .error .type := by
  have hnone : ∀ (p : Param) x, p.kind ≠ .constant → asInt (p.call []).1 x = none := by
    intro p x hp
    unfold asInt
    exact if_neg fun hc => hp hc.1
  simp only [fit]
  obtain ⟨adv, hadv, -⟩ := C92_standardise_partial ((List.range n).map (ValueFn.computeGae ⟨fun i => (d i).reward, fun i => y.value g.critic (preAll y (updAll y g.pre ((List.range n).map fun i => (d i).state)) (d i).state),
      fun i => y.value g.critic (preAll y (updAll y g.pre ((List.range n).map fun i => (d i).state)) (d i).next), fun i => (d i).absorbing, fun i => (d i).last⟩ y.gamma (g.lam.call []).2 n g0).2) (by simpa using hn)
  rw [hadv]
  simp only [updatePolicy]
  rcases h with h | ⟨h, E, hE, hi⟩
  · rw [hnone _ _ h]; rfl
  · rw [asInt_int _ _ hi]
    obtain ⟨E, rfl⟩ : ∃ k, E = k + 1 := ⟨E - 1, by omega⟩
    simp only [Int.toNat_natCast, epochs, epoch]
    rw [hnone _ _ h]; rfl

/-- A sequence of calls of `fit`, until one fails. -/
def run (y : PpoSys S A P V R κ O) (g0 : ℕ → ℝ) : Ppo P V R κ O → List (ℕ × (ℕ → Row S A)) → Except Err (Ppo P V R κ O)
  | g, [] => .ok g
  | g, d :: ds => match fit y g0 g d.1 d.2 with
    | .error e => .error e
    | .ok g => run y g0 g ds

/-- C142. From construction on, however many datasets of at least two transitions are fitted, no call fails; the schedules of the clipping and of the entropy bonus
depend only on the number of minibatches so far. -/
theorem C142_run (y : PpoSys S A P V R κ O) (hsh : ∀ r n, (y.shuffle r n).2.Perm (List.range n)) (g0 : ℕ → ℝ) (E b : ℕ) (hb : 0 < b)
    (ds : List (ℕ × (ℕ → Row S A))) (hds : ∀ d ∈ ds, 2 ≤ d.1) (g : Ppo P V R κ O) (hE : IsInteger g.nEpochs E) (hB : IsInteger g.batchSize b) :
    ∃ g', run y g0 g ds = .ok g' ∧ g'.iter = g.iter + ds.length ∧ g'.lam = after g.lam ds.length ∧
      g'.eps = after g.eps (ds.map fun d => E * ((d.1 + b - 1) / b)).sum ∧ g'.ent = after g.ent (ds.map fun d => E * ((d.1 + b - 1) / b)).sum := by
  induction ds generalizing g with
  | nil => exact ⟨g, rfl, rfl, rfl, rfl, rfl⟩
  | cons d ds ih =>
    obtain ⟨g1, bs, adv, h1, -, -, -, -, -, -, h2, h3, h4, h5, h6, h7, h8⟩ := C142_fit y hsh g0 g d.1 (hds d (by simp)) d.2 E b hb hE hB
    obtain ⟨g', r1, r2, r3, r4, r5⟩ := ih (fun d hd => hds d (by simp [hd])) g1 h7 h8
    refine ⟨g', by simp only [run, h1, r1], by rw [r2, h6, List.length_cons]; omega, ?_, ?_, ?_⟩
    · rw [r3, h5, after_after, List.length_cons, Nat.add_comm]
    · rw [r4, h2, h4, after_after, List.map_cons, List.sum_cons]
    · rw [r5, h3, h4, after_after, List.map_cons, List.sum_cons]

/-! ### Satisfiable hypotheses -/

theorem isInteger_const (k : ℕ) : IsInteger (constantParam k none none true) k := ⟨rfl, fun j => valueAt_constant _ _ _⟩

/-- An agent with one weight, whose policy gives the action `a` the log-probability `θ * a`, and a dataset of three transitions in two trajectories. -/
def demoSys : PpoSys ℝ ℝ ℝ ℝ Unit Unit Unit :=
  { pre := fun p s => s - p, upd := fun _ ss => ss.sum / ss.length, value := fun v s => v * s, fitCritic := fun _ v _ => ((), v + 1), logp := fun θ _ a => θ () * a
    entropy := fun _ _ => 0, grad := fun f θ _ => deriv (fun x => f fun _ => x) (θ ()), step := fun _ w gr => ((), fun i => w i - gr i), shuffle := fun _ n => ((), List.range n)
    gamma := 9 / 10 }

def demoAgent : Ppo ℝ ℝ Unit Unit Unit :=
  ⟨[0, 1], 1, ⟨fun _ => 0, fun _ => 7, ()⟩, constantParam (4 : ℕ) none none true, constantParam (2 : ℕ) none none true, constantParam (1 / 5) none none true,
    constantParam (19 / 20) none none true, constantParam 0 none none true, 1, ()⟩

def demoRows : ℕ → Row ℝ ℝ := fun i => ⟨i, 1, 1, i + 1, i == 1, i == 1⟩

example : ∃ g', fit demoSys (fun _ => 0) demoAgent 3 demoRows = .ok g' ∧ g'.iter = 2 := by
  obtain ⟨g', _, _, h, _, _, _, _, _, _, _, _, _, _, h2, _⟩ := C142_fit demoSys (fun _ n => List.Perm.refl _) (fun _ => 0) demoAgent 3 (by norm_num) demoRows 4 2 (by norm_num)
    (isInteger_const 4) (isInteger_const 2)
  exact ⟨g', h, h2⟩

-- C142_schedule_refuted: a number of epochs that falls linearly, and a size of minibatches that does.
example := C142_schedule_refuted demoSys (fun _ => 0) { demoAgent with nEpochs := ⟨.linear (-1), 4, some 1, none, true, fun _ => 0⟩ } 3 (by norm_num) demoRows (.inl (by simp))
example := C142_schedule_refuted demoSys (fun _ => 0) { demoAgent with batchSize := ⟨.linear (-1), 4, some 1, none, true, fun _ => 0⟩ } 3 (by norm_num) demoRows
  (.inr ⟨by simp, 4, by norm_num, isInteger_const 4⟩)

example : ValueFn.AbsorbingIsLast (dataOf demoSys 1 [0, 1] demoRows) := fun _ h => h

end

end Verif.ActorCritic.Proximal
